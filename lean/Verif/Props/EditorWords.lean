/-
C66 from the words of the command line.
-/
import Verif.Spec.EditorWords
import Verif.Lemmas.Options
import Verif.Props.Editor
namespace Zdb.Editor
open Options (text spell Plain LongOpt getopt Distinct findOpt_exact findOpt_short getopt_spell getopt_plain Sound)

theorem ed_distinct : Distinct edOptions := by unfold Distinct; decide +kernel

theorem edNames_eq : edNames = edOptions.map (·.name) := by decide +kernel

theorem edNames_sound : ∀ o ∈ edNames, o ≠ [] ∧ 61 ∉ o ∧ 45 ∉ o := by decide +kernel

theorem Spells.pre {used name : Bytes} (h : Spells used name) : used <+: name := by
  rcases h with rfl | h
  · exact List.prefix_refl _
  · exact h.1

theorem Spells.sound {used name : Bytes} (h : Spells used name) (hm : name ∈ edNames) : Sound used := by
  have hs := edNames_sound _ hm
  have hp := h.pre
  refine ⟨?_, ?_, fun hx => hs.2.1 (hp.subset hx)⟩
  · rintro rfl
    rcases h with h | h
    · exact hs.1 h.symm
    · have h1 := h.2 (text "index") (by decide +kernel) List.nil_prefix
      have h2 := h.2 (text "worm") (by decide +kernel) List.nil_prefix
      exact absurd (h1.trans h2.symm) (by decide +kernel)
  · intro e
    cases used with
    | nil => cases e
    | cons b u =>
      injection e with e
      subst e
      exact hs.2.2 (hp.subset (by simp))

theorem Spells.find {used : Bytes} {o : LongOpt EdKey} (h : Spells used o.name) (ho : o ∈ edOptions) :
    Options.findOpt edOptions used = some o := by
  rcases h with rfl | h
  · exact findOpt_exact ed_distinct ho
  · refine findOpt_short ed_distinct ho h.1 (fun p hp hpre => h.2 p.name ?_ hpre)
    rw [edNames_eq]
    exact List.mem_map_of_mem hp

theorem getopt_ed (two joined : Bool) {used : Bytes} {o : LongOpt EdKey} (h : Spells used o.name) (ho : o ∈ edOptions)
    {value : Option Bytes} (hv : value.isSome = o.arg) (ws : List Bytes) :
    getopt edOptions (spell two joined used value ++ ws) = .opt o.val (value.getD []) :: getopt edOptions ws :=
  getopt_spell two joined (h.sound (by rw [edNames_eq]; exact List.mem_map_of_mem ho)) (h.find ho) hv ws

theorem Words.read {ws : List Bytes} {os : List EdOpt} {d : Bool} (h : Words ws os d) :
    (getopt edOptions ws).filterMap edTake = os ∧ (getopt edOptions ws).any isIndex = d := by
  induction h with
  | nil => exact ⟨rfl, rfl⟩
  | plain hp _ ih => rw [getopt_plain hp]; exact ih
  | index two joined hs _ ih =>
    rw [getopt_ed two joined (o := ⟨text "index", true, .index⟩) hs (by simp [edOptions]) rfl]
    exact ⟨ih.1, by simp [isIndex]⟩
  | @opt used o ws os d two joined hs _ ih =>
    cases o with
    | ns v =>
      rw [getopt_ed two joined (o := ⟨text "namespace", true, .ns⟩) hs (by simp [edOptions]) rfl]
      exact ⟨by rw [← ih.1]; rfl, by rw [← ih.2]; rfl⟩
    | password v =>
      rw [getopt_ed two joined (o := ⟨text "password", true, .password⟩) hs (by simp [edOptions]) rfl]
      exact ⟨by rw [← ih.1]; rfl, by rw [← ih.2]; rfl⟩
    | maxsize v =>
      rw [getopt_ed two joined (o := ⟨text "maxsize", true, .maxsize⟩) hs (by simp [edOptions]) rfl]
      exact ⟨by rw [← ih.1]; rfl, by rw [← ih.2]; rfl⟩
    | isPublic v =>
      rw [getopt_ed two joined (o := ⟨text "public", true, .isPublic⟩) hs (by simp [edOptions]) rfl]
      exact ⟨by rw [← ih.1]; rfl, by rw [← ih.2]; rfl⟩
    | worm v =>
      rw [getopt_ed two joined (o := ⟨text "worm", true, .worm⟩) hs (by simp [edOptions]) rfl]
      exact ⟨by rw [← ih.1]; rfl, by rw [← ih.2]; rfl⟩
    | other =>
      rw [getopt_ed two joined (o := ⟨text "help", false, .help⟩) hs (by simp [edOptions]) rfl]
      exact ⟨by rw [← ih.1]; rfl, by rw [← ih.2]; rfl⟩

/-- C66 for the words a person types, however the options are spelled: the next start of the server finds the settings asked for,
    and nothing else changed.  Partial like `C66_partial`. -/
theorem C66_words_partial {S : Settings} {n : Node} (hn : Reachable S n) {order : List Nat} (hg : Guard S n (.restart order))
    {ws : List Bytes} {os : List EdOpt} (hw : Words ws os true) {name : Bytes} {q : Asked} (hs : Says os name q) (hname : HasName n name) :
    (editProgram n ws).1 = 0 ∧
    ∀ m sent st, nodeStep S n (.restart order) = .ok m sent st →
      ∃ m', nodeStep S (editProgram n ws).2 (.restart order) = .ok m' sent st ∧ m'.br = m.br ∧ HasName m' name ∧
        (recs m').map (fun r => (r.uid, r.conf.name, r.store)) = (recs m).map (fun r => (r.uid, r.conf.name, r.store)) ∧
        ∀ r' ∈ recs m', (r'.conf.name ≠ name → r' ∈ recs m) ∧ (r'.conf.name = name → r'.conf = served S (wanted q name)) := by
  have h : editProgram n ws = editMain n os := by
    unfold editProgram
    dsimp only
    rw [hw.read.1, hw.read.2, if_pos rfl]
  rw [h]
  exact C66_partial hn hg hs hname

/-- Without a directory the tool does nothing, whatever else it is asked. -/
theorem C66_nodir {n : Node} {ws : List Bytes} {os : List EdOpt} (hw : Words ws os false) : editProgram n ws = (1, n) := by
  unfold editProgram
  dsimp only
  rw [hw.read.2]
  rfl

/-- `--index /d -na foo --max=5` -/
theorem C66_words_example : Words [text "--index", text "/d", text "-na", text "foo", text "--max=5"]
    [.ns (text "foo"), .maxsize (text "5")] true := by
  have e : [text "--index", text "/d", text "-na", text "foo", text "--max=5"] =
      spell true false (text "index") (some (text "/d")) ++ (spell false false (text "na") (optValue (.ns (text "foo"))) ++
      (spell true true (text "max") (optValue (.maxsize (text "5"))) ++ [])) := by decide +kernel
  rw [e]
  refine .index (d := false) true false (.inl rfl) (.opt false false (.inr ?_) (.opt true true (.inr ?_) .nil))
  · decide +kernel
  · decide +kernel

/-- An option without its value takes the next option for it: the password is `--public`, and the word `no` is passed over,
    so the namespace is open to read. -/
theorem C66_swallow_refuted (n : Node) :
    editProgram n [text "--index", text "/d", text "--namespace", text "foo", text "--password", text "--public", text "no"] =
      editMain n [.ns (text "foo"), .password (text "--public")] := by
  have h : getopt edOptions [text "--index", text "/d", text "--namespace", text "foo", text "--password", text "--public", text "no"] =
      [.opt .index (text "/d"), .opt .ns (text "foo"), .opt .password (text "--public")] := by decide +kernel
  unfold editProgram
  rw [h]
  rfl

end Zdb.Editor
