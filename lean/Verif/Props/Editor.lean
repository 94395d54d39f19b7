/-
C66: the namespace editor.
-/
import Verif.Lemmas.Editor
import Verif.Props.Namespaces
namespace Zdb.Editor

/-- C66.  The server is stopped in any state it can reach, the editor is called with options that ask for settings `q` of
    a namespace there is, and the server is started again.  The tool reports success.  The start succeeds if it would have without the
    edit, and makes the same namespaces with the same data and the same table of keys.  The namespace has
    the settings asked for, and those of the others are as they would have been.

    Missing: passwords of 256 bytes or more (`C66_refuted`). -/
theorem C66_partial {S : Settings} {n : Node} (hn : Reachable S n) {order : List Nat} (hg : Guard S n (.restart order))
    {os : List EdOpt} {name : Bytes} {q : Asked} (hs : Says os name q) (hname : HasName n name) :
    (editMain n os).1 = 0 ∧
    ∀ m sent st, nodeStep S n (.restart order) = .ok m sent st →
      ∃ m', nodeStep S (editMain n os).2 (.restart order) = .ok m' sent st ∧ m'.br = m.br ∧ HasName m' name ∧
        (recs m').map (fun r => (r.uid, r.conf.name, r.store)) = (recs m).map (fun r => (r.uid, r.conf.name, r.store)) ∧
        ∀ r' ∈ recs m', (r'.conf.name ≠ name → r' ∈ recs m) ∧ (r'.conf.name = name → r'.conf = served S (wanted q name)) := by
  have hi := hn.inv
  obtain ⟨a, ha, hans, hp, hw⟩ := hs.loaded
  obtain ⟨r, hr, hrn⟩ := hname
  have hlen : name.length < 256 := by
    rcases hi.shape r (mem_recs.2 hr) with h | h
    · rw [← hrn, h]; decide
    · have := h.len; rw [hrn] at this; omega
  have hfind : ∃ x, (n.slots.filterMap id).find? (fun r => r.conf.name == name) = some x := by
    cases hf : (n.slots.filterMap id).find? (fun r => r.conf.name == name) with
    | some x => exact ⟨x, rfl⟩
    | none =>
      rw [List.find?_eq_none] at hf
      exact absurd (by simpa using hrn) (hf r (mem_recs.2 hr))
  obtain ⟨x, hx⟩ := hfind
  have hxm : x ∈ recs n := List.mem_of_find?_eq_some hx
  have hed : ∃ d, editDesc a name x.desc = some d := by
    obtain ⟨c, tail, h1, -⟩ := (hi.desc x hxm).written
    have := loadDesc_accepted name c tail
    unfold editDesc
    rw [h1]
    obtain ⟨y, hy⟩ := Option.isSome_iff_exists.1 this
    rw [hy]
    exact ⟨_, rfl⟩
  obtain ⟨d, hd⟩ := hed
  have hmain : editMain n os = (0, { n with slots := n.slots.map (Option.map (editRec a name)) }) := by
    unfold editMain
    rw [ha]
    simp only [hans, hx, hd]
  rw [hmain]
  refine ⟨rfl, fun m sent st hst => ?_⟩
  simp only [nodeStep] at hst ⊢
  cases hr0 : restartNode S n order with
  | none => rw [hr0] at hst; simp at hst
  | some m0 =>
    rw [hr0] at hst
    injection hst with e1 e2 e3
    subst e1 e2 e3
    obtain ⟨him, -, -⟩ := hi.restart hg hr0
    obtain ⟨hN, -⟩ : HasName m0 name ∧ True := by
      obtain ⟨r', hr', hu⟩ := restart_keeps hi hg hr0 (mem_recs.2 hr)
      obtain ⟨-, -, hall⟩ := hi.restart hg hr0
      obtain ⟨r1, hr1, hu1, _, _, conf, -, -, -, hl, hc⟩ := hall r' hr'
      have : r1 = r := uid_inj hi.uids hr1 (mem_recs.2 hr) (by rw [← hu1, hu])
      subst this
      refine ⟨⟨r', mem_recs.1 hr', ?_⟩, trivial⟩
      rw [hc]
      have := loadDesc_name hl
      split
      · exact this.trans hrn
      · exact this.trans hrn
    obtain ⟨r1, l, h1, m', h2, h3, h4⟩ := restart_edit (a := a) hlen hp hr0
    rw [h2]
    have hr1n : r1.conf.name = nameDefault := by
      obtain ⟨d', l', hsl, hd'⟩ := him.head
      have : recs m0 = d' :: l'.filterMap id := by unfold recs; rw [hsl]; rfl
      rw [this] at h1
      injection h1 with h1 _
      rw [h1] at hd'
      exact hd'
    have hnd : ∀ y ∈ l, y.conf.name ≠ nameDefault := by
      intro y hy hc
      have := him.names
      rw [h1, List.map_cons, List.nodup_cons] at this
      exact this.1 (List.mem_map.2 ⟨y, hy, hc.trans hr1n.symm⟩)
    have hren : ∀ y : NsRec, (renew a name y).uid = y.uid ∧ (renew a name y).store = y.store ∧ (renew a name y).conf.name = y.conf.name := by
      intro y
      unfold renew
      split
      · rename_i h; exact ⟨rfl, rfl, h.symm⟩
      · exact ⟨rfl, rfl, rfl⟩
    have htriple : (recs m').map (fun r => (r.uid, r.conf.name, r.store)) = (recs m0).map (fun r => (r.uid, r.conf.name, r.store)) := by
      rw [h4, h1, List.map_cons, List.map_cons, List.map_map]
      congr 1
      · simp only [(hren r1).1, (hren r1).2.1, startConf, (hren r1).2.2]
      · apply List.map_congr_left
        intro y hy
        simp only [Function.comp, (hren y).1, (hren y).2.1, (hren y).2.2]
    refine ⟨m', rfl, h3, ?_, htriple, ?_⟩
    · obtain ⟨y, hy, hyn⟩ := hN
      have : (y.uid, y.conf.name, y.store) ∈ (recs m').map (fun r => (r.uid, r.conf.name, r.store)) := by
        rw [htriple]; exact List.mem_map.2 ⟨y, mem_recs.2 hy, rfl⟩
      obtain ⟨z, hz, hze⟩ := List.mem_map.1 this
      simp only [Prod.mk.injEq] at hze
      exact ⟨z, mem_recs.1 hz, hze.2.1.trans hyn⟩
    · intro r' hr'
      rw [h4] at hr'
      rw [h1]
      rcases List.mem_cons.1 hr' with rfl | hr'
      · have hnm : (startConf S (renew a name r1).conf).name = nameDefault := by
          show (renew a name r1).conf.name = _
          rw [(hren r1).2.2, hr1n]
        simp only [hnm]
        refine ⟨fun hne => ?_, fun he => ?_⟩
        · have : renew a name r1 = r1 := by
            unfold renew; rw [if_neg]; rw [hr1n]; exact hne
          rw [this]
          exact List.mem_cons_self ..
        · have : (renew a name r1).conf = wanted q name := by
            unfold renew; rw [if_pos (by rw [hr1n]; exact he)]; exact hw
          rw [this]
          unfold served startConf
          rw [if_pos (show (wanted q name).name = nameDefault from he.symm)]
          by_cases hz : S.maxsize = 0 <;> simp [hz]
      · obtain ⟨y, hy, rfl⟩ := List.mem_map.1 hr'
        rw [(hren y).2.2]
        refine ⟨fun hne => ?_, fun he => ?_⟩
        · have : renew a name y = y := by
            unfold renew; rw [if_neg hne]
          rw [this]
          exact List.mem_cons_of_mem _ hy
        · have : (renew a name y).conf = wanted q name := by
            unfold renew; rw [if_pos he]; exact hw
          rw [this]
          unfold served
          rw [if_neg]
          rw [show (wanted q name).name = name from rfl, ← he]
          exact hnd y hy

/-- C66: a call that fails changes nothing. -/
theorem C66_failure {n : Node} {os : List EdOpt} (h : (editMain n os).1 ≠ 0) : (editMain n os).2 = n := by
  unfold editMain at h ⊢
  split
  · rfl
  · split
    · rfl
    · split
      · rfl
      · split
        · rfl
        · rename_i h1 _ _ h2 _ _ h3 _ _ h4
          simp only [h1, h2, h3, h4] at h
          exact absurd rfl h

/-- Settings for `foo`; an option is repeated. -/
def exEdit : List EdOpt :=
  [.password (str "old"), .ns (str "foo"), .maxsize (str "3"), .isPublic (str "no"), .password (str "s3")]

/-- What happens after an edit of `exEvents`. -/
def afterEdit (os : List EdOpt) (evs : List Event) : List (List (Nat × Msg)) :=
  ((runNode exS (editMain (ranNode exS exEvents) os).2 evs).map (fun x => x.2.map (·.2))).getD []

/-- A concrete case of the hypotheses: the options ask for a password, a limit, and no public access. -/
theorem exEdit_says : Says exEdit (str "foo") ⟨some (str "s3"), some 3, some false, none⟩ where
  ns := by decide +kernel
  password := by decide +kernel
  maxsize := by
    rw [Option.map_some, Resp.digits]
    decide +kernel
  isPublic := by decide +kernel
  worm := by decide +kernel
  flags := by
    intro o ho
    simp only [exEdit, List.mem_cons, List.not_mem_nil, or_false] at ho
    rcases ho with rfl | rfl | rfl | rfl | rfl <;> refine ⟨fun v hv => ?_, by simp⟩ <;>
      simp only [publicOf, wormOf, or_false, reduceCtorEq, or_self, Option.some.injEq] at hv
    exact ⟨false, by rw [← hv]; decide +kernel⟩
  pass := by
    intro p hp
    simp only [Option.some.injEq] at hp
    subst hp
    decide +kernel
  size := by
    intro k hk
    simp only [Option.some.injEq] at hk
    subst hk
    decide

set_option maxRecDepth 100000 in
/-- The case: after the restart the password is needed, the limit applies, and the key stored before is there. -/
theorem C66_example : HasName (ranNode exS exEvents) (str "foo") ∧ (editMain (ranNode exS exEvents) exEdit).1 = 0 ∧
    afterEdit exEdit [.restart [1001], .connect 7,
     .request 7 (exE 7) [str "SELECT", str "foo"], .request 7 (exE 8) [str "SELECT", str "foo", str "s3"],
     .request 7 (exE 9) [str "SET", str "l", str "abc"], .request 7 (exE 10) [str "GET", str "k"]] =
    [[], [], [(7, .reply (.err "Namespace protected and private"))], [(7, .reply .ok)],
     [(7, .reply (.err "No space left on this namespace"))], [(7, .reply (.bulk (str "v")))]] := by
  refine ⟨?_, by decide +kernel, rfl⟩
  have : ((recs (ranNode exS exEvents)).any (fun r => r.conf.name == str "foo")) = true := by decide +kernel
  obtain ⟨r, h1, h2⟩ := List.any_eq_true.1 this
  exact ⟨r, mem_recs.1 h1, by simpa using h2⟩

/-- A password of 256 bytes, and no public access. -/
def exLong : List EdOpt := [.ns (str "foo"), .password (List.replicate 256 97), .isPublic (str "no")]

set_option maxRecDepth 100000 in
/-- C66 is false for a password of 256 bytes: its length is stored in one byte.  The tool reports success, and after the restart
    `foo` has no password at all: anybody can write to it. -/
theorem C66_refuted : (editMain (ranNode exS exEvents) exLong).1 = 0 ∧
    afterEdit exLong [.restart [1001], .connect 7,
     .request 7 (exE 7) [str "SELECT", str "foo"], .request 7 (exE 8) [str "SET", str "k", str "new"],
     .request 7 (exE 9) [str "GET", str "k"]] =
    [[], [], [(7, .reply .ok)], [(7, .reply (.bulk (str "k")))], [(7, .reply (.bulk (str "new")))]] :=
  ⟨by decide +kernel, rfl⟩

end Zdb.Editor
