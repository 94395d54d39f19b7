/-
C78: the tool namespace-dump.
-/
import Verif.Lemmas.NsDump
import Verif.Lemmas.Editor
import Verif.Spec.Editor
import Verif.Props.Settings
namespace Zdb.NsDump

open Zdb.Editor (served)

theorem name_inj {l : List NsRec} (h : (l.map (·.conf.name)).Nodup) {a b : NsRec} (ha : a ∈ l) (hb : b ∈ l)
    (he : a.conf.name = b.conf.name) : a = b := by
  induction l with
  | nil => simp at ha
  | cons x l ih =>
    rw [List.map_cons, List.nodup_cons] at h
    rcases List.mem_cons.1 ha with rfl | ha'
    · rcases List.mem_cons.1 hb with rfl | hb'
      · rfl
      · exact absurd (List.mem_map.2 ⟨b, hb', he.symm⟩) h.1
    · rcases List.mem_cons.1 hb with rfl | hb'
      · exact absurd (List.mem_map.2 ⟨a, ha', he⟩) h.1
      · exact ih h.2 ha' hb'

/-- Writing back the descriptors that are there. -/
theorem map_same {n : Node} (hi : (recs n).map (·.conf.name) |>.Nodup) {r : NsRec} (hr : r ∈ recs n) :
    n.slots.map (Option.map fun x => if x.conf.name = r.conf.name then { x with desc := r.desc } else x) = n.slots := by
  have : n.slots.map (Option.map fun x => if x.conf.name = r.conf.name then { x with desc := r.desc } else x) =
      n.slots.map id := by
    apply List.map_congr_left
    intro o ho
    cases o with
    | none => rfl
    | some x =>
      simp only [Option.map_some, id]
      split
      · rename_i hn
        have hx : x ∈ recs n := mem_recs.2 ho
        have : x = r := name_inj hi hx hr hn
        rw [this]
      · rfl
  rw [this, List.map_id]

/-- C78.  The server is stopped in any state it can reach and the tool is called with the name of a namespace.  It changes
    nothing, and prints a text that tells some settings `c`.  A start of the server gives the namespace these settings, except
    that those of the default namespace give way to the options of the server.  For another namespace, `c` are the
    settings it had.

    Missing: names and passwords with an end of line (`C78_line_refuted`), an empty password (lost at every restart, C33), the
    password `<no password set>` (`C78_password_refuted`), a name which is not the one of a namespace
    (`C78_unknown_refuted`). -/
theorem C78_partial {S : Settings} {n : Node} (hn : Reachable S n) {r : NsRec} (hr : r ∈ recs n) {mb : Nat → Bytes}
    (hmb : ∀ k, (10 : UInt8) ∉ mb k) (dir : Bytes) (more : List Bytes) :
    ∃ c t, dumpMain mb n (dir :: r.conf.name :: more) = (.report t, n) ∧ c.name = r.conf.name ∧ (OneLine c → Tells t c) ∧
      (r.conf.name ≠ nameDefault → r.conf.password ≠ some [] → c = { r.conf with lock := .unlocked }) ∧
      ∀ order m sent st, Guard S n (.restart order) → nodeStep S n (.restart order) = .ok m sent st →
        ∃ r' ∈ recs m, r'.uid = r.uid ∧ r'.conf = served S c := by
  have hi := hn.inv
  have hfind : (n.slots.filterMap id).find? (fun x => x.conf.name == r.conf.name) = some r := by
    cases hf : (n.slots.filterMap id).find? (fun x => x.conf.name == r.conf.name) with
    | none =>
      rw [List.find?_eq_none] at hf
      exact absurd (by simp) (hf r hr)
    | some x =>
      have hx : x ∈ recs n := List.mem_of_find?_eq_some hf
      have hxn : x.conf.name = r.conf.name := by simpa using List.find?_some hf
      rw [name_inj hi.names hx hr hxn]
  obtain ⟨c0, tail, hw, hc0⟩ := (hi.desc r hr).written
  obtain ⟨⟨c, f⟩, hl⟩ := Option.isSome_iff_exists.1 (loadDesc_accepted r.conf.name c0 tail)
  have hf : f = r.desc := by
    have hlen : ¬ (encDesc c0 ++ tail).length < descLen := by
      rw [List.length_append, encDesc_length, descLen]; omega
    unfold loadDesc at hl
    simp only [if_neg hlen] at hl
    split at hl
    · cases hl
    · simp only [Option.some.injEq, Prod.mk.injEq] at hl
      rw [← hl.2, hw]
  rw [← hw] at hl
  refine ⟨c, dumpText mb c, ?_, loadDesc_name hl, fun h => dumpText_tells hmb h, ?_, ?_⟩
  · unfold dumpMain
    simp only [hfind, hl, hf]
    rw [map_same hi.names hr]
  · intro hd hp
    have hlen : r.conf.name.length < 256 := by
      rcases hi.shape r hr with h | h
      · exact absurd h hd
      · have := h.len; omega
    have hplen : (r.conf.password.getD []).length < 256 := by
      cases hq : r.conf.password with
      | none => decide
      | some p => have := ((hi.desc r hr).pass hd p hq).2; rw [Option.getD_some]; omega
    have h2 := loadDesc_enc r.conf.name r.conf tail hlen hplen
    rw [← hc0 hd, ← hw, hl] at h2
    simp only [Option.some.injEq, Prod.mk.injEq] at h2
    rw [h2.1]
    have hpw : loadedPass (r.conf.password.getD []) = r.conf.password := by
      cases hq : r.conf.password with
      | none => rfl
      | some p =>
        have := ((hi.desc r hr).pass hd p hq).1
        unfold loadedPass
        rw [Option.getD_some, if_neg (by rintro rfl; exact hp hq), cstr_eq this]
    unfold loadedConf defaultConf
    rw [hpw, Nat.mod_eq_of_lt ((hi.desc r hr).size hd)]
  · intro order m sent st hg hst
    simp only [nodeStep] at hst
    cases hr0 : restartNode S n order with
    | none => rw [hr0] at hst; simp at hst
    | some m0 =>
      rw [hr0] at hst
      injection hst with e1 _ _
      subst e1
      obtain ⟨r', hr', hu⟩ := restart_keeps hi hg hr0 hr
      obtain ⟨-, -, hall⟩ := hi.restart hg hr0
      obtain ⟨r1, hr1, hu1, _, _, conf, -, -, -, hl', hc⟩ := hall r' hr'
      have : r1 = r := uid_inj hi.uids hr1 hr (by rw [← hu1, hu])
      subst this
      refine ⟨r', hr', hu, ?_⟩
      rw [hl'] at hl
      simp only [Option.some.injEq, Prod.mk.injEq] at hl
      rw [hc, hl.1]
      unfold served startConf
      rw [show c.name = r1.conf.name from by rw [← hl.1]; exact loadDesc_name hl']
      by_cases hz : S.maxsize = 0 <;> simp [hz]

/-- C78 is false for a name which is not the one of a namespace: whatever the state, the tool dereferences a null pointer. -/
theorem C78_unknown_refuted {n : Node} {name : Bytes} (h : ¬ HasName n name) (mb : Nat → Bytes) (dir : Bytes) (more : List Bytes) :
    dumpMain mb n (dir :: name :: more) = (.crash, n) := by
  have hf : (n.slots.filterMap id).find? (fun x => x.conf.name == name) = none := by
    rw [List.find?_eq_none]
    intro x hx he
    exact h ⟨x, mem_recs.1 hx, by simpa using he⟩
  unfold dumpMain
  simp only [hf]

/-- `foo` after more commands. -/
def afterSet (argv : List Bytes) : Node := ranNode exS (exEvents ++ [.request 5 (exE 4) argv])

/-- The megabytes of an example. -/
def exMb (_ : Nat) : Bytes := str "0.00"

/-- The values of the lines printed for `foo`. -/
def shown (n : Node) : Option (List (Option Bytes)) :=
  match (dumpMain exMb n [str "/index", str "foo"]).1 with
  | .report t => some (["[+] name        : ", "[+] password    : ", "[+] public flag : ", "[+] mode worm   : ", "[+] maximum size: "].map
      (fun l => value l t))
  | _ => none

set_option maxRecDepth 100000 in
/-- A concrete case: the limit and worm mode of `foo` are printed, the latter as 2; an unknown name crashes the tool. -/
theorem C78_example :
    shown (ranNode exS (exEvents ++ [.request 5 (exE 4) [str "NSSET", str "foo", str "worm", str "1"],
      .request 5 (exE 5) [str "NSSET", str "foo", str "maxsize", str "70"],
      .request 5 (exE 6) [str "NSSET", str "foo", str "password", str "s3"]])) =
      some [some (str "foo"), some (str "s3"), some (str "1"), some (str "2"), some (str "70 bytes (0.00 MB)")] ∧
    (dumpMain exMb (ranNode exS exEvents) [str "/index", str "fob"]).1 = .crash := by
  constructor <;> decide +kernel

set_option maxRecDepth 100000 in
/-- C78 is false for the password `<no password set>`: what is printed is what is printed without a password, and nobody can write
    to `foo` without it. -/
theorem C78_password_refuted :
    shown (afterSet [str "NSSET", str "foo", str "password", str "<no password set>"]) = shown (ranNode exS exEvents) ∧
    (recs (afterSet [str "NSSET", str "foo", str "password", str "<no password set>"])).map (·.conf.password) ≠
      (recs (ranNode exS exEvents)).map (·.conf.password) := by
  constructor <;> decide +kernel

set_option maxRecDepth 100000 in
/-- C78 is false for a password with an end of line: `foo` is public, and the text tells that it is not. -/
theorem C78_line_refuted :
    (shown (afterSet [str "NSSET", str "foo", str "password", str "x\n[+] public flag : 0"])).map (fun l => l[2]?) =
      some (some (some (str "0"))) ∧
    ((recs (afterSet [str "NSSET", str "foo", str "password", str "x\n[+] public flag : 0"])).find?
      (fun r => r.conf.name == str "foo")).map (·.conf.isPublic) = some true := by
  constructor <;> decide +kernel

end Zdb.NsDump
