/-
C66: option values that are not what the namespace editor asks for.
-/
import Verif.Props.Editor
namespace Zdb.Editor

/-- A value is one the help of the tool allows: flags are `yes` or `no`. -/
def Allowed : EdOpt → Prop
  | .isPublic v | .worm v => v = yesNo true ∨ v = yesNo false
  | .other => False
  | _ => True

theorem take_refuses {a : EdArgs} {o : EdOpt} (h : ¬ Allowed o) : a.take o = none := by
  cases o with
  | isPublic v =>
    simp only [Allowed, yesNo, not_or, if_true, Bool.false_eq_true, if_false] at h
    simp only [EdArgs.take, wordYes, wordNo, h.1, h.2, if_false]
  | worm v =>
    simp only [Allowed, yesNo, not_or, if_true, Bool.false_eq_true, if_false] at h
    simp only [EdArgs.take, wordYes, wordNo, h.1, h.2, if_false]
  | other => rfl
  | ns v => exact absurd trivial h
  | password v => exact absurd trivial h
  | maxsize v => exact absurd trivial h

theorem takeAll_refuses {os : List EdOpt} {o : EdOpt} (ho : o ∈ os) (h : ¬ Allowed o) (a : EdArgs) : a.takeAll os = none := by
  induction os generalizing a with
  | nil => cases ho
  | cons x os ih =>
    simp only [EdArgs.takeAll]
    rcases List.mem_cons.1 ho with rfl | ho
    · rw [take_refuses h]
    · cases a.take x with
      | none => rfl
      | some a => exact ih ho a

/-- **C66**, flags: with a value of `--public` or `--worm` that is neither `yes` nor `no` anywhere among the options, the tool reports
    failure and changes nothing. -/
theorem C66_flags_refused (n : Node) {os : List EdOpt} (h : ∃ o ∈ os, ¬ Allowed o) : editMain n os = (1, n) := by
  obtain ⟨o, ho, h⟩ := h
  unfold editMain
  rw [takeAll_refuses ho h]

/-- **C66**, no name: the tool reports failure and changes nothing. -/
theorem C66_name_refused (n : Node) {os : List EdOpt} (h : lastOf nsOf os = none) : editMain n os = (1, n) := by
  have key : ∀ (os : List EdOpt) (a b : EdArgs), (∀ o ∈ os, nsOf o = none) → a.takeAll os = some b → b.ns = a.ns := by
    intro os
    induction os with
    | nil => intro a b _ h; simp only [EdArgs.takeAll, Option.some.injEq] at h; rw [h]
    | cons o os ih =>
      intro a b ho h
      simp only [EdArgs.takeAll] at h
      cases ht : a.take o with
      | none => rw [ht] at h; cases h
      | some a1 =>
        rw [ht] at h
        rw [ih a1 b (fun o h => ho o (List.mem_cons_of_mem _ h)) h]
        have hn := ho o (List.mem_cons_self ..)
        cases o with
        | ns v => cases hn
        | password v => simp only [EdArgs.take, Option.some.injEq] at ht; rw [← ht]
        | maxsize v => simp only [EdArgs.take, Option.some.injEq] at ht; rw [← ht]
        | isPublic v =>
          simp only [EdArgs.take] at ht
          split at ht
          · injection ht with ht; rw [← ht]
          · split at ht
            · injection ht with ht; rw [← ht]
            · cases ht
        | worm v =>
          simp only [EdArgs.take] at ht
          split at ht
          · injection ht with ht; rw [← ht]
          · split at ht
            · injection ht with ht; rw [← ht]
            · cases ht
        | other => cases ht
  have hno : ∀ o ∈ os, nsOf o = none := by
    unfold lastOf at h
    rw [List.getLast?_eq_none_iff, List.filterMap_eq_nil_iff] at h
    exact h
  unfold editMain
  split
  · rfl
  · rename_i a ha
    have := key os _ a hno ha
    rw [show a.ns = none from this]

/-! ### sizes -/

theorem atoll_junk (k : Nat) {b : UInt8} (hb : ¬ (48 ≤ b ∧ b ≤ 57)) (x : Bytes) :
    atoll (Resp.digits k ++ b :: x) = atoll (Resp.digits k) := by
  obtain ⟨d, ds, h1, h2, h3⟩ := Resp.digits_head k
  have hr : ∀ c ∈ Resp.digits k, 48 ≤ c ∧ c ≤ 57 := Resp.digits_range k
  have hsk : ∀ y, atollSkip (Resp.digits k ++ y) = Resp.digits k ++ y := by
    intro y
    rw [h1, List.cons_append, atollSkip, if_neg]
    have := hr d (by rw [h1]; exact List.mem_cons_self ..)
    rintro (h | h)
    · rw [h] at this; exact absurd this.1 (by decide)
    · exact absurd (UInt8.le_trans this.1 h.2) (by decide)
  have hval : ∀ y, atoll (Resp.digits k ++ y) = ((min (atollDigits 0 (Resp.digits k ++ y)) (2 ^ 63 - 1) : Nat) : Int) := by
    intro y
    unfold atoll
    rw [hsk]
    have := hr d (by rw [h1]; exact List.mem_cons_self ..)
    rw [h1, List.cons_append]
    split
    · rename_i h; injection h with h _; rw [h] at this; exact absurd this.1 (by decide)
    · rename_i h; injection h with h _; rw [h] at this; exact absurd this.1 (by decide)
    · rfl
  have e := hval []
  rw [List.append_nil] at e
  rw [hval, e, Resp.atollDigits_append hr]
  simp only [atollDigits, hb, if_false]

/-- What follows the digits of a size counts for nothing: a unit, a separator, a fraction. -/
theorem C66_size_suffix (n : Node) (os os' : List EdOpt) (k : Nat) {b : UInt8} (hb : ¬ (48 ≤ b ∧ b ≤ 57)) (x : Bytes) :
    editMain n (os ++ .maxsize (Resp.digits k ++ b :: x) :: os') = editMain n (os ++ .maxsize (Resp.digits k) :: os') := by
  have key : ∀ (os : List EdOpt) (a : EdArgs), a.takeAll (os ++ .maxsize (Resp.digits k ++ b :: x) :: os') =
      a.takeAll (os ++ .maxsize (Resp.digits k) :: os') := by
    intro os
    induction os with
    | nil => intro a; simp only [List.nil_append, EdArgs.takeAll, EdArgs.take, atoll_junk k hb]
    | cons o os ih =>
      intro a
      simp only [List.cons_append, EdArgs.takeAll]
      cases a.take o with
      | none => rfl
      | some a => exact ih a
  unfold editMain
  rw [key]

/-- A limit of 10 GB, as a person may write it. -/
def exUnit : List EdOpt := [.ns (str "foo"), .maxsize (str "10GB")]

/-- No limit, as a person may write it. -/
def exMinus : List EdOpt := [.ns (str "foo"), .maxsize (str "-1")]

set_option maxRecDepth 100000 in
/-- C66 is false for sizes with a unit: the tool reports success, and after the restart a value of eleven bytes is refused. -/
theorem C66_unit_refuted : (editMain (ranNode exS exEvents) exUnit).1 = 0 ∧
    afterEdit exUnit [.restart [1001], .connect 7,
     .request 7 (exE 7) [str "SELECT", str "foo"], .request 7 (exE 8) [str "SET", str "l", str "12345678901"]] =
    [[], [], [(7, .reply .ok)], [(7, .reply (.err "No space left on this namespace"))]] :=
  ⟨by decide +kernel, rfl⟩

set_option maxRecDepth 100000 in
/-- A negative size is taken, too, and stored as one of 2^64 - 1 bytes. -/
theorem C66_negative : (editMain (ranNode exS exEvents) exMinus).1 = 0 ∧
    (runNode exS (editMain (ranNode exS exEvents) exMinus).2 [.restart [1001]]).map (fun x =>
      (recs x.1).map (fun r => (r.conf.name, r.conf.maxsize))) =
    some [(str "default", 0), (str "foo", 2 ^ 64 - 1)] := by decide +kernel

/-- A case of `C66_flags_refused`. -/
example : ∃ o ∈ [EdOpt.ns (str "foo"), .isPublic (str "true")], ¬ Allowed o :=
  ⟨.isPublic (str "true"), by simp, by unfold Allowed; decide +kernel⟩

/-- A case of `C66_size_suffix`. -/
example (n : Node) : editMain n [.ns (str "foo"), .maxsize (Resp.digits 10 ++ str "GB")] =
    editMain n [.ns (str "foo"), .maxsize (Resp.digits 10)] :=
  C66_size_suffix n [.ns (str "foo")] [] 10 (by decide) (str "B")

end Zdb.Editor
