/-
What `strstr` finds.
-/
import Verif.Model.Node
namespace Zdb

/-- `hasInfix` is the occurrence of a word in another. -/
theorem hasInfix_iff (pat l : Bytes) : hasInfix pat l = true ↔ ∃ a b, l = a ++ pat ++ b := by
  induction l with
  | nil =>
    cases pat with
    | nil => exact ⟨(fun _ => ⟨[], [], rfl⟩), fun _ => rfl⟩
    | cons x p => exact ⟨(fun h => by cases h), (fun ⟨a, b, h⟩ => by simp at h)⟩
  | cons x l ih =>
    rw [hasInfix, Bool.or_eq_true, ih, List.isPrefixOf_iff_prefix]
    constructor
    · rintro (⟨t, h⟩ | ⟨a, b, rfl⟩)
      · exact ⟨[], t, by simp [h]⟩
      · exact ⟨x :: a, b, rfl⟩
    · rintro ⟨a, b, h⟩
      cases a with
      | nil => exact Or.inl ⟨b, by simpa using h.symm⟩
      | cons y a =>
        right
        simp only [List.cons_append, List.cons.injEq] at h
        exact ⟨a, b, h.2⟩

end Zdb
