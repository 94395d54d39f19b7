/-
Equality of replies can be decided.
-/
import Verif.Model.Commands
namespace Zdb

mutual
/-- Whether two replies are equal. -/
def Reply.same : Reply → Reply → Bool
  | .nil, .nil => true
  | .simple a, .simple b => a == b
  | .err a, .err b => a == b
  | .int a, .int b => a == b
  | .bulk a, .bulk b => a == b
  | .arr a, .arr b => Reply.sames a b
  | .crash, .crash => true
  | _, _ => false
/-- Whether two lists of replies are equal. -/
def Reply.sames : List Reply → List Reply → Bool
  | [], [] => true
  | a :: l, b :: m => Reply.same a b && Reply.sames l m
  | _, _ => false
end

mutual
theorem Reply.same_iff : ∀ a b : Reply, Reply.same a b = true ↔ a = b
  | .nil, b => by cases b <;> simp [Reply.same]
  | .simple _, b => by cases b <;> simp [Reply.same]
  | .err _, b => by cases b <;> simp [Reply.same]
  | .int _, b => by cases b <;> simp [Reply.same]
  | .bulk _, b => by cases b <;> simp [Reply.same]
  | .crash, b => by cases b <;> simp [Reply.same]
  | .arr l, b => by
    cases b <;> simp [Reply.same]
    exact Reply.sames_iff l _
theorem Reply.sames_iff : ∀ a b : List Reply, Reply.sames a b = true ↔ a = b
  | [], b => by cases b <;> simp [Reply.sames]
  | a :: l, b => by
    cases b with
    | nil => simp [Reply.sames]
    | cons b m =>
      have h1 := Reply.same_iff a b
      have h2 := Reply.sames_iff l m
      simp only [Reply.sames, Bool.and_eq_true, h1, h2, List.cons.injEq]
end

instance : DecidableEq Reply := fun a b =>
  if h : Reply.same a b = true then isTrue ((Reply.same_iff a b).1 h)
  else isFalse (fun e => h ((Reply.same_iff a b).2 e))

end Zdb
