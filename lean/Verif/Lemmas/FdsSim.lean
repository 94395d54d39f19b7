/-
Executions from a list of answers, to show concrete runs.
-/
import Verif.Lemmas.FdsServer
namespace Zdb.Fds

/-- The execution in which files, kernel and clients give these answers; `open` answers the number less one, or fails
    on 0. -/
def sim (l : Bool) {α : Type} : Prog α → List Nat → Fdt → Option (Res α × List Nat)
  | .ret a, as, T => some (.done a T, as)
  | .openf p k, a :: as, T =>
    match a with
    | 0 => sim l (k none) as T
    | fd + 1 => if (T fd).isNone then sim l (k (some fd)) as (T.set fd p) else none
  | .closef (some fd) p k, as, T => if T fd = some p then sim l k as (T.clear fd) else some (.bad, as)
  | .closef none _ k, as, T => sim l k as T
  | .iof (some fd) p k, a :: as, T => if T fd = some p then sim l (k a) as T else some (.bad, as)
  | .iof none _ k, a :: as, T => sim l (k a) as T
  | .askf k, a :: as, T => sim l (k a) as T
  | .lose (some fd) p k, as, T => if l then sim l k as (T.set fd (.lost p)) else none
  | .lose none _ k, as, T => sim l k as T
  | .die, as, _ => some (.died, as)
  | _, [], _ => none

theorem sim_sound (l : Bool) {α : Type} (p : Prog α) :
    ∀ (as : List Nat) (T : Fdt) (r : Res α) (bs : List Nat), sim l p as T = some (r, bs) → Exec l p T r := by
  induction p with
  | ret a =>
    intro as T r bs h
    simp only [sim, Option.some.injEq, Prod.mk.injEq] at h
    rw [← h.1]
    exact .ret a T
  | openf p k ih =>
    intro as T r bs h
    match as with
    | [] => simp [sim] at h
    | 0 :: as => exact .refused p k T r (ih none as T r bs (by simpa [sim] using h))
    | (fd + 1) :: as =>
      simp only [sim] at h
      split at h
      · next hf => exact .opened p k T fd r (by simpa using hf) (ih (some fd) as _ r bs h)
      · cases h
  | closef fd p k ih =>
    intro as T r bs h
    cases fd with
    | none => exact .closedNeg p k T r (ih as T r bs (by simpa [sim] using h))
    | some fd =>
      simp only [sim] at h
      split at h
      · next hf => exact .closed fd p k T r hf (ih as _ r bs h)
      · next hf =>
        simp only [Option.some.injEq, Prod.mk.injEq] at h
        rw [← h.1]
        exact .closedBad fd p k T hf
  | iof fd p k ih =>
    intro as T r bs h
    cases as with
    | nil => cases fd <;> simp [sim] at h
    | cons a as =>
      cases fd with
      | none => exact .usedNeg p k T a r (ih a as T r bs (by simpa [sim] using h))
      | some fd =>
        simp only [sim] at h
        split at h
        · next hf => exact .used fd p k T a r hf (ih a as T r bs h)
        · next hf =>
          simp only [Option.some.injEq, Prod.mk.injEq] at h
          rw [← h.1]
          exact .usedBad fd p k T hf
  | askf k ih =>
    intro as T r bs h
    cases as with
    | nil => simp [sim] at h
    | cons a as => exact .asked k T a r (ih a as T r bs (by simpa [sim] using h))
  | lose fd p k ih =>
    intro as T r bs h
    cases fd with
    | none => exact .lostNeg p k T r (ih as T r bs (by simpa [sim] using h))
    | some fd =>
      simp only [sim] at h
      split at h
      · next hf => exact .lost fd p k T r hf (ih as _ r bs h)
      · cases h
  | die =>
    intro as T r bs h
    simp only [sim, Option.some.injEq, Prod.mk.injEq] at h
    rw [← h.1]
    exact .died T

/-- Executions one after another. -/
theorem Exec.bind {l : Bool} {α β : Type} {p : Prog α} {f : α → Prog β} {T T' : Fdt} {a : α} {r : Res β}
    (h : Exec l p T (.done a T')) (h' : Exec l (f a) T' r) : Exec l (p >>= f) T r := by
  show Exec l (p.bind f) T r
  generalize hd : Res.done a T' = d at h
  induction h with
  | ret a T => cases hd; exact h'
  | opened p k T fd r hf _ ih => exact .opened p _ T fd _ hf (ih hd)
  | refused p k T r _ ih => exact .refused p _ T _ (ih hd)
  | closed fd p k T r hf _ ih => exact .closed fd p _ T _ hf (ih hd)
  | closedNeg p k T r _ ih => exact .closedNeg p _ T _ (ih hd)
  | closedBad fd p k T hf => cases hd
  | used fd p k T a r hf _ ih => exact .used fd p _ T a _ hf (ih hd)
  | usedNeg p k T a r _ ih => exact .usedNeg p _ T a _ (ih hd)
  | usedBad fd p k T hf => cases hd
  | asked k T a r _ ih => exact .asked _ T a _ (ih hd)
  | lost fd p k T r hl _ ih => exact .lost fd p _ T _ hl (ih hd)
  | lostNeg p k T r _ ih => exact .lostNeg p _ T _ (ih hd)
  | died T => cases hd

/-- What the second of two programs starts from. -/
theorem Exec.bind_inv {l : Bool} {α β : Type} (p : Prog α) {f : α → Prog β} :
    ∀ {T : Fdt} {r : Res β}, Exec l (p >>= f) T r →
      (∃ a T', Exec l p T (.done a T') ∧ Exec l (f a) T' r) ∨ (r = .died ∧ Exec l p T .died) ∨ (r = .bad ∧ Exec l p T .bad) := by
  show ∀ {T : Fdt} {r : Res β}, Exec l (p.bind f) T r → _
  induction p with
  | ret a => intro T r h; exact .inl ⟨a, T, .ret a T, h⟩
  | openf p k ih =>
    intro T r h
    cases h with
    | opened _ _ _ fd _ hf h =>
      rcases ih _ h with ⟨a, T', h1, h2⟩ | ⟨e, h1⟩ | ⟨e, h1⟩
      · exact .inl ⟨a, T', .opened p k T fd _ hf h1, h2⟩
      · exact .inr (.inl ⟨e, .opened p k T fd _ hf h1⟩)
      · exact .inr (.inr ⟨e, .opened p k T fd _ hf h1⟩)
    | refused _ _ _ _ h =>
      rcases ih _ h with ⟨a, T', h1, h2⟩ | ⟨e, h1⟩ | ⟨e, h1⟩
      · exact .inl ⟨a, T', .refused p k T _ h1, h2⟩
      · exact .inr (.inl ⟨e, .refused p k T _ h1⟩)
      · exact .inr (.inr ⟨e, .refused p k T _ h1⟩)
  | closef fd p k ih =>
    intro T r h
    cases h with
    | closed fd _ _ _ _ hf h =>
      rcases ih h with ⟨a, T', h1, h2⟩ | ⟨e, h1⟩ | ⟨e, h1⟩
      · exact .inl ⟨a, T', .closed fd p k T _ hf h1, h2⟩
      · exact .inr (.inl ⟨e, .closed fd p k T _ hf h1⟩)
      · exact .inr (.inr ⟨e, .closed fd p k T _ hf h1⟩)
    | closedNeg _ _ _ _ h =>
      rcases ih h with ⟨a, T', h1, h2⟩ | ⟨e, h1⟩ | ⟨e, h1⟩
      · exact .inl ⟨a, T', .closedNeg p k T _ h1, h2⟩
      · exact .inr (.inl ⟨e, .closedNeg p k T _ h1⟩)
      · exact .inr (.inr ⟨e, .closedNeg p k T _ h1⟩)
    | closedBad fd _ _ _ hf => exact .inr (.inr ⟨rfl, .closedBad fd p k T hf⟩)
  | iof fd p k ih =>
    intro T r h
    cases h with
    | used fd _ _ _ a _ hf h =>
      rcases ih _ h with ⟨b, T', h1, h2⟩ | ⟨e, h1⟩ | ⟨e, h1⟩
      · exact .inl ⟨b, T', .used fd p k T a _ hf h1, h2⟩
      · exact .inr (.inl ⟨e, .used fd p k T a _ hf h1⟩)
      · exact .inr (.inr ⟨e, .used fd p k T a _ hf h1⟩)
    | usedNeg _ _ _ a _ h =>
      rcases ih _ h with ⟨b, T', h1, h2⟩ | ⟨e, h1⟩ | ⟨e, h1⟩
      · exact .inl ⟨b, T', .usedNeg p k T a _ h1, h2⟩
      · exact .inr (.inl ⟨e, .usedNeg p k T a _ h1⟩)
      · exact .inr (.inr ⟨e, .usedNeg p k T a _ h1⟩)
    | usedBad fd _ _ _ hf => exact .inr (.inr ⟨rfl, .usedBad fd p k T hf⟩)
  | askf k ih =>
    intro T r h
    cases h with
    | asked _ _ a _ h =>
      rcases ih _ h with ⟨b, T', h1, h2⟩ | ⟨e, h1⟩ | ⟨e, h1⟩
      · exact .inl ⟨b, T', .asked k T a _ h1, h2⟩
      · exact .inr (.inl ⟨e, .asked k T a _ h1⟩)
      · exact .inr (.inr ⟨e, .asked k T a _ h1⟩)
  | lose fd p k ih =>
    intro T r h
    cases h with
    | lost fd _ _ _ _ hl h =>
      rcases ih h with ⟨a, T', h1, h2⟩ | ⟨e, h1⟩ | ⟨e, h1⟩
      · exact .inl ⟨a, T', .lost fd p k T _ hl h1, h2⟩
      · exact .inr (.inl ⟨e, .lost fd p k T _ hl h1⟩)
      · exact .inr (.inr ⟨e, .lost fd p k T _ hl h1⟩)
    | lostNeg _ _ _ _ h =>
      rcases ih h with ⟨a, T', h1, h2⟩ | ⟨e, h1⟩ | ⟨e, h1⟩
      · exact .inl ⟨a, T', .lostNeg p k T _ h1, h2⟩
      · exact .inr (.inl ⟨e, .lostNeg p k T _ h1⟩)
      · exact .inr (.inr ⟨e, .lostNeg p k T _ h1⟩)
  | die =>
    intro T r h
    cases h
    exact .inr (.inl ⟨rfl, .died T⟩)

end Zdb.Fds
