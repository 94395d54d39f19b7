/-
Executions over memory from a list of answers, to show concrete runs.
-/
import Verif.Lemmas.HeapServer
namespace Zdb.Heap

/-- Memory as two lists, and the next block `malloc` gives. -/
structure Sim where
  live : List Nat
  lost : List Nat
  next : Nat

/-- The memory it stands for. -/
def Sim.mem (σ : Sim) : Mem := fun b => if b ∈ σ.live then .live else if b ∈ σ.lost then .lost else .gone

/-- How a run ends. -/
inductive SimRes (α : Type) where
  | done (a : α) (σ : Sim)
  | died
  | bad

/-- The result it stands for. -/
def SimRes.res {α : Type} : SimRes α → Res α
  | .done a σ => .done a σ.mem
  | .died => .died
  | .bad => .bad

/-- The execution in which files, clients and clocks give these answers. -/
def sim (l : Level) {α : Type} : Prog α → List Nat → Sim → Option (SimRes α × List Nat)
  | .ret a, as, σ => some (.done a σ, as)
  | .alloc k, as, σ =>
    if σ.next ∉ σ.live ∧ σ.next ∉ σ.lost then
      sim l (k σ.next) as ⟨σ.next :: σ.live, σ.lost, σ.next + 1⟩
    else none
  | .free none k, as, σ => sim l k as σ
  | .free (some b) k, as, σ =>
    if b ∈ σ.live then
      if b ∉ σ.lost then sim l k as { σ with live := σ.live.filter (· ≠ b) } else none
    else some (.bad, as)
  | .use none _, as, _ => some (.bad, as)
  | .use (some b) k, as, σ => if b ∈ σ.live then sim l k as σ else some (.bad, as)
  | .askf k, a :: as, σ => sim l (k a) as σ
  | .askf _, [], _ => none
  | .lose b k, as, σ =>
    if l ≠ .clean ∧ b ∈ σ.live then sim l k as ⟨σ.live.filter (· ≠ b), b :: σ.lost, σ.next⟩ else none
  | .hazard _ k, as, σ => if l = .any then sim l k as σ else none
  | .die, as, _ => some (.died, as)

theorem Sim.live_iff {σ : Sim} {b : Nat} : σ.mem b = .live ↔ b ∈ σ.live := by
  unfold Sim.mem
  by_cases h : b ∈ σ.live
  · simp [h]
  · simp only [h, if_false, iff_false]
    split <;> simp

theorem sim_sound (l : Level) {α : Type} (p : Prog α) :
    ∀ (as : List Nat) (σ : Sim) (r : SimRes α) (bs : List Nat), sim l p as σ = some (r, bs) → Exec l p σ.mem r.res := by
  induction p with
  | ret a =>
    intro as σ r bs h
    simp only [sim, Option.some.injEq, Prod.mk.injEq] at h
    rw [← h.1]
    exact .ret a _
  | alloc k ih =>
    intro as σ r bs h
    simp only [sim] at h
    split at h
    · next hf =>
      refine .alloc k _ σ.next _ (by simp [Sim.mem, hf.1, hf.2]) ?_
      have := ih _ as _ r bs h
      have e : σ.mem.set σ.next .live = Sim.mem ⟨σ.next :: σ.live, σ.lost, σ.next + 1⟩ := by
        funext x
        simp only [Mem.set, Sim.mem, List.mem_cons]
        by_cases hx : x = σ.next <;> simp [hx]
      rw [e]
      exact this
    · cases h
  | free p k ih =>
    intro as σ r bs h
    cases p with
    | none => exact .freeNull k _ _ (ih as σ r bs h)
    | some b =>
      simp only [sim] at h
      split at h
      · next hf =>
        split at h
        · next hl =>
          refine .freed b k _ _ (Sim.live_iff.2 hf) ?_
          have e : σ.mem.set b .gone = Sim.mem { σ with live := σ.live.filter (· ≠ b) } := by
            funext x
            simp only [Mem.set, Sim.mem, List.mem_filter]
            by_cases hx : x = b
            · simp [hx, hl]
            · simp [hx]
          rw [e]
          exact ih as _ r bs h
        · cases h
      · next hf =>
        simp only [Option.some.injEq, Prod.mk.injEq] at h
        rw [← h.1]
        exact .freeBad b k _ (fun e => hf (Sim.live_iff.1 e))
  | use p k ih =>
    intro as σ r bs h
    cases p with
    | none =>
      simp only [sim, Option.some.injEq, Prod.mk.injEq] at h
      rw [← h.1]
      exact .useNull k _
    | some b =>
      simp only [sim] at h
      split at h
      · next hf => exact .used b k _ _ (Sim.live_iff.2 hf) (ih as σ r bs h)
      · next hf =>
        simp only [Option.some.injEq, Prod.mk.injEq] at h
        rw [← h.1]
        exact .useBad b k _ (fun e => hf (Sim.live_iff.1 e))
  | askf k ih =>
    intro as σ r bs h
    cases as with
    | nil => simp [sim] at h
    | cons a as => exact .asked k _ a _ (ih a as σ r bs (by simpa [sim] using h))
  | lose b k ih =>
    intro as σ r bs h
    simp only [sim] at h
    split at h
    · next hf =>
      refine .lost b k _ _ hf.1 (Sim.live_iff.2 hf.2) ?_
      have e : σ.mem.set b .lost = Sim.mem ⟨σ.live.filter (· ≠ b), b :: σ.lost, σ.next⟩ := by
        funext x
        simp only [Mem.set, Sim.mem, List.mem_filter, List.mem_cons]
        by_cases hx : x = b
        · simp [hx]
        · simp [hx]
      rw [e]
      exact ih as _ r bs h
    · cases h
  | hazard g k ih =>
    intro as σ r bs h
    simp only [sim] at h
    split at h
    · next hf => exact .hazard g k _ _ hf (ih as σ r bs h)
    · cases h
  | die =>
    intro as σ r bs h
    simp only [sim, Option.some.injEq, Prod.mk.injEq] at h
    rw [← h.1]
    exact .died _

/-- Nothing is allocated. -/
def sim0 : Sim := ⟨[], [], 0⟩

theorem sim0_mem : sim0.mem = blank := by
  funext b
  simp [Sim.mem, sim0, blank]

/-- A run returns, with all answers taken, and the end is as told. -/
def sees {α : Type} (P : α → Sim → Bool) : Option (SimRes α × List Nat) → Bool
  | some (.done a σ, []) => P a σ
  | _ => false

/-- A run ends with a bad pointer. -/
def seesBad {α : Type} : Option (SimRes α × List Nat) → Bool
  | some (.bad, _) => true
  | _ => false

theorem sees_exec {l : Level} {α : Type} {p : Prog α} {as : List Nat} {P : α → Sim → Bool}
    (h : sees P (sim l p as sim0) = true) : ∃ a σ, Exec l p blank (.done a σ.mem) ∧ P a σ = true := by
  unfold sees at h
  split at h
  · next a σ e =>
    have := sim_sound l p as sim0 _ _ e
    rw [sim0_mem] at this
    exact ⟨a, σ, this, h⟩
  · cases h

theorem seesBad_exec {l : Level} {α : Type} {p : Prog α} {as : List Nat} (h : seesBad (sim l p as sim0) = true) :
    Exec l p blank .bad := by
  unfold seesBad at h
  split at h
  · next a e =>
    have := sim_sound l p as sim0 _ _ e
    rw [sim0_mem] at this
    exact this
  · cases h

end Zdb.Heap
