import Verif.Model.Store
namespace Zdb

/-- The loop, started with `map[lower].1 ≤ id` and `higher` past the end or above `id`, stops at a
    position whose first id is at most `id` and which is either exact, last, or followed by a
    larger first id. -/
theorem seqSearchLoop_spec (m : List (Nat × Nat)) (id : Nat) :
    ∀ (fuel lower higher : Nat), higher - lower < fuel → lower < higher → higher ≤ m.length →
      (∀ p, m[lower]? = some p → p.1 ≤ id) →
      (∀ p, m[higher]? = some p → id < p.1) →
      ∃ (i : Nat) (p : Nat × Nat), seqSearchLoop m id fuel lower higher = some p ∧ m[i]? = some p ∧ p.1 ≤ id ∧
        (p.1 = id ∨ ∀ q, m[i + 1]? = some q → id < q.1) := by
  intro fuel
  induction fuel with
  | zero => intro lower higher h; omega
  | succ fuel ih =>
    intro lower higher hf hlt hle hlow hhigh
    have hmid1 : lower ≤ (lower + higher) / 2 := by omega
    have hmid2 : (lower + higher) / 2 < higher := by omega
    obtain ⟨pm, hpm⟩ : ∃ p, m[(lower + higher) / 2]? = some p :=
      ⟨m[(lower + higher) / 2], List.getElem?_eq_getElem (by omega)⟩
    obtain ⟨pl, hpl⟩ : ∃ p, m[lower]? = some p := ⟨m[lower], List.getElem?_eq_getElem (by omega)⟩
    obtain ⟨smid, fmid⟩ := pm
    obtain ⟨slow, flow⟩ := pl
    have hl := hlow _ hpl
    simp only at hl
    simp only [seqSearchLoop, if_pos hlt, hpm]
    by_cases h1 : id = smid
    · simp only [if_pos h1]
      exact ⟨_, _, rfl, hpm, by simp [h1], Or.inl h1.symm⟩
    · simp only [if_neg h1]
      by_cases h2 : id < smid
      · simp only [if_pos h2]
        have hne : lower ≠ (lower + higher) / 2 := by
          intro he
          rw [← he, hpl] at hpm
          simp only [Option.some.injEq, Prod.mk.injEq] at hpm
          omega
        apply ih
        · omega
        · omega
        · omega
        · exact hlow
        · intro p hp; rw [hpm] at hp; cases hp; exact h2
      · simp only [if_neg h2]
        by_cases h3 : lower + 1 ≥ m.length
        · simp only [if_pos h3, hpl]
          refine ⟨lower, _, rfl, hpl, hl, Or.inr ?_⟩
          intro q hq
          rw [List.getElem?_eq_none h3] at hq
          cases hq
        · simp only [if_neg h3]
          obtain ⟨pn, hpn⟩ : ∃ p, m[lower + 1]? = some p :=
            ⟨m[lower + 1], List.getElem?_eq_getElem (by omega)⟩
          obtain ⟨snext, fnext⟩ := pn
          simp only [hpl, hpn]
          by_cases h4 : slow < id ∧ snext > id
          · simp only [if_pos h4]
            refine ⟨lower, _, rfl, hpl, hl, Or.inr ?_⟩
            intro q hq
            rw [hpn] at hq; cases hq; exact h4.2
          · simp only [if_neg h4]
            by_cases h5 : (lower + higher) / 2 = lower
            · exfalso
              have hh : higher = lower + 1 := by omega
              have hh' := hhigh (snext, fnext) (by rw [hh]; exact hpn)
              rw [h5, hpl] at hpm
              simp only [Option.some.injEq, Prod.mk.injEq] at hpm
              simp only at hh'
              omega
            · apply ih
              · omega
              · omega
              · omega
              · intro p hp
                rw [hpm] at hp; cases hp; simp only; omega
              · exact hhigh

theorem seqSearch_spec_le (m : List (Nat × Nat)) (id : Nat) (p0 : Nat × Nat) (rest : List (Nat × Nat))
    (hm : m = p0 :: rest) (h0 : p0.1 ≤ id) :
    ∃ (i : Nat) (p : Nat × Nat), seqSearch m id = some p ∧ m[i]? = some p ∧ p.1 ≤ id ∧
      (p.1 = id ∨ ∀ q, m[i + 1]? = some q → id < q.1) := by
  have hlen : 0 < m.length := by simp [hm]
  apply seqSearchLoop_spec
  · omega
  · exact hlen
  · omega
  · intro p hp; simp [hm] at hp; rw [← hp]; exact h0
  · intro p hp; rw [List.getElem?_eq_none (by omega)] at hp; cases hp

theorem seqSearch_spec (m : List (Nat × Nat)) (id : Nat) (f0 : Nat) (rest : List (Nat × Nat))
    (hm : m = (0, f0) :: rest) :
    ∃ (i : Nat) (p : Nat × Nat), seqSearch m id = some p ∧ m[i]? = some p ∧ p.1 ≤ id ∧
      (p.1 = id ∨ ∀ q, m[i + 1]? = some q → id < q.1) :=
  seqSearch_spec_le m id (0, f0) rest hm (Nat.zero_le _)

end Zdb
