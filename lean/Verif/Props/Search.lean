/-
C24: the search over the list of (first id, file) pairs.
-/
import Verif.Lemmas.SeqSearch
namespace Zdb

/-- Specification: `f` is the file in charge of `id`: the list is cut as `before ++ (first, f) :: after`
    where `first ≤ id` and every later file starts above `id`. -/
def InChargeOf (m : List (Nat × Nat)) (id f : Nat) : Prop :=
  ∃ before first after, m = before ++ (first, f) :: after ∧ first ≤ id ∧ ∀ q ∈ after, id < q.1

/-- On a map whose first ids strictly increase, from one that is not above the id, the search returns a file in charge. -/
theorem search_in_charge (m : List (Nat × Nat)) (p0 : Nat × Nat) (rest : List (Nat × Nat))
    (hm : m = p0 :: rest) (hs : m.Pairwise (fun a b => a.1 < b.1)) (id : Nat) (h0 : p0.1 ≤ id) :
    ∃ p, seqSearch m id = some p ∧ InChargeOf m id p.2 := by
  obtain ⟨i, p, h1, h2, h3, h4⟩ := seqSearch_spec_le m id p0 rest hm h0
  refine ⟨p, h1, m.take i, p.1, m.drop (i + 1), ?_, h3, ?_⟩
  · obtain ⟨hi, he⟩ := List.getElem?_eq_some_iff.1 h2
    conv => lhs; rw [← List.take_append_drop i m, List.drop_eq_getElem_cons hi, he]
  · obtain ⟨hi, he⟩ := List.getElem?_eq_some_iff.1 h2
    have hd : (m.drop i).Pairwise (fun a b => a.1 < b.1) := hs.drop
    rw [List.drop_eq_getElem_cons hi, he, List.pairwise_cons] at hd
    intro q hq
    rcases h4 with h4 | h4
    · have := hd.1 q hq; omega
    · cases hdrop : m.drop (i + 1) with
      | nil => rw [hdrop] at hq; cases hq
      | cons q0 qs =>
        rw [hdrop] at hq hd
        have hq0 : m[i + 1]? = some q0 := by
          have := List.getElem?_drop (xs := m) (i := i + 1) (j := 0)
          rw [hdrop] at this; simpa using this.symm
        have h5 := h4 q0 hq0
        rcases List.mem_cons.1 hq with rfl | hq
        · exact h5
        · have := (List.pairwise_cons.1 hd.2).1 q hq
          omega

/-- C24.  On every map that starts at id 0 and whose first ids strictly increase, the search
    terminates without reading outside the map and returns the file in charge of the id. -/
theorem C24_search_returns_file_in_charge (m : List (Nat × Nat)) (f0 : Nat) (rest : List (Nat × Nat))
    (hm : m = (0, f0) :: rest) (hs : m.Pairwise (fun a b => a.1 < b.1)) (id : Nat) :
    ∃ p, seqSearch m id = some p ∧ InChargeOf m id p.2 :=
  search_in_charge m (0, f0) rest hm hs id (Nat.zero_le _)

/-- The file in charge is unique. -/
theorem C24_file_in_charge_unique (m : List (Nat × Nat)) (hs : m.Pairwise (fun a b => a.1 < b.1))
    (id f g : Nat) (hf : InChargeOf m id f) (hg : InChargeOf m id g) : f = g := by
  obtain ⟨b1, s1, a1, e1, l1, r1⟩ := hf
  obtain ⟨b2, s2, a2, e2, l2, r2⟩ := hg
  subst e1
  rw [List.append_eq_append_iff] at e2
  rcases e2 with ⟨t, ht1, ht2⟩ | ⟨t, ht1, ht2⟩
  · cases t with
    | nil => simp at ht2; exact ht2.1.2
    | cons x t =>
      simp only [List.cons_append, List.cons.injEq] at ht2
      have := r1 (s2, g) (by rw [ht2.2]; simp)
      simp only at this; omega
  · cases t with
    | nil => simp at ht2; exact ht2.1.2.symm
    | cons x t =>
      simp only [List.cons_append, List.cons.injEq] at ht2
      have := r2 (s1, f) (by rw [ht2.2]; simp)
      simp only at this; omega

/-- C24, for every strictly increasing map and every id: if a file is in charge of the id the search returns it. -/
theorem C24_search_finds_the_file (m : List (Nat × Nat)) (hs : m.Pairwise (fun a b => a.1 < b.1)) (id f : Nat)
    (h : InChargeOf m id f) : ∃ first, seqSearch m id = some (first, f) := by
  have h' := h
  obtain ⟨before, first, after, he, hle, -⟩ := h'
  obtain ⟨p0, rest, hm, h0⟩ : ∃ p0 rest, m = p0 :: rest ∧ p0.1 ≤ id := by
    cases before with
    | nil => exact ⟨_, _, he, hle⟩
    | cons x b =>
      refine ⟨x, _, he, ?_⟩
      rw [he, List.cons_append, List.pairwise_cons] at hs
      have := hs.1 (first, f) (by simp)
      simp only at this
      omega
  obtain ⟨p, hp, hc⟩ := search_in_charge m p0 rest hm hs id h0
  refine ⟨p.1, ?_⟩
  rw [hp, ← C24_file_in_charge_unique m hs id p.2 f hc h]

/-- A map that does not start at id 0, an id in the middle. -/
example : ∃ first, seqSearch [(5, 1), (9, 3), (12, 4)] 11 = some (first, 3) :=
  C24_search_finds_the_file [(5, 1), (9, 3), (12, 4)] (by decide) 11 3 ⟨[(5, 1)], 9, [(12, 4)], rfl, by decide, by decide⟩

/-- Whatever the map (even with repeated first ids), the search ends inside the map. -/
theorem C24_search_terminates (m : List (Nat × Nat)) (f0 : Nat) (rest : List (Nat × Nat))
    (hm : m = (0, f0) :: rest) (id : Nat) : ∃ p, seqSearch m id = some p ∧ p ∈ m := by
  obtain ⟨i, p, h1, h2, _, _⟩ := seqSearch_spec m id f0 rest hm
  exact ⟨p, h1, List.mem_of_getElem? h2⟩

/-- Four files of different sizes meet the hypotheses; some ids in the middle and on the edges. -/
example : seqSearch [(0, 0), (3, 1), (4, 2), (90, 3)] 3 = some (3, 1) ∧
    seqSearch [(0, 0), (3, 1), (4, 2), (90, 3)] 89 = some (4, 2) ∧
    seqSearch [(0, 0), (3, 1), (4, 2), (90, 3)] 1000 = some (90, 3) ∧
    [(0, 0), (3, 1), (4, 2), (90, 3)].Pairwise (fun a b : Nat × Nat => a.1 < b.1) := by decide

/-- With a repeated first id (two jumps in a row) the search may stop at the older, empty,
    file: uniqueness of first ids cannot be dropped. -/
theorem C24_repeated_first_id_finds_wrong_file :
    seqSearch [(0, 0), (5, 1), (5, 2)] 5 = some (5, 1) ∧
      ¬ InChargeOf [(0, 0), (5, 1), (5, 2)] 5 1 ∧ InChargeOf [(0, 0), (5, 1), (5, 2)] 5 2 := by
  refine ⟨by decide, ?_, ⟨[(0, 0), (5, 1)], 5, [], rfl, by decide, by simp⟩⟩
  rintro ⟨b, s, a, h, hle, hr⟩
  match b with
  | [] => simp at h
  | [x] =>
    simp at h
    have := hr (5, 2) (by simp [← h.2.2]); simp at this
  | [x, y] => simp at h
  | x :: y :: z :: t =>
    have := congrArg List.length h; simp at this

end Zdb
