/-
The entries of one namespace inside the shared branches.
-/
import Verif.Model.Store
namespace Zdb

/-- Entries of namespace `u` in branch `h`, in order. -/
def nsBranch (br : Branches) (u h : Nat) : List Entry := (br h).filter (fun e => e.ns == u)

theorem find?_is (l : List Entry) (u : Nat) (id : Bytes) :
    l.find? (Entry.is u id) = (l.filter (fun e => e.ns == u)).find? (fun e => e.id == id) := by
  induction l with
  | nil => rfl
  | cons e l ih =>
    simp only [List.filter_cons]
    by_cases h1 : e.ns == u
    · simp only [h1, if_true, List.find?_cons, Entry.is, Bool.true_and]
      by_cases h2 : e.id == id
      · simp [h2]
      · simp only [h2]; exact ih
    · simp only [h1, List.find?_cons, Entry.is, Bool.false_and]
      exact ih

theorem brGet_eq (br : Branches) (u : Nat) (id : Bytes) :
    brGet br u id = (nsBranch br u (keyHash id)).find? (fun e => e.id == id) := find?_is _ _ _

theorem nsBranch_append (br : Branches) (e : Entry) (v h : Nat) :
    nsBranch (brAppend br e) v h =
      nsBranch br v h ++ (if h = keyHash e.id ∧ e.ns = v then [e] else []) := by
  unfold nsBranch brAppend
  by_cases h1 : h = keyHash e.id
  · by_cases h2 : e.ns = v
    · simp [h1, h2]
    · simp [h1, h2]
  · simp [h1]

theorem replaceFirst_filter_same (l : List Entry) (u : Nat) (id : Bytes) (e' : Entry)
    (he : e'.ns = u) :
    (replaceFirst (Entry.is u id) e' l).filter (fun e => e.ns == u) =
      replaceFirst (fun e => e.id == id) e' (l.filter (fun e => e.ns == u)) := by
  induction l with
  | nil => rfl
  | cons e l ih =>
    by_cases h1 : e.ns = u
    · by_cases h2 : e.id = id
      · simp [replaceFirst, Entry.is, h1, h2, he]
      · simp [replaceFirst, Entry.is, h1, h2, ih]
    · simp [replaceFirst, Entry.is, h1, ih]

theorem replaceFirst_filter_other (l : List Entry) (u v : Nat) (id : Bytes) (e' : Entry)
    (he : e'.ns = u) (hv : v ≠ u) :
    (replaceFirst (Entry.is u id) e' l).filter (fun e => e.ns == v) =
      l.filter (fun e => e.ns == v) := by
  induction l with
  | nil => rfl
  | cons e l ih =>
    by_cases h1 : Entry.is u id e
    · have h3 : e.ns = u := by simp [Entry.is] at h1; exact h1.1
      have hv' : ¬ u = v := fun h => hv h.symm
      simp [replaceFirst, h1, h3, he, hv']
    · rw [replaceFirst, if_neg h1, List.filter_cons, List.filter_cons, ih]

theorem nsBranch_update (br : Branches) (u : Nat) (id : Bytes) (e' : Entry) (h : Nat)
    (he : e'.ns = u) :
    nsBranch (brUpdate br u id e') u h =
      if h = keyHash id then replaceFirst (fun e => e.id == id) e' (nsBranch br u h)
      else nsBranch br u h := by
  unfold nsBranch brUpdate
  by_cases h1 : h = keyHash id
  · simp only [if_pos h1]; exact replaceFirst_filter_same _ _ _ _ he
  · simp only [if_neg h1]

theorem nsBranch_update_other (br : Branches) (u v : Nat) (id : Bytes) (e' : Entry) (h : Nat)
    (he : e'.ns = u) (hv : v ≠ u) : nsBranch (brUpdate br u id e') v h = nsBranch br v h := by
  unfold nsBranch brUpdate
  by_cases h1 : h = keyHash id
  · simp only [if_pos h1]; exact replaceFirst_filter_other _ _ _ _ _ he hv
  · simp only [if_neg h1]

theorem eraseP_filter_same (l : List Entry) (u : Nat) (id : Bytes) :
    (l.eraseP (Entry.is u id)).filter (fun e => e.ns == u) =
      (l.filter (fun e => e.ns == u)).eraseP (fun e => e.id == id) := by
  induction l with
  | nil => rfl
  | cons e l ih =>
    by_cases h1 : e.ns = u
    · by_cases h2 : e.id = id
      · simp [Entry.is, h1, h2]
      · simp [Entry.is, h1, h2, ih]
    · simp [Entry.is, h1, ih]

theorem eraseP_filter_other (l : List Entry) (u v : Nat) (id : Bytes) (hv : v ≠ u) :
    (l.eraseP (Entry.is u id)).filter (fun e => e.ns == v) = l.filter (fun e => e.ns == v) := by
  induction l with
  | nil => rfl
  | cons e l ih =>
    by_cases h1 : Entry.is u id e
    · have h3 : e.ns = u := by simp [Entry.is] at h1; exact h1.1
      have hv' : ¬ u = v := fun h => hv h.symm
      simp [h1, h3, hv']
    · rw [List.eraseP_cons_of_neg h1, List.filter_cons, List.filter_cons, ih]

theorem nsBranch_remove (br : Branches) (u : Nat) (id : Bytes) (h : Nat) :
    nsBranch (brRemove br u id) u h =
      if h = keyHash id then (nsBranch br u h).eraseP (fun e => e.id == id)
      else nsBranch br u h := by
  unfold nsBranch brRemove
  by_cases h1 : h = keyHash id
  · simp only [if_pos h1]; exact eraseP_filter_same _ _ _
  · simp only [if_neg h1]

theorem nsBranch_remove_other (br : Branches) (u v : Nat) (id : Bytes) (h : Nat) (hv : v ≠ u) :
    nsBranch (brRemove br u id) v h = nsBranch br v h := by
  unfold nsBranch brRemove
  by_cases h1 : h = keyHash id
  · simp only [if_pos h1]; exact eraseP_filter_other _ _ _ _ hv
  · simp only [if_neg h1]

theorem nsBranch_clean (br : Branches) (u h : Nat) : nsBranch (brClean br u) u h = [] := by
  unfold nsBranch brClean
  simp

theorem nsBranch_clean_other (br : Branches) (u v h : Nat) (hv : v ≠ u) :
    nsBranch (brClean br u) v h = nsBranch br v h := by
  unfold nsBranch brClean
  rw [List.filter_filter]
  congr 1
  funext e
  by_cases h1 : e.ns = v
  · simp [h1, hv]
  · simp [h1]

/-! ### at most one match -/

/-- No two elements satisfy `p`. -/
def Once {α : Type} (p : α → Bool) (l : List α) : Prop := (l.filter p).length ≤ 1

theorem find?_eq_head?_filter {α : Type} (p : α → Bool) (l : List α) :
    l.find? p = (l.filter p).head? := by
  induction l with
  | nil => rfl
  | cons a l ih =>
    by_cases h : p a
    · simp [h]
    · rw [List.find?_cons_of_neg h, List.filter_cons_of_neg h, ih]

theorem find?_perm {α : Type} {p : α → Bool} {l m : List α} (hp : l.Perm m) (ho : Once p m) :
    l.find? p = m.find? p := by
  rw [find?_eq_head?_filter, find?_eq_head?_filter]
  have h := hp.filter p
  have hl := h.length_eq
  unfold Once at ho
  generalize l.filter p = a at *
  generalize m.filter p = b at *
  match a, b, ho with
  | [], [], _ => rfl
  | [x], [y], _ => have := h.singleton_eq; simp at this; simp [this]
  | [], y :: b, _ => simp at hl
  | x :: a, [], _ => simp at hl
  | x :: x' :: a, [y], _ => simp at hl
  | _, y :: y' :: b, ho => simp at ho

theorem eraseP_once {α : Type} {p : α → Bool} {l : List α} (ho : Once p l) :
    l.eraseP p = l.filter (fun a => !p a) := by
  induction l with
  | nil => rfl
  | cons a l ih =>
    by_cases h : p a
    · simp only [List.eraseP_cons, h, List.filter_cons]
      have h0 : l.filter p = [] := by
        unfold Once at ho
        rw [List.filter_cons_of_pos h, List.length_cons] at ho
        exact List.length_eq_zero_iff.1 (by omega)
      simp only [cond_true]
      symm
      simp
      intro b hb
      have := List.filter_eq_nil_iff.1 h0 b hb
      simpa using this
    · have : Once p l := by unfold Once at *; simpa [h] using ho
      simp [h, ih this]

theorem replaceFirst_perm {p : Entry → Bool} {l : List Entry} (e' : Entry) (h : ∃ e ∈ l, p e) :
    (replaceFirst p e' l).Perm (e' :: l.eraseP p) := by
  induction l with
  | nil => obtain ⟨e, he, _⟩ := h; cases he
  | cons a l ih =>
    by_cases ha : p a
    · simp [replaceFirst, ha]
    · obtain ⟨e, he, hpe⟩ := h
      have he' : e ∈ l := by
        rcases List.mem_cons.1 he with rfl | h
        · exact absurd hpe ha
        · exact h
      simp only [replaceFirst, ha, List.eraseP_cons]
      exact ((ih ⟨e, he', hpe⟩).cons a).trans (List.Perm.swap _ _ _)

theorem Once.perm {α : Type} {p : α → Bool} {l m : List α} (h : Once p l) (hp : l.Perm m) :
    Once p m := by
  unfold Once at *
  rwa [(hp.filter p).length_eq] at h

end Zdb
