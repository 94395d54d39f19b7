/-
The linked lists of the table represent the list of entries.
-/
import Verif.Spec.Table
namespace Zdb.Table

/-- The cells from `p` on contain `l`, and the last one points to `q`. -/
def Seg (cells : Nat → Option Cell) : Option Nat → List (Nat × Entry) → Option Nat → Prop
  | p, [], q => p = q
  | p, x :: l, q => p = some x.1 ∧ ∃ nx, cells x.1 = some ⟨x.2, nx⟩ ∧ Seg cells nx l q

theorem Seg.append {c : Nat → Option Cell} {p q : Option Nat} {l1 l2 : List (Nat × Entry)} :
    Seg c p (l1 ++ l2) q ↔ ∃ r, Seg c p l1 r ∧ Seg c r l2 q := by
  induction l1 generalizing p with
  | nil => simp [Seg]
  | cons x l1 ih =>
    simp only [List.cons_append, Seg, ih]
    constructor
    · rintro ⟨h1, nx, h2, r, h3, h4⟩; exact ⟨r, ⟨h1, nx, h2, h3⟩, h4⟩
    · rintro ⟨r, ⟨h1, nx, h2, h3⟩, h4⟩; exact ⟨h1, nx, h2, r, h3, h4⟩

theorem Seg.congr {c c' : Nat → Option Cell} {p q : Option Nat} {l : List (Nat × Entry)} (h : Seg c p l q)
    (he : ∀ x ∈ l, c' x.1 = c x.1) : Seg c' p l q := by
  induction l generalizing p with
  | nil => exact h
  | cons x l ih =>
    obtain ⟨h1, nx, h2, h3⟩ := h
    exact ⟨h1, nx, by rw [he x (by simp)]; exact h2, ih h3 (fun y hy => he y (by simp [hy]))⟩

theorem Seg.cell {c : Nat → Option Cell} {p q : Option Nat} {l : List (Nat × Entry)} (h : Seg c p l q) {x : Nat × Entry} (hx : x ∈ l) :
    ∃ nx, c x.1 = some ⟨x.2, nx⟩ := by
  induction l generalizing p with
  | nil => simp at hx
  | cons y l ih =>
    obtain ⟨h1, nx, h2, h3⟩ := h
    rcases List.mem_cons.1 hx with rfl | hx
    · exact ⟨nx, h2⟩
    · exact ih h3 hx

/-- The entries of a branch. -/
def bucket (F : List (Nat × Entry)) (h : Nat) : List (Nat × Entry) := F.filter (fun x => keyHash x.2.id == h)

theorem mem_bucket {F : List (Nat × Entry)} {h : Nat} {x : Nat × Entry} : x ∈ bucket F h ↔ x ∈ F ∧ keyHash x.2.id = h := by
  simp [bucket]

theorem bucket_append (F F' : List (Nat × Entry)) (h : Nat) : bucket (F ++ F') h = bucket F h ++ bucket F' h := by
  simp [bucket]

theorem bucket_self (x : Nat × Entry) : bucket [x] (keyHash x.2.id) = [x] := by simp [bucket]

theorem bucket_other {x : Nat × Entry} {h : Nat} (hh : keyHash x.2.id ≠ h) : bucket [x] h = [] := by simp [bucket, hh]

/-- A branch contains these entries. -/
def BranchOK (m : Mem) (h : Nat) (l : List (Nat × Entry)) : Prop :=
  match m.branches h with
  | none => l = []
  | some b => b.length = l.length ∧ Seg m.cells b.list l none ∧ b.last = l.getLast?.map Prod.fst

structure Rep (m : Mem) (F : List (Nat × Entry)) : Prop where
  br : ∀ h, BranchOK m h (bucket F h)
  nodup : (F.map Prod.fst).Nodup
  cover : ∀ a, m.cells a ≠ none → a ∈ F.map Prod.fst

theorem Rep.cell {m : Mem} {F : List (Nat × Entry)} (h : Rep m F) {x : Nat × Entry} (hx : x ∈ F) :
    ∃ nx, m.cells x.1 = some ⟨x.2, nx⟩ := by
  have hb := h.br (keyHash x.2.id)
  have hm : x ∈ bucket F (keyHash x.2.id) := mem_bucket.2 ⟨hx, rfl⟩
  unfold BranchOK at hb
  split at hb
  · rw [hb] at hm; simp at hm
  · exact hb.2.1.cell hm

theorem fst_inj {F : List (Nat × Entry)} (h : (F.map Prod.fst).Nodup) {x y : Nat × Entry} (hx : x ∈ F) (hy : y ∈ F) (he : x.1 = y.1) :
    x = y := by
  induction F with
  | nil => simp at hx
  | cons z F ih =>
    simp only [List.map_cons, List.nodup_cons] at h
    rcases List.mem_cons.1 hx with hx | hx <;> rcases List.mem_cons.1 hy with hy | hy
    · rw [hx, hy]
    · have h1 := h.1
      rw [← hx, he] at h1
      exact absurd (List.mem_map_of_mem hy) h1
    · have h1 := h.1
      rw [← hy, ← he] at h1
      exact absurd (List.mem_map_of_mem hx) h1
    · exact ih h.2 hx hy

theorem Rep.init : Rep .init [] where
  br := fun h => by simp [BranchOK, Mem.init, bucket]
  nodup := by simp
  cover := fun a ha => by simp [Mem.init] at ha

/-! ### lookup -/

theorem find_seg {m : Mem} (P : Entry → Bool) {l : List (Nat × Entry)} {p : Option Nat} (h : Seg m.cells p l none) {fuel : Nat}
    (hf : l.length < fuel) : find m P fuel p = .ok ((l.find? (fun x => P x.2)).map Prod.fst) := by
  induction l generalizing p fuel with
  | nil =>
    cases fuel with
    | zero => simp at hf
    | succ n => rw [show p = none from h]; rfl
  | cons x l ih =>
    obtain ⟨h1, nx, h2, h3⟩ := h
    cases fuel with
    | zero => simp at hf
    | succ n =>
      rw [h1, find, h2]
      simp only [List.length_cons] at hf
      by_cases hp : P x.2 = true
      · simp [hp]
      · simp only [hp, if_neg, Bool.false_eq_true, not_false_iff, List.find?_cons]
        exact ih h3 (by omega)

theorem hit_eq (u : Nat) (id : Bytes) (e : Entry) : Entry.is u id e = Hit u id e := by
  unfold Entry.is Hit
  by_cases h1 : e.ns = u <;> by_cases h2 : e.id = id <;> simp [h1, h2]

theorem find_bucket (F : List (Nat × Entry)) (u : Nat) (id : Bytes) :
    (bucket F (keyHash id)).find? (fun x => Entry.is u id x.2) = F.find? (fun x => Hit u id x.2) := by
  unfold bucket
  rw [List.find?_filter]
  congr 1
  funext x
  rw [hit_eq]
  cases hh : Hit u id x.2 with
  | false => simp
  | true =>
    simp only [Hit, decide_eq_true_eq] at hh
    simp [hh.2]

theorem Rep.lookup {m : Mem} {F : List (Nat × Entry)} (h : Rep m F) (u : Nat) (id : Bytes) {fuel : Nat} (hf : F.length < fuel) :
    lookup fuel m u id = .ok ((F.find? (fun x => Hit u id x.2)).map Prod.fst) := by
  have hb := h.br (keyHash id)
  unfold Table.lookup
  unfold BranchOK at hb
  rw [← find_bucket]
  split at hb
  · rename_i hbr
    rw [hbr, hb]; rfl
  · rename_i b hbr
    rw [hbr]
    exact find_seg _ hb.2.1 (by have := List.length_filter_le (fun x : Nat × Entry => keyHash x.2.id == keyHash id) F; unfold bucket; omega)

/-! ### insertion -/

theorem put_self (m : Mem) (a : Nat) (c : Option Cell) : (m.put a c).cells a = c := by simp [Mem.put]

theorem put_other (m : Mem) {a x : Nat} (c : Option Cell) (h : x ≠ a) : (m.put a c).cells x = m.cells x := by simp [Mem.put, h]

theorem BranchOK.frame {m m' : Mem} {h : Nat} {l : List (Nat × Entry)} (hb : BranchOK m h l) (h1 : m'.branches h = m.branches h)
    (h2 : ∀ x ∈ l, m'.cells x.1 = m.cells x.1) : BranchOK m' h l := by
  unfold BranchOK at hb ⊢
  rw [h1]
  split at hb
  · exact hb
  · exact ⟨hb.1, hb.2.1.congr h2, hb.2.2⟩

theorem Rep.insert {m : Mem} {F : List (Nat × Entry)} (h : Rep m F) {a : Nat} (ha : m.cells a = none) (e : Entry) :
    ∃ m', insert m a e = .ok m' ∧ Rep m' (F ++ [(a, e)]) := by
  have hnew : ∀ x ∈ F, x.1 ≠ a := by
    intro x hx he
    obtain ⟨nx, hc⟩ := h.cell hx
    rw [he, ha] at hc
    simp at hc
  have hnod : ((F ++ [(a, e)]).map Prod.fst).Nodup := by
    rw [List.map_append, List.nodup_append]
    refine ⟨h.nodup, by simp, ?_⟩
    intro x hx y hy
    simp only [List.map_cons, List.map_nil, List.mem_singleton] at hy
    obtain ⟨z, hz, rfl⟩ := List.mem_map.1 hx
    rw [hy]; exact hnew z hz
  have hb := h.br (keyHash e.id)
  have hother : ∀ m' : Mem, (∀ h', h' ≠ keyHash e.id → m'.branches h' = m.branches h') →
      (∀ h' x, h' ≠ keyHash e.id → x ∈ bucket F h' → m'.cells x.1 = m.cells x.1) →
      ∀ h', h' ≠ keyHash e.id → BranchOK m' h' (bucket (F ++ [(a, e)]) h') := by
    intro m' h1 h2 h' hne
    rw [bucket_append, bucket_other (x := (a, e)) (fun hc => hne hc.symm), List.append_nil]
    exact (h.br h').frame (h1 h' hne) (fun x hx => h2 h' x hne hx)
  have hbk : bucket (F ++ [(a, e)]) (keyHash e.id) = bucket F (keyHash e.id) ++ [(a, e)] := by
    rw [bucket_append]; congr 1; exact bucket_self (a, e)
  unfold Table.insert Table.append
  have key : (m.branches (keyHash e.id)).getD ⟨0, none, none⟩ = ((m.put a (some ⟨e, none⟩)).branches (keyHash e.id)).getD ⟨0, none, none⟩ := rfl
  rw [← key]
  obtain ⟨b, hbe, hlen, hseg, hlast⟩ : ∃ b : Branch, (m.branches (keyHash e.id)).getD ⟨0, none, none⟩ = b ∧
      b.length = (bucket F (keyHash e.id)).length ∧ Seg m.cells b.list (bucket F (keyHash e.id)) none ∧
      b.last = (bucket F (keyHash e.id)).getLast?.map Prod.fst := by
    unfold BranchOK at hb
    split at hb
    · rename_i hbr; rw [hbr, hb]; exact ⟨_, rfl, by simp, rfl, rfl⟩
    · rename_i b hbr; rw [hbr]; exact ⟨b, rfl, hb⟩
  rw [hbe]
  rcases List.eq_nil_or_concat (bucket F (keyHash e.id)) with hnil | ⟨l, z, hcat⟩
  · rw [hnil] at hlen hseg hlast
    have hl0 : b.last = none := hlast
    have hls : b.list = none := hseg
    simp only [hl0, Res.bind, Mem.setNext, put_self]
    refine ⟨_, rfl, ?_, hnod, ?_⟩
    · intro h'
      by_cases hh : h' = keyHash e.id
      · subst hh
        rw [hbk, hnil]
        simp [BranchOK, Mem.setBranch, hls, hlen, Seg, Mem.put]
      · refine hother _ (fun h2 hne => by simp [Mem.setBranch, hne, Mem.put]) (fun h2 x hne hx => ?_) h' hh
        have := hnew x (mem_bucket.1 hx).1
        simp [Mem.setBranch, Mem.put, this]
    · intro x hx
      by_cases hxa : x = a
      · simp [hxa]
      · simp only [Mem.setBranch, Mem.put, hxa, if_false] at hx
        rw [List.map_append]; exact List.mem_append_left _ (h.cover x hx)
  · rw [List.concat_eq_append] at hcat
    rw [hcat] at hlen hseg hlast
    have hl0 : b.last = some z.1 := by simpa using hlast
    obtain ⟨r, hs1, hs2⟩ := Seg.append.1 hseg
    obtain ⟨hr, nx, hz, hnx⟩ := hs2
    have hzF : z ∈ F := (mem_bucket.1 (by rw [hcat]; simp : z ∈ bucket F (keyHash e.id))).1
    have hza := hnew z hzF
    have hlist : b.list ≠ none := by
      cases l with
      | nil => rw [show b.list = r from hs1, hr]; simp
      | cons y l => rw [hs1.1]; simp
    have hlz : ∀ y ∈ l, y.1 ≠ z.1 := by
      intro y hy he
      have hnd : ((bucket F (keyHash e.id)).map Prod.fst).Nodup := h.nodup.sublist (List.filter_sublist.map _)
      rw [hcat, List.map_append, List.nodup_append] at hnd
      exact hnd.2.2 y.1 (List.mem_map_of_mem hy) z.1 (by simp) he
    simp only [hl0, Mem.setNext, put_other _ _ hza, hz, Res.bind, put_other _ _ (Ne.symm hza), put_self]
    refine ⟨_, rfl, ?_, hnod, ?_⟩
    · intro h'
      by_cases hh : h' = keyHash e.id
      · subst hh
        rw [hbk, hcat]
        refine ?_
        unfold BranchOK
        simp only [Mem.setBranch, if_true, if_neg hlist]
        refine ⟨by rw [hlen]; simp; omega, ?_, by simp⟩
        rw [Seg.append]
        refine ⟨some a, Seg.append.2 ⟨r, ?_, hr, some a, ?_, rfl⟩, rfl, none, ?_, rfl⟩
        · refine hs1.congr (fun y hy => ?_)
          have h1 := hnew y (mem_bucket.1 (by rw [hcat]; simp [hy] : y ∈ bucket F (keyHash e.id))).1
          simp [Mem.put, h1, hlz y hy]
        · simp [Mem.put, hza]
        · simp [Mem.put]
      · refine hother _ (fun h2 hne => by simp [Mem.setBranch, hne, Mem.put]) (fun h2 x hne hx => ?_) h' hh
        have h1 := hnew x (mem_bucket.1 hx).1
        have h2 : x.1 ≠ z.1 := by
          intro hc
          have := fst_inj h.nodup (mem_bucket.1 hx).1 hzF hc
          rw [this] at hx
          have e1 := (mem_bucket.1 hx).2
          have e2 := (mem_bucket.1 (by rw [hcat]; simp : z ∈ bucket F (keyHash e.id))).2
          exact hne (e1.symm.trans e2)
        simp [Mem.setBranch, Mem.put, h1, h2]
    · intro x hx
      rw [List.map_append, List.mem_append]
      by_cases hxa : x = a
      · exact Or.inr (by simp [hxa])
      · by_cases hxz : x = z.1
        · exact Or.inl (List.mem_map.2 ⟨z, hzF, hxz.symm⟩)
        · simp only [Mem.setBranch, Mem.put, hxa, hxz, if_false] at hx
          exact Or.inl (h.cover x hx)

/-! ### change of the fields -/

theorem Rep.update {m : Mem} {F1 F2 : List (Nat × Entry)} {x : Nat × Entry} (h : Rep m (F1 ++ x :: F2)) {nx : Option Nat}
    (hc : m.cells x.1 = some ⟨x.2, nx⟩) {e : Entry} (he : e.id = x.2.id) :
    Rep (m.put x.1 (some ⟨e, nx⟩)) (F1 ++ (x.1, e) :: F2) := by
  have hnd := h.nodup
  rw [List.map_append, List.map_cons, List.nodup_append] at hnd
  obtain ⟨hn1, hn2, hn3⟩ := hnd
  rw [List.nodup_cons] at hn2
  have k1 : ∀ y ∈ F1, y.1 ≠ x.1 := fun y hy => hn3 y.1 (List.mem_map_of_mem hy) x.1 (by simp)
  have k2 : ∀ y ∈ F2, y.1 ≠ x.1 := fun y hy hc => hn2.1 (by rw [← hc]; exact List.mem_map_of_mem hy)
  refine ⟨?_, ?_, ?_⟩
  · intro h'
    have hb := h.br h'
    rw [show F1 ++ x :: F2 = F1 ++ ([x] ++ F2) from rfl, bucket_append, bucket_append] at hb
    rw [show F1 ++ (x.1, e) :: F2 = F1 ++ ([(x.1, e)] ++ F2) from rfl, bucket_append, bucket_append]
    by_cases hh : keyHash x.2.id = h'
    · subst hh
      rw [bucket_self] at hb
      rw [show bucket [(x.1, e)] (keyHash x.2.id) = [(x.1, e)] from by rw [← he]; exact bucket_self (x.1, e)]
      unfold BranchOK at hb ⊢
      simp only [Mem.put]
      split at hb
      · simp at hb
      · rename_i b hbr
        obtain ⟨g1, g2, g3⟩ := hb
        refine ⟨by rw [g1]; simp, ?_, ?_⟩
        · obtain ⟨r, s1, s2⟩ := Seg.append.1 g2
          obtain ⟨t1, nx', t2, t3⟩ := s2
          rw [hc] at t2
          cases t2
          refine Seg.append.2 ⟨r, s1.congr (fun y hy => ?_), t1, nx, by simp, Seg.congr t3 (fun y hy => ?_)⟩
          · simp [k1 y (mem_bucket.1 hy).1]
          · simp [k2 y (mem_bucket.1 hy).1]
        · rw [g3]
          rcases List.eq_nil_or_concat (bucket F2 (keyHash x.2.id)) with hnil | ⟨l, z, hcat⟩
          · rw [hnil]; simp
          · rw [hcat, List.concat_eq_append]
            simp [List.getLast?_append, List.getLast?_cons]
    · rw [bucket_other hh] at hb
      rw [bucket_other (x := (x.1, e)) (by rw [he]; exact hh)]
      refine hb.frame rfl (fun y hy => put_other _ _ ?_)
      simp only [List.nil_append, List.mem_append] at hy
      rcases hy with hy | hy
      · exact k1 y (mem_bucket.1 hy).1
      · exact k2 y (mem_bucket.1 hy).1
  · have := h.nodup
    simpa using this
  · intro a ha
    by_cases hax : a = x.1
    · simp [hax]
    · rw [put_other _ _ hax] at ha
      have := h.cover a ha
      simpa using this

/-! ### removal -/

/-- `index_branch_remove` followed by `free`. -/
theorem Rep.removed {m : Mem} {F1 F2 : List (Nat × Entry)} {x : Nat × Entry} (h : Rep m (F1 ++ x :: F2)) {b : Branch}
    (hbr : m.branches (keyHash x.2.id) = some b) {prev : Option Nat} (hp : prev = (bucket F1 (keyHash x.2.id)).getLast?.map Prod.fst) :
    ∃ m1 m2, remove m (keyHash x.2.id) b x.1 prev = .ok m1 ∧ m1.free x.1 = .ok m2 ∧ Rep m2 (F1 ++ F2) ∧
      ∀ l, Seg m.cells l (bucket F2 (keyHash x.2.id)) none → Seg m2.cells l (bucket F2 (keyHash x.2.id)) none := by
  have hnd := h.nodup
  rw [List.map_append, List.map_cons, List.nodup_append] at hnd
  obtain ⟨hn1, hn2, hn3⟩ := hnd
  rw [List.nodup_cons] at hn2
  have k1 : ∀ y ∈ F1, y.1 ≠ x.1 := fun y hy => hn3 y.1 (List.mem_map_of_mem hy) x.1 (by simp)
  have k2 : ∀ y ∈ F2, y.1 ≠ x.1 := fun y hy hc => hn2.1 (by rw [← hc]; exact List.mem_map_of_mem hy)
  have k12 : ∀ y ∈ F1, ∀ z ∈ F2, y.1 ≠ z.1 := fun y hy z hz =>
    hn3 y.1 (List.mem_map_of_mem hy) z.1 (List.mem_cons_of_mem _ (List.mem_map_of_mem hz))
  have hnod : ((F1 ++ F2).map Prod.fst).Nodup := by
    rw [List.map_append, List.nodup_append]
    exact ⟨hn1, hn2.2, fun y hy z hz => hn3 y hy z (List.mem_cons_of_mem _ hz)⟩
  have hb := h.br (keyHash x.2.id)
  rw [show F1 ++ x :: F2 = F1 ++ ([x] ++ F2) from rfl, bucket_append, bucket_append, bucket_self] at hb
  unfold BranchOK at hb
  rw [hbr] at hb
  obtain ⟨g1, g2, g3⟩ := hb
  obtain ⟨r, s1, s2⟩ := Seg.append.1 g2
  obtain ⟨t1, nx, t2, t3⟩ := s2
  replace t3 : Seg m.cells nx (bucket F2 (keyHash x.2.id)) none := t3
  have hframe : ∀ m' : Mem, (∀ h', h' ≠ keyHash x.2.id → m'.branches h' = m.branches h') →
      (∀ y ∈ F1 ++ F2, keyHash y.2.id ≠ keyHash x.2.id → m'.cells y.1 = m.cells y.1) →
      ∀ h', h' ≠ keyHash x.2.id → BranchOK m' h' (bucket (F1 ++ F2) h') := by
    intro m' e1 e2 h' hne
    have hb := h.br h'
    rw [show F1 ++ x :: F2 = F1 ++ ([x] ++ F2) from rfl, bucket_append, bucket_append, bucket_other (fun hc => hne hc.symm), List.nil_append,
      ← bucket_append] at hb
    exact hb.frame (e1 h' hne) (fun y hy => e2 y (mem_bucket.1 hy).1 (by rw [(mem_bucket.1 hy).2]; exact hne))
  have hlast : (if b.last = some x.1 then prev else b.last) = (bucket (F1 ++ F2) (keyHash x.2.id)).getLast?.map Prod.fst := by
    rw [g3, bucket_append]
    rcases List.eq_nil_or_concat (bucket F2 (keyHash x.2.id)) with hnil | ⟨l, z, hcat⟩
    · rw [hnil]; simp [hp]
    · have hz : z.1 ≠ x.1 := k2 z (mem_bucket.1 (by rw [hcat]; simp : z ∈ bucket F2 (keyHash x.2.id))).1
      rw [hcat, List.concat_eq_append]
      simp [List.getLast?_append, List.getLast?_cons, hz]
  unfold remove Mem.free
  rw [t2]
  rcases List.eq_nil_or_concat (bucket F1 (keyHash x.2.id)) with hnil | ⟨l, z, hcat⟩
  · rw [hnil] at hp s1
    replace hp : prev = none := hp
    replace s1 : b.list = r := s1
    subst hp
    simp only [Res.bind]
    refine ⟨_, _, rfl, by simp only [Mem.setBranch, t2]; rfl, ⟨?_, hnod, ?_⟩, ?_⟩
    · intro h'
      by_cases hh : h' = keyHash x.2.id
      · subst hh
        unfold BranchOK
        simp only [Mem.put, Mem.setBranch, if_true]
        rw [s1, t1, if_pos rfl]
        refine ⟨by rw [g1, bucket_append, hnil]; simp, ?_, hlast⟩
        rw [bucket_append, hnil]
        refine t3.congr (fun y hy => ?_)
        simp [k2 y (mem_bucket.1 hy).1]
      · refine hframe _ (fun h2 hne => by simp [Mem.setBranch, Mem.put, hne]) (fun y hy hne => ?_) h' hh
        have : y.1 ≠ x.1 := by
          rcases List.mem_append.1 hy with hy | hy
          · exact k1 y hy
          · exact k2 y hy
        simp [Mem.setBranch, Mem.put, this]
    · intro a ha
      by_cases hax : a = x.1
      · simp [Mem.put, hax] at ha
      · simp only [Mem.put, Mem.setBranch, hax, if_false] at ha
        have := h.cover a ha
        simp only [List.map_append, List.map_cons, List.mem_append, List.mem_cons, hax, false_or] at this ⊢
        exact this
    · intro l hl
      exact hl.congr (fun y hy => by simp [Mem.put, Mem.setBranch, k2 y (mem_bucket.1 hy).1])
  · rw [List.concat_eq_append] at hcat
    rw [hcat] at hp s1
    replace hp : prev = some z.1 := by simpa using hp
    subst hp
    have hzb : z ∈ bucket F1 (keyHash x.2.id) := by rw [hcat]; simp
    have hzx := k1 z (mem_bucket.1 hzb).1
    obtain ⟨r', s3, s4⟩ := Seg.append.1 s1
    obtain ⟨u1, nz, u2, u3⟩ := s4
    replace u3 : nz = r := u3
    have hl : b.list ≠ some x.1 := by
      cases l with
      | nil => rw [show b.list = r' from s3, u1]; simp [hzx]
      | cons y l =>
        rw [s3.1]
        have : y.1 ≠ x.1 := k1 y (mem_bucket.1 (by rw [hcat]; simp : y ∈ bucket F1 (keyHash x.2.id))).1
        simp [this]
    have hlz : ∀ y ∈ l, y.1 ≠ z.1 := by
      intro y hy he
      have hnd : ((bucket F1 (keyHash x.2.id)).map Prod.fst).Nodup := hn1.sublist (List.filter_sublist.map _)
      rw [hcat, List.map_append, List.nodup_append] at hnd
      exact hnd.2.2 y.1 (List.mem_map_of_mem hy) z.1 (by simp) he
    simp only [Mem.setNext, u2, Res.bind]
    refine ⟨_, _, rfl, by simp only [Mem.setBranch, put_other _ _ (Ne.symm hzx), t2]; rfl, ⟨?_, hnod, ?_⟩, ?_⟩
    · intro h'
      by_cases hh : h' = keyHash x.2.id
      · subst hh
        unfold BranchOK
        simp only [Mem.put, Mem.setBranch, if_true]
        rw [if_neg hl]
        refine ⟨by rw [g1, bucket_append]; simp; omega, ?_, hlast⟩
        rw [bucket_append, hcat]
        refine Seg.append.2 ⟨nx, Seg.append.2 ⟨r', s3.congr (fun y hy => ?_), u1, nx, by simp [hzx], rfl⟩, t3.congr (fun y hy => ?_)⟩
        · have e1 := k1 y (mem_bucket.1 (by rw [hcat]; simp [hy] : y ∈ bucket F1 (keyHash x.2.id))).1
          simp [e1, hlz y hy]
        · have e1 := k2 y (mem_bucket.1 hy).1
          have e2 := k12 z (mem_bucket.1 hzb).1 y (mem_bucket.1 hy).1
          simp [e1, Ne.symm e2]
      · refine hframe _ (fun h2 hne => by simp [Mem.setBranch, Mem.put, hne]) (fun y hy hne => ?_) h' hh
        have e1 : y.1 ≠ x.1 := by
          rcases List.mem_append.1 hy with hy | hy
          · exact k1 y hy
          · exact k2 y hy
        have e2 : y.1 ≠ z.1 := by
          intro hc
          have := fst_inj hnod hy (List.mem_append_left _ (mem_bucket.1 hzb).1) hc
          rw [this] at hne
          exact hne (mem_bucket.1 hzb).2
        simp [Mem.setBranch, Mem.put, e1, e2]
    · intro a ha
      rw [List.map_append, List.mem_append]
      by_cases hax : a = x.1
      · simp [Mem.put, hax] at ha
      · by_cases haz : a = z.1
        · exact Or.inl (List.mem_map.2 ⟨z, (mem_bucket.1 hzb).1, haz.symm⟩)
        · simp only [Mem.put, Mem.setBranch, hax, haz, if_false] at ha
          have := h.cover a ha
          simp only [List.map_append, List.map_cons, List.mem_append, List.mem_cons, hax, false_or] at this
          exact this
    · intro l' hl'
      refine hl'.congr (fun y hy => ?_)
      have e1 := k2 y (mem_bucket.1 hy).1
      have e2 := k12 z (mem_bucket.1 hzb).1 y (mem_bucket.1 hy).1
      simp [Mem.put, Mem.setBranch, e1, Ne.symm e2]

theorem getPrevious_seg {m : Mem} {x : Nat × Entry} {l1 l2 : List (Nat × Entry)} {p : Option Nat} (hs : Seg m.cells p (l1 ++ x :: l2) none)
    (hn : ∀ y ∈ l1, y.1 ≠ x.1) {prev : Option Nat} {fuel : Nat} (hf : l1.length < fuel) :
    getPrevious m x.1 fuel prev p = .ok ((l1.getLast?.map Prod.fst).or prev) := by
  induction l1 generalizing p prev fuel with
  | nil =>
    cases fuel with
    | zero => simp at hf
    | succ n =>
      rw [hs.1, getPrevious, if_pos rfl]; simp
  | cons y l1 ih =>
    obtain ⟨h1, nx, h2, h3⟩ := hs
    cases fuel with
    | zero => simp at hf
    | succ n =>
      rw [h1, getPrevious, if_neg (hn y (by simp)), h2]
      simp only [List.length_cons] at hf
      show getPrevious m x.1 n (some y.1) nx = _
      rw [ih h3 (fun z hz => hn z (by simp [hz])) (by omega)]
      rcases List.eq_nil_or_concat l1 with rfl | ⟨l, z, rfl⟩
      · simp
      · rw [List.concat_eq_append]
        simp [List.getLast?_append, List.getLast?_cons]

theorem Rep.delete {m : Mem} {F1 F2 : List (Nat × Entry)} {x : Nat × Entry} (h : Rep m (F1 ++ x :: F2)) :
    ∃ m', Rep m' (F1 ++ F2) ∧ ∀ fuel, (F1 ++ x :: F2).length < fuel → deleteMemory fuel m x.1 = .ok (m', true) := by
  obtain ⟨nx, hc⟩ := h.cell (x := x) (by simp)
  have hb := h.br (keyHash x.2.id)
  rw [show F1 ++ x :: F2 = F1 ++ ([x] ++ F2) from rfl, bucket_append, bucket_append, bucket_self] at hb
  cases hbr : m.branches (keyHash x.2.id) with
  | none => simp [BranchOK, hbr] at hb
  | some b =>
    simp only [BranchOK, hbr] at hb
    have hnd := h.nodup
    rw [List.map_append, List.map_cons, List.nodup_append] at hnd
    have k1 : ∀ y ∈ F1, y.1 ≠ x.1 := fun y hy => hnd.2.2 y.1 (List.mem_map_of_mem hy) x.1 (by simp)
    obtain ⟨m1, m2, e1, e2, e3, _⟩ := h.removed hbr rfl
    refine ⟨m2, e3, fun fuel hf => ?_⟩
    have hlen : (bucket F1 (keyHash x.2.id)).length < fuel := by
      have := List.length_filter_le (fun y : Nat × Entry => keyHash y.2.id == keyHash x.2.id) F1
      simp only [List.length_append, List.length_cons] at hf
      unfold bucket; omega
    have hg := getPrevious_seg (prev := none) hb.2.1 (fun y hy => k1 y (mem_bucket.1 hy).1) hlen
    rw [Option.or_none] at hg
    unfold deleteMemory
    rw [hc]
    simp only [hbr, hg, Res.bind]
    rw [if_neg]
    · rw [e1]; simp only [e2]
    · intro hcx
      obtain ⟨y, hy, hy1⟩ := Option.map_eq_some_iff.1 hcx
      exact k1 y (mem_bucket.1 (List.mem_of_getLast? hy)).1 hy1

/-! ### removal of all the entries of a namespace -/

theorem bucket_split {F l1 l2 : List (Nat × Entry)} {x : Nat × Entry} {h : Nat} (hb : bucket F h = l1 ++ x :: l2) :
    ∃ F1 F2, F = F1 ++ x :: F2 ∧ bucket F1 h = l1 ∧ bucket F2 h = l2 ∧ keyHash x.2.id = h := by
  have hx : keyHash x.2.id = h := (mem_bucket.1 (by rw [hb]; simp : x ∈ bucket F h)).2
  unfold bucket at hb
  obtain ⟨A, B, rfl, hA, hB⟩ := List.filter_eq_append_iff.1 hb
  obtain ⟨C, D, rfl, hC, _, hD⟩ := List.filter_eq_cons_iff.1 hB
  refine ⟨A ++ C, D, by simp, ?_, hD, hx⟩
  unfold bucket
  rw [List.filter_append, hA]
  rw [List.filter_eq_nil_iff.2 (fun a ha => by have := hC a ha; simpa using this), List.append_nil]

/-- An entry that the cleaning of a branch keeps. -/
def kept (u : Nat) (P : Nat → Bool) (x : Nat × Entry) : Bool := !(P (keyHash x.2.id) && decide (x.2.ns = u))

theorem cleanBranch_rep (u h : Nat) {l2 : List (Nat × Entry)} {m : Mem} {F l1 : List (Nat × Entry)} (hR : Rep m F)
    (hb : bucket F h = l1 ++ l2) (hk : ∀ x ∈ l1, x.2.ns ≠ u) {prev p : Option Nat} (hp : prev = l1.getLast?.map Prod.fst)
    (hs : Seg m.cells p l2 none) :
    ∃ m', Rep m' (F.filter (kept u (· == h))) ∧ ∀ fuel, l2.length < fuel → cleanBranch u h fuel m prev p = .ok m' := by
  induction l2 generalizing m F l1 prev p with
  | nil =>
    refine ⟨m, ?_, fun fuel hf => ?_⟩
    · rw [List.filter_eq_self.2]
      · exact hR
      · intro x hx
        by_cases hh : keyHash x.2.id = h
        · have : x ∈ l1 := by rw [← List.append_nil l1, ← hb]; exact mem_bucket.2 ⟨hx, hh⟩
          simp [kept, hk x this]
        · simp [kept, hh]
    · cases fuel with
      | zero => simp at hf
      | succ n => rw [show p = none from hs]; rfl
  | cons x l2 ih =>
    obtain ⟨h1, nx, h2, h3⟩ := hs
    by_cases hu : x.2.ns = u
    · obtain ⟨F1, F2, rfl, b1, b2, hx⟩ := bucket_split hb
      subst hx
      have hbo := hR.br (keyHash x.2.id)
      rw [hb] at hbo
      cases hbr : m.branches (keyHash x.2.id) with
      | none => simp [BranchOK, hbr] at hbo
      | some b =>
        obtain ⟨m1, m2, e1, e2, e3, e4⟩ := hR.removed hbr (hp.trans (by rw [b1]))
        obtain ⟨m', r1, r2⟩ := ih (l1 := l1) e3 (by rw [bucket_append, b1, b2]) hk hp (by rw [← b2]; exact e4 _ (by rw [b2]; exact h3))
        refine ⟨m', ?_, fun fuel hf => ?_⟩
        · have : (F1 ++ x :: F2).filter (kept u (· == keyHash x.2.id)) = (F1 ++ F2).filter (kept u (· == keyHash x.2.id)) := by
            rw [List.filter_append, List.filter_append, List.filter_cons_of_neg (by simp [kept, hu])]
          rw [this]; exact r1
        · cases fuel with
          | zero => simp at hf
          | succ n =>
            rw [h1, cleanBranch, h2]
            simp only [hu, ne_eq, not_true_eq_false, if_false, hbr, e1, e2, Res.bind]
            exact r2 n (by simp only [List.length_cons] at hf; omega)
    · obtain ⟨m', r1, r2⟩ := ih (l1 := l1 ++ [x]) (prev := some x.1) hR (by rw [hb]; simp)
        (fun y hy => by
          rcases List.mem_append.1 hy with hy | hy
          · exact hk y hy
          · rw [List.mem_singleton.1 hy]; exact hu) (by simp) h3
      refine ⟨m', r1, fun fuel hf => ?_⟩
      cases fuel with
      | zero => simp at hf
      | succ n =>
        rw [h1, cleanBranch, h2]
        simp only [hu, ne_eq, not_false_eq_true, if_true]
        exact r2 n (by simp only [List.length_cons] at hf; omega)

/-- A step made on one branch after the other. -/
theorem forBranches_rep {step : Nat → Mem → Nat → Res Mem} {keep : (Nat → Bool) → Nat × Entry → Bool}
    (hkeep : ∀ P Q x, (keep P x && keep Q x) = keep (fun h => P h || Q h) x) (hnone : ∀ x, keep (fun _ => false) x = true)
    (hstep : ∀ m F h, Rep m F → ∃ m', Rep m' (F.filter (keep (· == h))) ∧ ∀ fuel, F.length < fuel → step fuel m h = .ok m')
    {m : Mem} {F : List (Nat × Entry)} (hR : Rep m F) (hs : List Nat) :
    ∃ m', Rep m' (F.filter (keep (hs.contains ·))) ∧ ∀ fuel, F.length < fuel → forBranches (step fuel) m hs = .ok m' := by
  induction hs generalizing m F with
  | nil =>
    refine ⟨m, ?_, fun fuel hf => rfl⟩
    rw [List.filter_eq_self.2]
    · exact hR
    · intro x _
      have := hnone x
      simpa using this
  | cons h hs ih =>
    obtain ⟨m1, r1, r2⟩ := hstep m F h hR
    obtain ⟨m', r3, r4⟩ := ih r1
    refine ⟨m', ?_, fun fuel hf => ?_⟩
    · rw [List.filter_filter] at r3
      have : (fun a => keep (hs.contains ·) a && keep (· == h) a) = keep ((h :: hs).contains ·) := by
        funext a
        rw [hkeep]
        congr 1
        funext k
        rw [List.contains_cons, Bool.or_comm]
      rw [← this]; exact r3
    · unfold forBranches
      rw [List.foldl_cons]
      show List.foldl _ (step fuel m h) hs = _
      rw [r2 fuel hf]
      exact r4 fuel (by have := List.length_filter_le (keep (· == h)) F; omega)

theorem keyHash_lt (id : Bytes) : keyHash id < buckets := by
  unfold keyHash buckets; exact Nat.lt_of_le_of_lt Nat.and_le_right (by decide)

theorem Rep.clean {m : Mem} {F : List (Nat × Entry)} (hR : Rep m F) (u : Nat) :
    ∃ m', Rep m' (F.filter (fun x => decide (x.2.ns ≠ u))) ∧ ∀ fuel, F.length < fuel → clean fuel m u = .ok m' := by
  obtain ⟨m', r1, r2⟩ := forBranches_rep (step := fun fuel => cleanOne fuel u) (keep := kept u)
    (fun P Q x => by
      unfold kept
      cases h1 : P (keyHash x.2.id) <;> cases h2 : Q (keyHash x.2.id) <;> simp [h1, h2])
    (fun x => by simp [kept])
    (fun m F h hR => by
      have hb := hR.br h
      cases hbr : m.branches h with
      | none =>
        simp only [BranchOK, hbr] at hb
        refine ⟨m, ?_, fun fuel _ => by simp [cleanOne, hbr]⟩
        rw [List.filter_eq_self.2]
        · exact hR
        · intro x hx
          by_cases hh : keyHash x.2.id = h
          · have : x ∈ bucket F h := mem_bucket.2 ⟨hx, hh⟩
            rw [hb] at this; simp at this
          · simp [kept, hh]
      | some b =>
        simp only [BranchOK, hbr] at hb
        obtain ⟨m', r1, r2⟩ := cleanBranch_rep u h (l1 := []) (prev := none) hR rfl (by simp) rfl hb.2.1
        refine ⟨m', r1, fun fuel hf => ?_⟩
        simp only [cleanOne, hbr]
        exact r2 fuel (by have := List.length_filter_le (fun x : Nat × Entry => keyHash x.2.id == h) F; omega))
    hR (List.range buckets)
  refine ⟨m', ?_, r2⟩
  have : (fun x : Nat × Entry => decide (x.2.ns ≠ u)) = kept u ((List.range buckets).contains ·) := by
    funext x
    have : keyHash x.2.id ∈ List.range buckets := List.mem_range.2 (keyHash_lt _)
    simp only [kept, List.contains_iff_mem.2 this]
    simp
  rw [this]; exact r1

/-! ### the end -/

theorem freeList_seg {l : List (Nat × Entry)} {m : Mem} {p : Option Nat} (hs : Seg m.cells p l none) (hn : (l.map Prod.fst).Nodup)
    {fuel : Nat} (hf : l.length < fuel) :
    freeList fuel m p = .ok { m with cells := fun a => if a ∈ l.map Prod.fst then none else m.cells a } := by
  induction l generalizing m p fuel with
  | nil =>
    cases fuel with
    | zero => simp at hf
    | succ n => rw [show p = none from hs]; simp [freeList]
  | cons x l ih =>
    obtain ⟨h1, nx, h2, h3⟩ := hs
    rw [List.map_cons, List.nodup_cons] at hn
    cases fuel with
    | zero => simp at hf
    | succ n =>
      rw [h1, freeList, h2]
      simp only [Mem.free, h2, Res.bind]
      rw [ih (m := m.put x.1 none) (h3.congr (fun y hy => put_other _ _ (fun hc => hn.1 (by rw [← hc]; exact List.mem_map_of_mem hy)))) hn.2
        (by simp only [List.length_cons] at hf; omega)]
      congr 1
      simp only [Mem.put, List.map_cons, List.mem_cons]
      congr 1
      funext a
      by_cases ha : a = x.1 <;> by_cases hb : a ∈ l.map Prod.fst <;> simp [ha, hb]

theorem branchFree_rep {m : Mem} {F : List (Nat × Entry)} (hR : Rep m F) (h : Nat) :
    ∃ m', Rep m' (F.filter (fun x => !(keyHash x.2.id == h))) ∧ ∀ fuel, F.length < fuel → branchFree fuel m h = .ok m' := by
  have hb := hR.br h
  have hbk : ∀ h', bucket (F.filter (fun x => !(keyHash x.2.id == h))) h' = if h' = h then [] else bucket F h' := by
    intro h'
    unfold bucket
    rw [List.filter_filter]
    by_cases hh : h' = h
    · rw [if_pos hh, List.filter_eq_nil_iff]
      intro a _; subst hh; simp
    · rw [if_neg hh]
      congr 1
      funext x
      by_cases he : keyHash x.2.id = h'
      · subst he; simp [hh]
      · simp [he]
  have hnod := hR.nodup.sublist ((List.filter_sublist (p := fun x : Nat × Entry => !(keyHash x.2.id == h)) (l := F)).map Prod.fst)
  cases hbr : m.branches h with
  | none =>
    simp only [BranchOK, hbr] at hb
    refine ⟨m, ?_, fun fuel _ => by simp [branchFree, hbr]⟩
    rw [List.filter_eq_self.2]
    · exact hR
    · intro x hx
      by_cases hh : keyHash x.2.id = h
      · have : x ∈ bucket F h := mem_bucket.2 ⟨hx, hh⟩
        rw [hb] at this; simp at this
      · simp [hh]
  | some b =>
    simp only [BranchOK, hbr] at hb
    have hnb : ((bucket F h).map Prod.fst).Nodup := hR.nodup.sublist (List.filter_sublist.map _)
    refine ⟨Mem.setBranch { m with cells := fun a => if a ∈ (bucket F h).map Prod.fst then none else m.cells a } h none,
      ⟨?_, hnod, ?_⟩, fun fuel hf => ?_⟩
    · intro h'
      rw [hbk]
      by_cases hh : h' = h
      · simp [BranchOK, Mem.setBranch, hh]
      · rw [if_neg hh]
        refine (hR.br h').frame (by simp [Mem.setBranch, hh]) (fun x hx => ?_)
        simp only [Mem.setBranch]
        rw [if_neg]
        intro hc
        obtain ⟨y, hy, hy1⟩ := List.mem_map.1 hc
        have := fst_inj hR.nodup (mem_bucket.1 hy).1 (mem_bucket.1 hx).1 hy1
        subst this
        exact hh ((mem_bucket.1 hx).2.symm.trans (mem_bucket.1 hy).2)
    · intro a ha
      simp only [Mem.setBranch] at ha
      split at ha
      · simp at ha
      · rename_i hna
        obtain ⟨y, hy, hy1⟩ := List.mem_map.1 (hR.cover a ha)
        refine List.mem_map.2 ⟨y, List.mem_filter.2 ⟨hy, ?_⟩, hy1⟩
        have : keyHash y.2.id ≠ h := fun hc => hna (List.mem_map.2 ⟨y, mem_bucket.2 ⟨hy, hc⟩, hy1⟩)
        simp [this]
    · simp only [branchFree, hbr]
      rw [freeList_seg hb.2.1 hnb (by have := List.length_filter_le (fun x : Nat × Entry => keyHash x.2.id == h) F; unfold bucket; omega)]
      rfl

theorem Rep.destroy {m : Mem} {F : List (Nat × Entry)} (hR : Rep m F) :
    ∃ m', (∀ a, m'.cells a = none) ∧ ∀ fuel, F.length < fuel → destroy fuel m .user = .ok m' := by
  obtain ⟨m', r1, r2⟩ := forBranches_rep (step := branchFree) (keep := fun P x => !(P (keyHash x.2.id)))
    (fun P Q x => by simp) (fun x => rfl) (fun m F h hR => branchFree_rep hR h) hR (List.range buckets)
  refine ⟨m', fun a => ?_, r2⟩
  have he : F.filter (fun x => !((List.range buckets).contains (keyHash x.2.id))) = [] := by
    rw [List.filter_eq_nil_iff]
    intro x _
    have : keyHash x.2.id ∈ List.range buckets := List.mem_range.2 (keyHash_lt _)
    simp only [List.contains_iff_mem.2 this]
    simp
  rw [he] at r1
  cases hc : m'.cells a with
  | none => rfl
  | some c => exact absurd (r1.cover a (by simp [hc])) (by simp)

end Zdb.Table
