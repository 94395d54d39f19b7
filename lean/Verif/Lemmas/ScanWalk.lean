/-
Walks over the index files: they end, and what they find.
-/
import Verif.Lemmas.Core
import Verif.Model.Scan
namespace Zdb

/-! ### more turns do not change a result -/

theorem walkUp_mono {step : Bytes → Nat → Nat → Step} {fs : List Bytes} {n m file o t : Nat}
    (h : walkUp step fs n file o t ≠ .fuel) (hm : n ≤ m) :
    walkUp step fs m file o t = walkUp step fs n file o t := by
  induction n generalizing m file o t with
  | zero => exact absurd rfl h
  | succ n ih =>
    obtain ⟨m, rfl⟩ : ∃ k, m = k + 1 := ⟨m - 1, by omega⟩
    simp only [walkUp] at h ⊢
    cases hf : fs[file]? with
    | none => rfl
    | some f =>
      simp only [hf] at h ⊢
      cases hs : step f o t with
      | found a b => rfl
      | unexpected => rfl
      | noMore => rfl
      | again a b => simp only [hs] at h ⊢; exact ih h (by omega)
      | other a b => simp only [hs] at h ⊢; exact ih h (by omega)

theorem walkDown_mono {step : Bytes → Nat → Nat → Step} {fs : List Bytes} {n m file o t : Nat}
    (h : walkDown step fs n file o t ≠ .fuel) (hm : n ≤ m) :
    walkDown step fs m file o t = walkDown step fs n file o t := by
  induction n generalizing m file o t with
  | zero => exact absurd rfl h
  | succ n ih =>
    obtain ⟨m, rfl⟩ : ∃ k, m = k + 1 := ⟨m - 1, by omega⟩
    simp only [walkDown] at h ⊢
    cases hf : fs[file]? with
    | none => rfl
    | some f =>
      simp only [hf] at h ⊢
      cases hs : step f o t with
      | found a b => rfl
      | unexpected => rfl
      | noMore => rfl
      | again a b => simp only [hs] at h ⊢; exact ih h (by omega)
      | other a b => simp only [hs] at h ⊢; exact ih h (by omega)

/-! ### walks end -/

/-- Turns needed by the files from `file` on. -/
def upCost (fs : List Bytes) (file : Nat) : Nat := ((fs.drop file).map (fun f => f.length + 3)).sum

/-- Turns needed by the files before `file`. -/
def downCost (fs : List Bytes) (file : Nat) : Nat := ((fs.take file).map (fun f => f.length + 3)).sum

theorem upCost_succ {fs : List Bytes} {file : Nat} {f : Bytes} (h : fs[file]? = some f) :
    upCost fs file = f.length + 3 + upCost fs (file + 1) := by
  obtain ⟨hl, rfl⟩ := List.getElem?_eq_some_iff.1 h
  rw [upCost, List.drop_eq_getElem_cons hl, List.map_cons, List.sum_cons, upCost]

theorem downCost_succ {fs : List Bytes} {file : Nat} {f : Bytes} (h : fs[file]? = some f) :
    downCost fs (file + 1) = downCost fs file + (f.length + 3) := by
  obtain ⟨hl, rfl⟩ := List.getElem?_eq_some_iff.1 h
  rw [downCost, List.take_succ_eq_append_getElem hl, List.map_append, List.sum_append, downCost]
  simp only [List.map_cons, List.map_nil, List.sum_cons, List.sum_nil, Nat.add_zero]

theorem upCost_le (fs : List Bytes) (file : Nat) : upCost fs file + 1 ≤ walkFuel fs := by
  have : fs = fs.take file ++ fs.drop file := (List.take_append_drop file fs).symm
  rw [walkFuel]
  conv => rhs; rw [this]
  simp only [List.map_append, List.sum_append, upCost]; omega

theorem downCost_le (fs : List Bytes) (file : Nat) : downCost fs file + 1 ≤ walkFuel fs := by
  have : fs = fs.take file ++ fs.drop file := (List.take_append_drop file fs).symm
  rw [walkFuel]
  conv => rhs; rw [this]
  simp only [List.map_append, List.sum_append, downCost]; omega

theorem walkUp_ends {step : Bytes → Nat → Nat → Step} (c : Bytes → Nat → Nat → Nat)
    (h1 : ∀ f o t o' t', step f o t = .again o' t' → c f o' t' < c f o t)
    (h2 : ∀ f o t o' t', step f o t = .other o' t' → ∀ g, c g o' t' ≤ g.length + 2)
    {fs : List Bytes} (hfs : fs.length < 2 ^ 32) (n : Nat) :
    ∀ file o t, (∀ f, fs[file]? = some f → c f o t + 1 + upCost fs (file + 1) + 1 ≤ n) → 1 ≤ n →
      walkUp step fs n file o t ≠ .fuel := by
  induction n with
  | zero => intro _ _ _ _ h; omega
  | succ n ih =>
    intro file o t hn _
    simp only [walkUp]
    cases hf : fs[file]? with
    | none => simp
    | some f =>
      have hn' := hn f hf
      have hlt : file < fs.length := (List.getElem?_eq_some_iff.1 hf).1
      simp only
      cases hs : step f o t with
      | found a b => simp
      | unexpected => simp
      | noMore => simp
      | again a b =>
        refine ih _ _ _ ?_ (by omega)
        intro f' hf'
        rw [hf] at hf'; cases hf'
        have := h1 _ _ _ _ _ hs; omega
      | other a b =>
        rw [show (file + 1) % 2 ^ 32 = file + 1 from Nat.mod_eq_of_lt (by omega)]
        refine ih _ _ _ ?_ (by omega)
        intro g hg
        have := h2 _ _ _ _ _ hs g
        have := upCost_succ hg
        omega

theorem walkDown_ends {step : Bytes → Nat → Nat → Step} (c : Bytes → Nat → Nat → Nat)
    {fs : List Bytes} (hfs : fs.length < 2 ^ 32)
    (h1 : ∀ f, f ∈ fs → ∀ o t o' t', step f o t = .again o' t' → c f o' t' < c f o t)
    (h2 : ∀ f o t o' t', step f o t = .other o' t' → ∀ g, c g o' t' ≤ g.length + 2) (n : Nat) :
    ∀ file o t, (∀ f, fs[file]? = some f → c f o t + 1 + downCost fs file + 1 ≤ n) → 1 ≤ n →
      walkDown step fs n file o t ≠ .fuel := by
  induction n with
  | zero => intro _ _ _ _ h; omega
  | succ n ih =>
    intro file o t hn _
    simp only [walkDown]
    cases hf : fs[file]? with
    | none => simp
    | some f =>
      have hn' := hn f hf
      have hlt : file < fs.length := (List.getElem?_eq_some_iff.1 hf).1
      simp only
      cases hs : step f o t with
      | found a b => simp
      | unexpected => simp
      | noMore => simp
      | again a b =>
        refine ih _ _ _ ?_ (by omega)
        intro f' hf'
        rw [hf] at hf'; cases hf'
        have := h1 f (List.mem_of_getElem? hf) _ _ _ _ hs; omega
      | other a b =>
        refine ih _ _ _ ?_ (by omega)
        intro g hg
        have := h2 _ _ _ _ _ hs g
        cases file with
        | zero =>
          have := (List.getElem?_eq_some_iff.1 hg).1
          omega
        | succ k =>
          rw [show (k + 1 + (2 ^ 32 - 1)) % 2 ^ 32 = k by omega] at hg ⊢
          have := downCost_succ hg
          omega

theorem deletedAt_bound {f : Bytes} {o : Nat} {b : Bool} (h : deletedAt f o = some b) :
    o + 34 ≤ f.length := by
  apply Classical.byContradiction
  intro hn
  rw [deletedAt, readExact_eq_none (by decide) (by simp only [itemHdr]; omega)] at h
  cases h

theorem previousAt_bound {f : Bytes} {o p : Nat} (h : previousAt f o = some p) :
    o + 34 ≤ f.length := by
  apply Classical.byContradiction
  intro hn
  rw [previousAt, readExact_eq_none (by decide) (by simp only [itemHdr]; omega)] at h
  cases h

theorem takeItem_ne_again (f : Bytes) (t a b : Nat) : takeItem f t ≠ .again a b := by
  simp only [takeItem]; split <;> simp

theorem takeItem_ne_other (f : Bytes) (t a b : Nat) : takeItem f t ≠ .other a b := by
  simp only [takeItem]; split <;> simp

def nextCost (f : Bytes) (o t : Nat) : Nat := if t = 0 then f.length - o else f.length - t + 1

theorem nextReal_again {f : Bytes} {o t o' t' : Nat} (h : nextReal f o t = .again o' t') :
    nextCost f o' t' < nextCost f o t := by
  simp only [nextReal] at h
  split at h
  · cases h
  · rename_i target ht
    split at h
    · cases h
    · rename_i hd
      have := deletedAt_bound hd
      cases h
      by_cases h0 : t = 0
      · simp only [h0, if_true] at ht
        cases hi : idlenAt f o with
        | none => simp [hi] at ht
        | some k =>
          simp only [hi, Option.map_some, Option.some.injEq, itemHdr] at ht
          simp only [nextCost, if_true, h0]; omega
      · simp only [if_neg h0, Option.some.injEq] at ht
        subst ht
        simp only [nextCost, if_true, h0, if_false]; omega
    · exact absurd h (takeItem_ne_again _ _ _ _)

theorem nextReal_other {f : Bytes} {o t o' t' : Nat} (h : nextReal f o t = .other o' t') :
    o' = o ∧ t' = 29 := by
  simp only [nextReal] at h
  split at h
  · cases h
  · split at h
    · cases h; exact ⟨rfl, rfl⟩
    · cases h
    · exact absurd h (takeItem_ne_other _ _ _ _)

theorem firstReal_again {f : Bytes} {o t o' t' : Nat} (h : firstReal f o t = .again o' t') :
    f.length - t' < f.length - t := by
  simp only [firstReal] at h
  split at h
  · cases h
  · rename_i hd
    have := deletedAt_bound hd
    split at h
    · cases h; simp only [itemHdr]; omega
    · cases h
  · exact absurd h (takeItem_ne_again _ _ _ _)

theorem firstReal_other {f : Bytes} {o t o' t' : Nat} (h : firstReal f o t = .other o' t') :
    o' = o ∧ t' = 29 := by
  simp only [firstReal] at h
  split at h
  · cases h; exact ⟨rfl, rfl⟩
  · split at h <;> cases h
  · exact absurd h (takeItem_ne_other _ _ _ _)

/-- A walk to the next item ends, whatever the files contain and wherever it begins. -/
theorem nextHeader_ends {fs : List Bytes} (hfs : fs.length < 2 ^ 32) (file off : Nat) :
    nextHeader fs file off ≠ .fuel := by
  apply walkUp_ends nextCost (fun _ _ _ _ _ h => nextReal_again h) ?_ hfs
  · intro f hf
    have := upCost_succ hf
    have := upCost_le fs file
    simp only [nextCost, if_true]; omega
  · simp [walkFuel]
  · intro f o t o' t' h g
    obtain ⟨rfl, rfl⟩ := nextReal_other h
    simp [nextCost]; omega

/-- The walk to the first item ends, whatever the files contain. -/
theorem firstHeader_ends {fs : List Bytes} (hfs : fs.length < 2 ^ 32) : firstHeader fs ≠ .fuel := by
  apply walkUp_ends (fun f _ t => f.length - t) (fun _ _ _ _ _ h => firstReal_again h) ?_ hfs
  · intro f hf
    have := upCost_succ hf
    have := upCost_le fs 0
    omega
  · simp [walkFuel]
  · intro f o t o' t' h g
    omega

/-- The walk to the last item ends, whatever the files contain. -/
theorem lastReal_again {f : Bytes} {o t o' t' : Nat} (h : lastReal f o t = .again o' t') :
    (if t' = 1 then f.length + 1 else min t' f.length + 1) <
      (if t = 1 then f.length + 1 else min t f.length + 1) := by
  simp only [lastReal] at h
  by_cases h0 : t = 0
  · rw [if_pos h0] at h; cases h
  rw [if_neg h0] at h
  by_cases h38 : t = 1 ∧ f.length < 38
  · rw [if_pos h38] at h; cases h
  rw [if_neg h38] at h
  generalize hq : (if t = 1 then f.length - 38 else t) = q at h
  have hq' : (t = 1 ∧ q = f.length - 38) ∨ (t ≠ 1 ∧ q = t) := by
    by_cases h1 : t = 1
    · left; rw [if_pos h1] at hq; exact ⟨h1, hq.symm⟩
    · right; rw [if_neg h1] at hq; exact ⟨h1, hq.symm⟩
  cases hd : deletedAt f q with
  | none => simp [hd] at h
  | some d =>
    have hb := deletedAt_bound hd
    cases d with
    | false =>
      simp only [hd] at h
      exact absurd h (takeItem_ne_again _ _ _ _)
    | true =>
      simp only [hd] at h
      cases hp : previousAt f q with
      | none => simp [hp] at h
      | some p =>
        simp only [hp] at h
        by_cases hc : p ≥ q ∨ p = 1
        · rw [if_pos hc] at h; cases h
        · rw [if_neg hc] at h
          cases h
          rw [if_neg (show ¬ t' = 1 by omega)]
          rcases hq' with ⟨h1, h2⟩ | ⟨h1, h2⟩
          · rw [if_pos h1]; omega
          · rw [if_neg h1]; omega

theorem lastHeader_ends {s : Store} (hfs : s.ifiles.length < 2 ^ 32) : lastHeader s ≠ .fuel := by
  apply walkDown_ends (fun f _ t => if t = 1 then f.length + 1 else min t f.length + 1) hfs
    (fun _ _ _ _ _ _ h => lastReal_again h)
  · intro f o t o' t' h g
    split <;> omega
  · intro f hf
    have := downCost_succ hf
    have := downCost_le s.ifiles (s.indexid + 1)
    split <;> omega
  · simp [walkFuel]

/-- `previous` of the first item does not point into the header of the file. -/
def HeadOK (f : Bytes) : Prop := ∀ p, previousAt f 29 = some p → p = 0 ∨ 29 ≤ p

def prevRank (o : Nat) : Nat := if o = 29 then 1 else if o < 29 then o + 2 else o + 1

def prevCost (f : Bytes) (o t : Nat) : Nat :=
  if t = 0 then (if o + 34 ≤ f.length then prevRank o else 0)
  else (if t + 34 ≤ f.length then prevRank t else 0) + 1

theorem prevGo_again {f : Bytes} {t o' t' : Nat} (h : prevReal.go f t = .again o' t') :
    o' = t ∧ t' = 0 ∧ t + 34 ≤ f.length := by
  simp only [prevReal.go] at h
  split at h
  · cases h
  · rename_i hd
    cases h; exact ⟨rfl, rfl, deletedAt_bound hd⟩
  · exact absurd h (takeItem_ne_again _ _ _ _)

theorem prevReal_again {f : Bytes} (hf : HeadOK f) {o t o' t' : Nat}
    (h : prevReal f o t = .again o' t') : prevCost f o' t' < prevCost f o t := by
  simp only [prevReal] at h
  by_cases h0 : t = 0
  · rw [if_pos h0] at h
    cases hp : previousAt f o with
    | none => simp [hp] at h
    | some p =>
      have hb := previousAt_bound hp
      simp only [hp] at h
      by_cases hge : p ≥ o
      · rw [if_pos hge] at h; cases h
      rw [if_neg hge] at h
      generalize hq : (if p = 1 then ihdrLen else p) = q at h
      have hq' : (p = 1 ∧ q = 29) ∨ (p ≠ 1 ∧ q = p) := by
        by_cases h1 : p = 1
        · left; rw [if_pos h1] at hq; exact ⟨h1, hq.symm⟩
        · right; rw [if_neg h1] at hq; exact ⟨h1, hq.symm⟩
      by_cases hz : q = 0
      · rw [if_pos hz] at h; cases h
      rw [if_neg hz] at h
      obtain ⟨rfl, rfl, hl⟩ := prevGo_again h
      simp only [prevCost, if_true, h0, if_pos hl, if_pos hb]
      by_cases h29 : o = 29
      · have := hf p (h29 ▸ hp)
        omega
      · simp only [prevRank, if_neg h29]
        split
        · split <;> omega
        · split <;> split <;> omega
  · rw [if_neg h0] at h
    obtain ⟨rfl, rfl, hl⟩ := prevGo_again h
    simp only [prevCost, if_true, if_neg h0, if_pos hl]; omega

/-- A walk to the previous item ends, wherever it begins. -/
theorem prevHeader_ends {fs : List Bytes} (hfs : fs.length < 2 ^ 32) (hh : ∀ f ∈ fs, HeadOK f)
    (file off : Nat) : prevHeader fs file off ≠ .fuel := by
  apply walkDown_ends prevCost hfs (fun f hf _ _ _ _ h => prevReal_again (hh f hf) h)
  · intro f o t o' t' _ g
    simp only [prevCost, prevRank]
    split <;> split <;> (try split) <;> (try split) <;> omega
  · intro f hf
    have := downCost_succ hf
    have := downCost_le fs (file + 1)
    simp only [prevCost, prevRank, if_true]
    split <;> (try split) <;> (try split) <;> omega
  · simp [walkFuel]

end Zdb
