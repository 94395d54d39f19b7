/-
Facts about the receive buffer and about numbers in decimal.
-/
import Verif.Spec.Resp
namespace Zdb.Resp

/-- The buffer is consistent. -/
structure Buffer.Ok (b : Buffer) : Prop where
  len : b.mem.length = bufSize
  rw : b.reader ≤ b.writer
  wb : b.writer ≤ bufSize
  rem : b.remain = bufSize - b.writer

theorem Buffer.Ok.unread_length {b : Buffer} (h : b.Ok) : b.unread.length = b.writer - b.reader := by
  have h1 := h.len; have h2 := h.wb
  unfold Buffer.unread; rw [List.length_take, List.length_drop]; omega

theorem Buffer.Ok.mem_drop {b : Buffer} (h : b.Ok) : b.mem.drop b.reader = b.unread ++ b.mem.drop b.writer := by
  have h1 := h.rw
  unfold Buffer.unread
  have : b.mem.drop b.writer = (b.mem.drop b.reader).drop (b.writer - b.reader) := by
    rw [List.drop_drop]; congr 1; omega
  rw [this, List.take_append_drop]

theorem Buffer.Ok.advance {b : Buffer} (h : b.Ok) {k : Nat} (hk : k ≤ b.unread.length) :
    ({ b with reader := b.reader + k } : Buffer).Ok ∧ ({ b with reader := b.reader + k } : Buffer).unread = b.unread.drop k := by
  have h1 := h.unread_length
  have h2 := h.rw
  refine ⟨⟨h.len, by simp only; omega, h.wb, h.rem⟩, ?_⟩
  unfold Buffer.unread
  simp only
  rw [List.drop_take, List.drop_drop]
  congr 1
  omega

theorem Buffer.Ok.clear {b : Buffer} (h : b.Ok) : b.clear.Ok ∧ b.clear.unread = [] := by
  refine ⟨⟨h.len, Nat.le_refl _, Nat.zero_le _, ?_⟩, ?_⟩
  · simp [Buffer.clear]
  · simp [Buffer.clear, Buffer.unread]

theorem Buffer.Ok.shift {b : Buffer} (h : b.Ok) : b.shift.Ok ∧ b.shift.unread = b.unread := by
  unfold Buffer.shift
  split
  · exact ⟨h, rfl⟩
  · have h1 := h.unread_length
    have h2 := h.wb
    have h3 := h.len
    have hu : b.unread.length ≤ bufSize := by omega
    refine ⟨⟨?_, Nat.zero_le _, hu, rfl⟩, ?_⟩
    · simp only [List.length_append, List.length_drop]; omega
    · rw [Buffer.unread]
      simp

theorem Buffer.Ok.write {b : Buffer} (h : b.Ok) {d : Bytes} (hd : d.length ≤ b.remain) :
    (b.write d).Ok ∧ (b.write d).unread = b.unread ++ d := by
  have h1 := h.len; have h2 := h.wb; have h3 := h.rem; have h4 := h.rw
  refine ⟨⟨?_, ?_, ?_, ?_⟩, ?_⟩
  · simp only [Buffer.write, List.length_append, List.length_take, List.length_drop]; omega
  · simp only [Buffer.write]; omega
  · simp only [Buffer.write]; omega
  · simp only [Buffer.write]; omega
  · unfold Buffer.unread
    simp only [Buffer.write]
    rw [List.append_assoc, List.drop_append_of_le_length (by rw [List.length_take]; omega), List.drop_take, ← List.append_assoc,
      List.take_append_of_le_length (by rw [List.length_append, List.length_take, List.length_drop]; omega)]
    apply List.take_of_length_le
    rw [List.length_append, List.length_take, List.length_drop]; omega

theorem Buffer.Ok.get {b : Buffer} (h : b.Ok) {x : UInt8} {s : Bytes} (hu : b.unread = x :: s) : b.mem[b.reader]? = some x := by
  have := h.mem_drop
  rw [hu] at this
  have h2 : (b.mem.drop b.reader)[0]? = some x := by rw [this]; rfl
  simpa using h2

theorem Buffer.Ok.after {b : Buffer} (h : b.Ok) {x : UInt8} {s : Bytes} (hu : b.unread = x :: s) :
    b.mem.drop (b.reader + 1) = s ++ b.mem.drop b.writer := by
  have := h.mem_drop
  rw [hu] at this
  rw [← List.drop_drop, this]; rfl

/-! ## Lines -/

theorem find_newline {u f l x : Bytes} (h : u ++ f = l ++ 10 :: x) (hl : (10 : UInt8) ∉ l) :
    (u.findIdx? (· == 10) = none ∧ 10 ∉ u ∧ u.length ≤ l.length) ∨
      (u.findIdx? (· == 10) = some l.length ∧ ∃ u', u = l ++ 10 :: u' ∧ u' ++ f = x) := by
  induction l generalizing u with
  | nil =>
    cases u with
    | nil => left; simp
    | cons a u =>
      simp only [List.nil_append, List.cons_append, List.cons.injEq] at h
      right
      refine ⟨?_, u, ?_, h.2⟩
      · simp [List.findIdx?_cons, h.1]
      · simp [h.1]
  | cons b l ih =>
    cases u with
    | nil => left; simp
    | cons a u =>
      simp only [List.cons_append, List.cons.injEq] at h
      obtain ⟨h1, h2⟩ := h
      subst h1
      have ha : ¬ a = 10 := fun h => hl (h ▸ List.mem_cons_self)
      have hb : (a == 10) = false := by simpa using ha
      have hl' : (10 : UInt8) ∉ l := fun h => hl (List.mem_cons_of_mem _ h)
      rcases ih h2 hl' with ⟨h3, h4, h5⟩ | ⟨h3, u', h4, h5⟩
      · left
        refine ⟨?_, ?_, ?_⟩
        · simp [List.findIdx?_cons, hb, h3]
        · simp only [List.mem_cons, not_or]; exact ⟨fun h => ha h.symm, h4⟩
        · simp only [List.length_cons]; omega
      · right
        refine ⟨?_, u', by rw [h4]; rfl, h5⟩
        simp [List.findIdx?_cons, hb, h3]

/-- A line found is what is before the first newline. -/
theorem findIdx_line {u : Bytes} {i : Nat} (h : u.findIdx? (· == 10) = some i) :
    ∃ l r, u = l ++ 10 :: r ∧ l.length = i ∧ 10 ∉ l := by
  induction u generalizing i with
  | nil => simp at h
  | cons a u ih =>
    rw [List.findIdx?_cons] at h
    by_cases ha : a = 10
    · subst ha
      simp at h
      exact ⟨[], u, rfl, by simpa using h, by simp⟩
    · have hb : (a == 10) = false := by simpa using ha
      rw [hb] at h
      simp only [Bool.false_eq_true, if_false, Option.map_eq_some_iff] at h
      obtain ⟨j, h1, h2⟩ := h
      obtain ⟨l, r, h3, h4, h5⟩ := ih h1
      refine ⟨a :: l, r, by rw [h3]; rfl, by simp only [List.length_cons]; omega, ?_⟩
      simp only [List.mem_cons, not_or]
      exact ⟨fun h => ha h.symm, h5⟩

/-! ## Numbers -/

theorem digits_range (n : Nat) : ∀ b ∈ digits n, 48 ≤ b ∧ b ≤ 57 := by
  induction n using Nat.strongRecOn with
  | ind n ih =>
    intro b hb
    have key : ∀ k, k < 10 → (48 : UInt8) ≤ UInt8.ofNat (48 + k) ∧ UInt8.ofNat (48 + k) ≤ 57 := by decide
    rw [digits] at hb
    split at hb
    · rw [List.mem_singleton] at hb; subst hb; exact key _ (by assumption)
    · rw [List.mem_append, List.mem_singleton] at hb
      rcases hb with hb | hb
      · exact ih _ (by omega) b hb
      · subst hb; exact key _ (by omega)

theorem digits_ne_nil (n : Nat) : digits n ≠ [] := by
  rw [digits]; split <;> simp

theorem digits_no_newline (n : Nat) : (10 : UInt8) ∉ digits n := by
  intro h
  exact absurd (digits_range n _ h).1 (by decide)

theorem digits_length {k n : Nat} (hk : 0 < k) (h : n < 10 ^ k) : (digits n).length ≤ k := by
  induction k generalizing n with
  | zero => omega
  | succ k ih =>
    rw [digits]
    split
    · simp
    · rename_i h1
      rw [List.length_append]
      by_cases hk0 : k = 0
      · subst hk0; simp at h; omega
      · have : n / 10 < 10 ^ k := by rw [Nat.pow_succ] at h; omega
        have := ih (by omega) this
        simp only [List.length_singleton]; omega

theorem skipDigits_append {l : Bytes} (h : ∀ b ∈ l, 48 ≤ b ∧ b ≤ 57) (s : Bytes) : skipDigits (l ++ s) = skipDigits s := by
  induction l with
  | nil => rfl
  | cons a l ih =>
    rw [List.cons_append, skipDigits, if_pos (h a List.mem_cons_self)]
    exact ih fun b hb => h b (List.mem_cons_of_mem _ hb)

theorem atollDigits_append {l : Bytes} (h : ∀ b ∈ l, 48 ≤ b ∧ b ≤ 57) (acc : Nat) (s : Bytes) :
    atollDigits acc (l ++ s) = atollDigits (atollDigits acc l) s := by
  induction l generalizing acc with
  | nil => rfl
  | cons a l ih =>
    have ha := h a List.mem_cons_self
    simp only [List.cons_append, atollDigits, if_pos ha]
    exact ih (fun b hb => h b (List.mem_cons_of_mem _ hb)) _

theorem atollDigits_digits (n : Nat) : atollDigits 0 (digits n) = n := by
  induction n using Nat.strongRecOn with
  | ind n ih =>
    have key : ∀ k, k < 10 → (48 : UInt8) ≤ UInt8.ofNat (48 + k) ∧ UInt8.ofNat (48 + k) ≤ 57 ∧
      (UInt8.ofNat (48 + k)).toNat = 48 + k := by decide
    rw [digits]
    split
    · rename_i h
      have hk := key n h
      simp only [atollDigits, if_pos (⟨hk.1, hk.2.1⟩ : _ ∧ _), hk.2.2]; omega
    · have hk := key (n % 10) (by omega)
      rw [atollDigits_append (digits_range _), ih _ (by omega)]
      simp only [atollDigits, if_pos (⟨hk.1, hk.2.1⟩ : _ ∧ _), hk.2.2]; omega

theorem digits_head (n : Nat) : ∃ d ds, digits n = d :: ds ∧ 48 ≤ d ∧ d ≤ 57 := by
  cases h : digits n with
  | nil => exact absurd h (digits_ne_nil n)
  | cons d ds => exact ⟨d, ds, rfl, digits_range n d (by rw [h]; exact List.mem_cons_self)⟩

theorem atoi_digits {n : Nat} (hn : n < 2 ^ 31) (s : Bytes) : atoi (digits n ++ 13 :: s) = some (n : Int) := by
  obtain ⟨d, ds, h1, h2, h3⟩ := digits_head n
  have hall := digits_range n
  have hsk : atollSkip (digits n ++ 13 :: s) = digits n ++ 13 :: s := by
    rw [h1, List.cons_append, atollSkip, if_neg]
    rintro (h | h)
    · subst h; exact absurd h2 (by decide)
    · exact absurd (UInt8.le_trans h2 h.2) (by decide)
  have h45 : d ≠ 45 := fun h => by subst h; exact absurd h2 (by decide)
  have h43 : d ≠ 43 := fun h => by subst h; exact absurd h2 (by decide)
  have hsg : skipSign (digits n ++ 13 :: s) = digits n ++ 13 :: s := by
    rw [h1, List.cons_append]
    unfold skipSign
    split
    · rename_i h; injection h with h _; exact absurd h h45
    · rename_i h; injection h with h _; exact absurd h h43
    · rfl
  have hd : atollDigits 0 (digits n ++ 13 :: s) = n := by
    rw [atollDigits_append hall, atollDigits_digits]
    rw [atollDigits, if_neg (by decide)]
  have hat : atoll (digits n ++ 13 :: s) = (n : Int) := by
    unfold atoll
    rw [hsk]
    have : (min n (2 ^ 63 - 1) : Nat) = n := by omega
    split
    · rename_i h; rw [h1] at h; injection h with h _; exact absurd h h45
    · rename_i h; rw [h1] at h; injection h with h _; exact absurd h h43
    · rw [hd, this]
  unfold atoi
  rw [hsk, hsg, skipDigits_append hall, hat]
  have : skipDigits (13 :: s) = 13 :: s := by rw [skipDigits, if_neg (by decide)]
  have hm : ((n : Int) + 2 ^ 31) % 2 ^ 32 - 2 ^ 31 = (n : Int) := by omega
  rw [this, if_neg (by simp), hm]

end Zdb.Resp
