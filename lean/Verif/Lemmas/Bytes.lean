import Verif.Model.Bytes
namespace Zdb

@[simp] theorem toLE_length (k n : Nat) : (toLE k n).length = k := by
  induction k generalizing n with
  | zero => rfl
  | succ k ih => simp [toLE, ih]

theorem fromLE_toLE (k n : Nat) : fromLE (toLE k n) = n % 256 ^ k := by
  induction k generalizing n with
  | zero => simp [toLE, fromLE, Nat.mod_one]
  | succ k ih =>
    simp only [toLE, fromLE, ih]
    rw [Nat.pow_succ, Nat.mul_comm (256 ^ k) 256, Nat.mod_mul]
    simp

theorem fromLE_toLE_of_lt {k n : Nat} (h : n < 256 ^ k) : fromLE (toLE k n) = n := by
  rw [fromLE_toLE, Nat.mod_eq_of_lt h]

theorem fromLE_lt (b : Bytes) : fromLE b < 256 ^ b.length := by
  induction b with
  | nil => simp [fromLE]
  | cons x xs ih =>
    simp only [fromLE, List.length_cons, Nat.pow_succ]
    have := x.toNat_lt
    omega

theorem toLE_fromLE (b : Bytes) : toLE b.length (fromLE b) = b := by
  induction b with
  | nil => rfl
  | cons x xs ih =>
    simp only [List.length_cons, toLE, fromLE]
    have hx := x.toNat_lt
    rw [show (x.toNat + 256 * fromLE xs) % 256 = x.toNat by omega,
      show (x.toNat + 256 * fromLE xs) / 256 = fromLE xs by omega, ih]
    simp

theorem toLE_mod (k n : Nat) : toLE k (n % 256 ^ k) = toLE k n := by
  have h := toLE_fromLE (toLE k n)
  rw [toLE_length, fromLE_toLE] at h
  exact h

theorem toLE_inj {k n m : Nat} (hn : n < 256 ^ k) (hm : m < 256 ^ k) (h : toLE k n = toLE k m) :
    n = m := by
  have := congrArg fromLE h
  rwa [fromLE_toLE_of_lt hn, fromLE_toLE_of_lt hm] at this

/-! ### reading at a known position -/

theorem pread_append_eq (a b c : Bytes) : pread (a ++ (b ++ c)) a.length b.length = b := by
  simp [pread]

theorem pread_at {f a b c : Bytes} {off len : Nat} (hf : f = a ++ (b ++ c)) (ho : off = a.length)
    (hl : len = b.length) : pread f off len = b := by
  subst hf ho hl; exact pread_append_eq a b c

theorem readExact_at {f a b c : Bytes} {off len : Nat} (hf : f = a ++ (b ++ c))
    (ho : off = a.length) (hl : len = b.length) : readExact f off len = some b := by
  simp only [readExact, pread_at hf ho hl]
  rw [if_pos hl.symm]

theorem pread_length_le (f : Bytes) (off len : Nat) : (pread f off len).length ≤ len := by
  simp [pread]; omega

theorem pread_length (f : Bytes) (off len : Nat) :
    (pread f off len).length = min len (f.length - off) := by
  simp [pread]

theorem readExact_some {f b : Bytes} {off len : Nat} (h : readExact f off len = some b) :
    b = pread f off len ∧ b.length = len := by
  unfold readExact at h
  simp only at h
  split at h
  · next hl => simp only [Option.some.injEq] at h; subst h; exact ⟨rfl, hl⟩
  · simp at h

theorem readExact_eq_none {f : Bytes} {off len : Nat} (hl : 0 < len) (h : f.length < off + len) :
    readExact f off len = none := by
  simp only [readExact, pread_length]
  rw [if_neg]; omega

theorem readExact_isSome {f : Bytes} {off len : Nat} (h : off + len ≤ f.length) :
    readExact f off len = some (pread f off len) := by
  simp only [readExact, pread_length]
  rw [if_pos]; omega

theorem pread_append_left {f g : Bytes} {off len : Nat} (h : off + len ≤ f.length) :
    pread (f ++ g) off len = pread f off len := by
  simp only [pread]
  rw [List.drop_append_of_le_length (by omega), List.take_append_of_le_length]
  simp; omega

theorem readExact_append_left {f g : Bytes} {off len : Nat} (h : off + len ≤ f.length) :
    readExact (f ++ g) off len = readExact f off len := by
  simp only [readExact, pread_append_left h]

/-! ### in-place writes -/

theorem pwrite_at (a b b' c : Bytes) (h : b.length = b'.length) :
    pwrite (a ++ (b ++ c)) a.length b' = a ++ (b' ++ c) := by
  simp [pwrite, ← h]

theorem pwrite_at' {f a b b' c : Bytes} {off : Nat} (hf : f = a ++ (b ++ c)) (ho : off = a.length)
    (h : b.length = b'.length) : pwrite f off b' = a ++ (b' ++ c) := by
  subst hf ho; exact pwrite_at a b b' c h

theorem pwrite_length {f b : Bytes} {off : Nat} (h : off + b.length ≤ f.length) :
    (pwrite f off b).length = f.length := by
  simp [pwrite]; omega

theorem pwrite_nil (f : Bytes) (off : Nat) (h : off ≤ f.length) : pwrite f off [] = f := by
  simp [pwrite, show off - f.length = 0 by omega]

@[simp] theorem cut_none (b : Bytes) : WriteFault.cut none b = b := rfl

end Zdb
