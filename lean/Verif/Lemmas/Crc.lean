import Verif.Model.Crc
import Verif.Lemmas.Bytes
namespace Zdb

theorem crcTable_length : crcTable.length = 256 := by decide +kernel

def iter (f : Nat → Nat) : Nat → Nat → Nat
  | 0, c => c
  | k + 1, c => iter f k (f c)

theorem iter_add (f : Nat → Nat) (a b c : Nat) : iter f (a + b) c = iter f b (iter f a c) := by
  induction a generalizing c with
  | zero => simp [iter]
  | succ a ih => rw [Nat.succ_add]; simp [iter, ih]

/-- The literal table is the bitwise division of each byte. -/
theorem crcTable_spec : ∀ i < 256, crcTable.getD i 0 = iter crcShift 8 i := by
  decide +kernel

theorem xor_mod_two (a b : Nat) : (a ^^^ b) % 2 = (a % 2 + b % 2) % 2 := by
  have h := Nat.testBit_xor a b 0
  simp only [Nat.testBit_zero] at h
  rcases Nat.mod_two_eq_zero_or_one a with ha | ha <;>
    rcases Nat.mod_two_eq_zero_or_one b with hb | hb <;>
    rcases Nat.mod_two_eq_zero_or_one (a ^^^ b) with hc | hc <;> simp [ha, hb, hc] at h ⊢

theorem xor_div_two (a b : Nat) : (a ^^^ b) / 2 = (a / 2) ^^^ (b / 2) := by
  have := Nat.shiftRight_xor_distrib (a := a) (b := b) (i := 1)
  simpa [Nat.shiftRight_eq_div_pow] using this

theorem crcShift_xor (a b : Nat) : crcShift (a ^^^ b) = crcShift a ^^^ crcShift b := by
  unfold crcShift
  rw [xor_mod_two, xor_div_two]
  rcases Nat.mod_two_eq_zero_or_one a with ha | ha <;>
    rcases Nat.mod_two_eq_zero_or_one b with hb | hb <;> simp [ha, hb]
  · ac_rfl
  · ac_rfl
  · have : ∀ x y p : Nat, x ^^^ y = x ^^^ p ^^^ (y ^^^ p) := by
      intro x y p
      rw [show x ^^^ p ^^^ (y ^^^ p) = x ^^^ y ^^^ (p ^^^ p) by ac_rfl]; simp
    exact this _ _ _

theorem iter_crcShift_xor (k a b : Nat) :
    iter crcShift k (a ^^^ b) = iter crcShift k a ^^^ iter crcShift k b := by
  induction k generalizing a b with
  | zero => rfl
  | succ k ih => simp only [iter, crcShift_xor, ih]

@[simp] theorem crcShift_zero : crcShift 0 = 0 := by decide

@[simp] theorem iter_crcShift_zero (k : Nat) : iter crcShift k 0 = 0 := by
  induction k with
  | zero => rfl
  | succ k ih => simp [iter, ih]

theorem crcShift_lt {c : Nat} (h : c < 2 ^ 32) : crcShift c < 2 ^ 32 := by
  unfold crcShift
  split
  · exact Nat.xor_lt_two_pow (by omega) (by decide)
  · omega

theorem iter_crcShift_lt {k c : Nat} (h : c < 2 ^ 32) : iter crcShift k c < 2 ^ 32 := by
  induction k generalizing c with
  | zero => exact h
  | succ k ih => exact ih (crcShift_lt h)

/-- Shifting a number whose `k` low bits are zero is a plain shift. -/
theorem iter_crcShift_low_zero (k x : Nat) : iter crcShift k (x * 2 ^ k) = x := by
  induction k generalizing x with
  | zero => simp [iter]
  | succ k ih =>
    simp only [iter]
    rw [show x * 2 ^ (k + 1) = (x * 2 ^ k) * 2 by rw [Nat.pow_succ]; ac_rfl]
    unfold crcShift
    rw [if_neg (by omega), Nat.mul_div_cancel _ (by decide)]
    exact ih x

/-- A number is its low `k` bits xor its high part. -/
theorem xor_split (c k : Nat) : c = (c % 2 ^ k) ^^^ ((c / 2 ^ k) * 2 ^ k) := by
  apply Nat.eq_of_testBit_eq
  intro i
  rw [Nat.testBit_xor, Nat.testBit_mod_two_pow, Nat.testBit_mul_two_pow, Nat.testBit_div_two_pow]
  by_cases h : i < k
  · simp [h, show ¬ k ≤ i by omega]
  · simp [h, show k ≤ i by omega]

theorem crcStep_eq (c : Nat) (b : UInt8) : crcStep c b = iter crcShift 8 (c ^^^ b.toNat) := by
  unfold crcStep
  have hb : b.toNat < 256 := b.toNat_lt
  have h1 : (c ^^^ b.toNat) &&& 0xFF = (c ^^^ b.toNat) % 2 ^ 8 :=
    Nat.and_two_pow_sub_one_eq_mod _ 8
  rw [h1, crcTable_spec _ (by have := Nat.mod_lt (c ^^^ b.toNat) (show 2 ^ 8 > 0 by decide); omega)]
  conv => rhs; rw [xor_split (c ^^^ b.toNat) 8, iter_crcShift_xor, iter_crcShift_low_zero]
  congr 1
  rw [← Nat.shiftRight_eq_div_pow, Nat.shiftRight_xor_distrib, Nat.shiftRight_eq_div_pow b.toNat,
    Nat.div_eq_of_lt (by omega)]
  simp

theorem crcStep_lt {c : Nat} (b : UInt8) (h : c < 2 ^ 32) : crcStep c b < 2 ^ 32 := by
  rw [crcStep_eq]
  apply iter_crcShift_lt
  exact Nat.xor_lt_two_pow h (by have := b.toNat_lt; omega)

theorem crcFold_lt (bs : Bytes) {c : Nat} (h : c < 2 ^ 32) : bs.foldl crcStep c < 2 ^ 32 := by
  induction bs generalizing c with
  | nil => exact h
  | cons b bs ih => exact ih (crcStep_lt b h)

theorem crc32_lt (bs : Bytes) : crc32 bs < 2 ^ 32 := crcFold_lt bs (by decide)

/-! ### bit-serial form -/

theorem crcBits_append (c : Nat) (a b : List Bool) : crcBits c (a ++ b) = crcBits (crcBits c a) b :=
  List.foldl_append

/-- `k` bits at a time = bit by bit. -/
theorem crcBits_bitsOf (k c n : Nat) :
    crcBits c (bitsOf k n) = iter crcShift k (c ^^^ (n % 2 ^ k)) := by
  induction k generalizing c n with
  | zero => simp [bitsOf, crcBits, iter, Nat.mod_one]
  | succ k ih =>
    have hcons : crcBits c (bitsOf (k + 1) n) =
        crcBits (crcShift (c ^^^ (n % 2 == 1).toNat)) (bitsOf k (n / 2)) := rfl
    rw [hcons, ih]
    simp only [iter]
    have hb : (n % 2 == 1).toNat = n % 2 := by
      rcases Nat.mod_two_eq_zero_or_one n with h | h <;> simp [h]
    rw [hb]
    have hsplit : n % 2 ^ (k + 1) = (n % 2) ^^^ ((n / 2 % 2 ^ k) * 2) := by
      have h1 := xor_split (n % 2 ^ (k + 1)) 1
      rw [Nat.pow_one] at h1
      rw [show n % 2 ^ (k + 1) % 2 = n % 2 by
            rw [Nat.pow_succ, Nat.mul_comm, Nat.mod_mul_right_mod],
          show n % 2 ^ (k + 1) / 2 = n / 2 % 2 ^ k by
            rw [Nat.pow_succ, Nat.mul_comm, Nat.mod_mul_right_div_self]] at h1
      exact h1
    rw [hsplit, show c ^^^ (n % 2 ^^^ n / 2 % 2 ^ k * 2) = (c ^^^ n % 2) ^^^ (n / 2 % 2 ^ k * 2) by
      ac_rfl, crcShift_xor (c ^^^ n % 2)]
    congr 2
    have := iter_crcShift_low_zero 1 (n / 2 % 2 ^ k)
    simpa [iter] using this.symm

theorem mmCrc32u8_eq (c : Nat) (b : UInt8) : mmCrc32u8 c b = crcStep c b := by
  rw [crcStep_eq, mmCrc32u8, crcBits_bitsOf, Nat.mod_eq_of_lt b.toNat_lt]

/-- bits of a little-endian word = bits of its bytes in order. -/
theorem bitsOf_fromLE (bs : Bytes) :
    bitsOf (8 * bs.length) (fromLE bs) = bs.flatMap (fun b => bitsOf 8 b.toNat) := by
  induction bs with
  | nil => rfl
  | cons b bs ih =>
    have key : ∀ k n m, n < 2 ^ k → bitsOf (k + m) (n + 2 ^ k * (fromLE bs)) =
        bitsOf k n ++ bitsOf m (fromLE bs) := by
      intro k
      induction k with
      | zero => intro n m h; simp at h; subst h; simp [bitsOf]
      | succ k ihk =>
        intro n m h
        rw [show k + 1 + m = (k + m) + 1 by omega]
        simp only [bitsOf, List.cons_append]
        have e : 2 ^ (k + 1) * fromLE bs = 2 * (2 ^ k * fromLE bs) := by
          rw [Nat.pow_succ]; ac_rfl
        rw [e]
        congr 1
        · congr 1; omega
        · rw [show (n + 2 * (2 ^ k * fromLE bs)) / 2 = n / 2 + 2 ^ k * fromLE bs by omega]
          exact ihk _ _ (by omega)
    simp only [List.length_cons, List.flatMap_cons, fromLE]
    rw [show 8 * (bs.length + 1) = 8 + 8 * bs.length by omega,
      show (256 : Nat) = 2 ^ 8 by decide, key 8 _ _ b.toNat_lt, ih]

theorem crcBits_bytes (c : Nat) (bs : Bytes) :
    crcBits c (bs.flatMap (fun b => bitsOf 8 b.toNat)) = bs.foldl crcStep c := by
  induction bs generalizing c with
  | nil => rfl
  | cons b bs ih =>
    rw [List.flatMap_cons, crcBits_append, ih]
    show _ = bs.foldl crcStep (crcStep c b)
    rw [← mmCrc32u8_eq]; rfl

theorem mmCrc32u64_eq (c : Nat) (bs : Bytes) (h : bs.length = 8) :
    mmCrc32u64 c (fromLE bs) = bs.foldl crcStep c := by
  rw [← crcBits_bytes, ← bitsOf_fromLE, h]; rfl

theorem sse42Words_spec (fuel h : Nat) (bs : Bytes) :
    (sse42Words fuel h bs).2.foldl crcStep (sse42Words fuel h bs).1 = bs.foldl crcStep h := by
  induction fuel generalizing h bs with
  | zero => rfl
  | succ fuel ih =>
    simp only [sse42Words]
    split
    · next hl =>
      rw [ih, mmCrc32u64_eq _ _ (by simp; omega), ← List.foldl_append, List.take_append_drop]
    · rfl

theorem crcSse42_eq (bs : Bytes) : crcSse42 bs = crcSoftware bs := by
  have hm : mmCrc32u8 = crcStep := by funext c b; exact mmCrc32u8_eq c b
  unfold crcSse42 crcSoftware
  rw [hm]
  by_cases h : bs.length ≥ 8
  · simp only [h, if_true]; exact sse42Words_spec _ _ _
  · simp only [h, if_false]

/-! ### error detection -/

theorem crcShift_eq_zero {c : Nat} (h : c < 2 ^ 32) (h0 : crcShift c = 0) : c = 0 := by
  unfold crcShift at h0
  split at h0
  · next hodd =>
    exfalso
    have hb := congrArg (fun n => Nat.testBit n 31) h0
    simp only [Nat.testBit_xor] at hb
    have h1 : (c / 2).testBit 31 = false := Nat.testBit_lt_two_pow (by omega)
    rw [h1] at hb
    exact absurd hb (by decide)
  · omega

theorem iter_crcShift_eq_zero {k c : Nat} (h : c < 2 ^ 32) (h0 : iter crcShift k c = 0) : c = 0 := by
  induction k generalizing c with
  | zero => exact h0
  | succ k ih => exact crcShift_eq_zero h (ih (crcShift_lt h) h0)

/-- Pointwise xor of two bit strings. -/
def xorBits (a b : List Bool) : List Bool := List.zipWith xor a b

theorem crcBits_xor (a b : List Bool) (h : a.length = b.length) (c d : Nat) :
    crcBits (c ^^^ d) (xorBits a b) = crcBits c a ^^^ crcBits d b := by
  induction a generalizing b c d with
  | nil => cases b with
    | nil => rfl
    | cons => simp at h
  | cons x a ih => cases b with
    | nil => simp at h
    | cons y b =>
      simp only [List.length_cons, Nat.add_right_cancel_iff] at h
      show crcBits (crcShift ((c ^^^ d) ^^^ (xor x y).toNat)) (xorBits a b) =
        crcBits (crcShift (c ^^^ x.toNat)) a ^^^ crcBits (crcShift (d ^^^ y.toNat)) b
      rw [← ih b h, ← crcShift_xor]
      congr 2
      have : (xor x y).toNat = x.toNat ^^^ y.toNat := by cases x <;> cases y <;> rfl
      rw [this]; ac_rfl

theorem crcBits_zeros (c k : Nat) : crcBits c (List.replicate k false) = iter crcShift k c := by
  induction k generalizing c with
  | zero => rfl
  | succ k ih =>
    rw [List.replicate_succ]
    show crcBits (crcShift (c ^^^ 0)) _ = _
    rw [ih]; simp [iter]

/-- number with the given bits -/
def ofBits : List Bool → Nat
  | [] => 0
  | b :: bs => b.toNat + 2 * ofBits bs

theorem bitsOf_ofBits (bs : List Bool) : bitsOf bs.length (ofBits bs) = bs := by
  induction bs with
  | nil => rfl
  | cons b bs ih =>
    simp only [List.length_cons, bitsOf, ofBits]
    have h2 : (b.toNat + 2 * ofBits bs) / 2 = ofBits bs := by cases b <;> simp <;> omega
    rw [h2, ih]
    cases b <;> simp

theorem ofBits_lt (bs : List Bool) : ofBits bs < 2 ^ bs.length := by
  induction bs with
  | nil => simp [ofBits]
  | cons b bs ih =>
    simp only [ofBits, List.length_cons, Nat.pow_succ]
    cases b <;> simp <;> omega

/-- A nonzero pattern of at most 32 bits surrounded by zeros has a nonzero crc. -/
theorem crcBits_burst_ne_zero (pre post : Nat) (burst : List Bool) (hl : burst.length ≤ 32)
    (hne : ∃ b ∈ burst, b = true) :
    crcBits 0 (List.replicate pre false ++ burst ++ List.replicate post false) ≠ 0 := by
  rw [crcBits_append, crcBits_append, crcBits_zeros 0, iter_crcShift_zero, crcBits_zeros]
  have hb := crcBits_bitsOf burst.length 0 (ofBits burst)
  rw [bitsOf_ofBits, Nat.mod_eq_of_lt (ofBits_lt burst)] at hb
  rw [hb]
  simp only [Nat.zero_xor]
  intro h0
  have hlt : ofBits burst < 2 ^ 32 :=
    Nat.lt_of_lt_of_le (ofBits_lt burst) (Nat.pow_le_pow_right (by decide) hl)
  have h1 := iter_crcShift_eq_zero hlt (iter_crcShift_eq_zero (iter_crcShift_lt hlt) h0)
  have h2 := bitsOf_ofBits burst
  rw [h1] at h2
  have hz : ∀ k, ∀ b ∈ bitsOf k 0, b = false := by
    intro k; induction k with
    | zero => intro b hb; simp [bitsOf] at hb
    | succ k ih => intro b hb; simp [bitsOf] at hb; rcases hb with h | h
                   · exact h
                   · exact ih b h
  obtain ⟨b, hb, hbt⟩ := hne
  rw [← h2] at hb
  have := hz _ b hb
  simp [this] at hbt

theorem crc32_eq_crcBits (bs : Bytes) : crc32 bs = crcBits 0 (bs.flatMap (fun b => bitsOf 8 b.toNat)) :=
  (crcBits_bytes 0 bs).symm

end Zdb
