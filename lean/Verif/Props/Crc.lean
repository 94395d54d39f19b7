/-
C25, checksum part: the implementations agree, and a checksum detects every burst of up to
32 bits.  (The part about CHECK is in Verif/Props/Check.lean.)
-/
import Verif.Lemmas.Crc
namespace Zdb

/-- Specification of the checksum: the remainder of the bit string of the data divided by the
    Castagnoli polynomial, one bit at a time, least significant bit of each byte first.
    The state is 32 bits in reflected order; 0x82F63B78 is the reflected polynomial. -/
def castagnoli (bits : List Bool) : Nat :=
  bits.foldl (fun c b =>
    let c := c ^^^ (if b then 1 else 0)
    if c % 2 = 1 then (c / 2) ^^^ 0x82F63B78 else c / 2) 0

/-- The bits of a buffer in transmission order. -/
def bufferBits (bs : Bytes) : List Bool :=
  bs.flatMap (fun b => (List.range 8).map (fun i => b.toNat.testBit i))

theorem bitsOf_eq_map (k n : Nat) : bitsOf k n = (List.range k).map (fun i => n.testBit i) := by
  induction k generalizing n with
  | zero => rfl
  | succ k ih =>
    rw [List.range_succ_eq_map]
    simp only [bitsOf, List.map_cons, List.map_map, ih]
    congr 1
    · simp [Nat.testBit_zero]; rcases Nat.mod_two_eq_zero_or_one n with h | h <;> simp [h]
    · apply List.map_congr_left
      intro i _
      simp [Nat.testBit_succ]

theorem castagnoli_eq (bits : List Bool) : castagnoli bits = crcBits 0 bits := by
  unfold castagnoli crcBits
  congr 1
  funext c b
  cases b <;> simp [crcShift]

/-- C25 (1): the portable table-driven implementation computes the Castagnoli remainder. -/
theorem C25_software_is_castagnoli (bs : Bytes) : crcSoftware bs = castagnoli (bufferBits bs) := by
  rw [castagnoli_eq]
  have h := crc32_eq_crcBits bs
  rw [crc32] at h
  rw [h, bufferBits]
  congr 2
  funext b
  exact bitsOf_eq_map 8 b.toNat

/-- C25 (2): the SSE4.2 implementation (and the ARM one, same text) computes the same value
    on every buffer, whatever its length. -/
theorem C25_sse42_eq_software (bs : Bytes) : crcSse42 bs = crcSoftware bs := crcSse42_eq bs

/-- Two bit strings of the same length differ in a burst of at most 32 bits. -/
def BurstDiff (a b : List Bool) : Prop :=
  ∃ pre x y post, a = pre ++ x ++ post ∧ b = pre ++ y ++ post ∧ x.length = y.length ∧
    x.length ≤ 32 ∧ x ≠ y

theorem xorBits_self (a : List Bool) : xorBits a a = List.replicate a.length false := by
  induction a with
  | nil => rfl
  | cons x a ih =>
    rw [List.length_cons, List.replicate_succ, ← ih]
    simp [xorBits]

theorem xorBits_ne (x y : List Bool) (hl : x.length = y.length) (h : x ≠ y) :
    ∃ b ∈ xorBits x y, b = true := by
  induction x generalizing y with
  | nil => cases y with
    | nil => exact absurd rfl h
    | cons => simp at hl
  | cons a x ih => cases y with
    | nil => simp at hl
    | cons b y =>
      by_cases hab : a = b
      · subst hab
        obtain ⟨c, hc, ht⟩ := ih y (by simpa using hl) (by intro he; exact h (by rw [he]))
        exact ⟨c, by simp only [xorBits, List.zipWith_cons_cons, List.mem_cons]; exact Or.inr hc, ht⟩
      · refine ⟨true, ?_, rfl⟩
        simp only [xorBits, List.zipWith_cons_cons, List.mem_cons]
        left; revert hab; cases a <;> cases b <;> simp

/-- C25 (3): a nonzero change confined to 32 consecutive bits changes the checksum. -/
theorem C25_burst_detected (p q : Bytes) (h : BurstDiff (bufferBits p) (bufferBits q)) :
    crc32 p ≠ crc32 q := by
  obtain ⟨pre, x, y, post, hp, hq, hxy, h32, hne⟩ := h
  intro heq
  have e1 : crc32 p = crcBits 0 (bufferBits p) := by
    rw [crc32, C25_software_is_castagnoli, castagnoli_eq]
  have e2 : crc32 q = crcBits 0 (bufferBits q) := by
    rw [crc32, C25_software_is_castagnoli, castagnoli_eq]
  have hx := crcBits_xor (bufferBits p) (bufferBits q) (by rw [hp, hq]; simp [hxy]) 0 0
  rw [← e1, ← e2, heq, Nat.xor_self, Nat.xor_self] at hx
  have hsplit : xorBits (bufferBits p) (bufferBits q) =
      List.replicate pre.length false ++ xorBits x y ++ List.replicate post.length false := by
    rw [hp, hq]
    unfold xorBits
    rw [List.zipWith_append (by simp [hxy]), List.zipWith_append rfl]
    have := xorBits_self pre; unfold xorBits at this
    have h2 := xorBits_self post; unfold xorBits at h2
    rw [this, h2]
  rw [hsplit] at hx
  exact crcBits_burst_ne_zero _ _ _ (by simp [xorBits, hxy] at *; omega) (xorBits_ne x y hxy hne) hx

/-- C25 (4): replacing any one byte by a different one changes the checksum. -/
theorem C25_single_byte_detected (a c : Bytes) (b b' : UInt8) (h : b ≠ b') :
    crc32 (a ++ b :: c) ≠ crc32 (a ++ b' :: c) := by
  apply C25_burst_detected
  refine ⟨bufferBits a, (List.range 8).map (fun i => b.toNat.testBit i),
    (List.range 8).map (fun i => b'.toNat.testBit i), bufferBits c, ?_, ?_, ?_, ?_, ?_⟩
  · simp [bufferBits]
  · simp [bufferBits]
  · simp
  · simp
  · intro he
    apply h
    apply UInt8.toNat_inj.1
    apply Nat.eq_of_testBit_eq
    intro i
    by_cases hi : i < 8
    · exact (List.map_inj_left.1 he) i (List.mem_range.2 hi)
    · rw [Nat.testBit_lt_two_pow, Nat.testBit_lt_two_pow]
      · exact Nat.lt_of_lt_of_le b'.toNat_lt (Nat.pow_le_pow_right (by decide) (by omega))
      · exact Nat.lt_of_lt_of_le b.toNat_lt (Nat.pow_le_pow_right (by decide) (by omega))

/-- "123456789": reflected crc32c with zero initial value and no final xor; a 13-byte buffer
    exercises the word loop and the byte loop of the SSE version. -/
example : crcSoftware [0x31, 0x32, 0x33, 0x34, 0x35, 0x36, 0x37, 0x38, 0x39] = 0x58e3fa20 ∧
    crcSse42 [1, 2, 3, 4, 5, 6, 7, 8, 9, 10, 11, 12, 13] =
      crcSoftware [1, 2, 3, 4, 5, 6, 7, 8, 9, 10, 11, 12, 13] := by decide +kernel

end Zdb
