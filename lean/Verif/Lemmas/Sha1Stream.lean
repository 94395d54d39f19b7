/-
The calls of `SHA1Update` and `SHA1Final` against the hash of the whole message.
-/
import Verif.Lemmas.Sha1
namespace Zdb.Sha1
open Fips

theorem hashBlocks_small (h : H) {m : Bytes} (hm : m.length < 64) : hashBlocks h m = h := by
  rw [hashBlocks, if_neg (by omega)]

theorem hashBlocks_block (h : H) {b : Bytes} (hb : b.length = 64) (m : Bytes) :
    hashBlocks h (b ++ m) = hashBlocks (compress h b) m := by
  rw [hashBlocks, if_pos (by simp; omega), List.take_left' hb, List.drop_left' hb]

theorem hashBlocks_append (n : Nat) : ∀ (h : H) (a : Bytes), a.length = 64 * n → ∀ b, hashBlocks h (a ++ b) =
    hashBlocks (hashBlocks h a) b := by
  induction n with
  | zero =>
    intro h a ha b
    rw [List.length_eq_zero_iff.1 (by omega : a.length = 0), hashBlocks_small h (m := []) (by simp)]
    rfl
  | succ n ih =>
    intro h a ha b
    have h1 : a.take 64 ++ a.drop 64 = a := List.take_append_drop 64 a
    have h2 : (a.take 64).length = 64 := by simp; omega
    rw [← h1, List.append_assoc, hashBlocks_block _ h2, hashBlocks_block _ h2, ih _ _ (by simp; omega)]

theorem absorb_eq (n : Nat) : ∀ (st : Regs) (d : Bytes), d.length ≤ n →
    value (absorb st d).1 = hashBlocks (value st) d ∧ (absorb st d).2 = d.drop (d.length - d.length % 64) := by
  induction n using Nat.strongRecOn with
  | ind n ih =>
    intro st d hd
    rw [absorb, hashBlocks]
    by_cases h : 64 ≤ d.length
    · rw [if_pos h, if_pos h]
      obtain ⟨h1, h2⟩ := ih (n - 64) (by omega) (transform st (d.take 64)) (d.drop 64) (by simp; omega)
      refine ⟨by rw [h1, transform_eq], ?_⟩
      rw [h2, List.drop_drop]
      congr 1
      simp only [List.length_drop]
      omega
    · rw [if_neg h, if_neg h]
      refine ⟨rfl, ?_⟩
      rw [Nat.mod_eq_of_lt (by omega : d.length < 64), Nat.sub_self]
      rfl

/-- The context after the bytes `m`. -/
structure SRep (x : Ctx) (m : Bytes) : Prop where
  buf : x.buffer.length = 64
  st : value x.state = hashBlocks H0 m
  tail : x.buffer.take (m.length % 64) = m.drop (m.length - m.length % 64)
  c0 : x.count0 = 8 * m.length % 2 ^ 32
  c1 : x.count1 = 8 * m.length / 2 ^ 32 % 2 ^ 32

theorem init_rep {junk : Bytes} (h : junk.length = 64) : SRep (init junk) [] :=
  ⟨h, by rw [hashBlocks_small H0 (by simp)]; rfl, by simp, rfl, rfl⟩

theorem memcpy_take {dst src : Bytes} {off : Nat} (h : off ≤ dst.length) :
    (memcpy dst off src).take (off + src.length) = dst.take off ++ src := by
  unfold memcpy
  exact List.take_left' (by simp; omega)

theorem memcpy_length {dst src : Bytes} {off : Nat} (h : off + src.length ≤ dst.length) :
    (memcpy dst off src).length = dst.length := by
  unfold memcpy
  simp; omega

theorem drop_tail (x r : Bytes) : (x ++ r).drop ((x ++ r).length - r.length) = r :=
  List.drop_left' (by rw [List.length_append]; omega)

theorem SRep.update {x : Ctx} {m : Bytes} (h : SRep x m) (data : Bytes) : SRep (update x data) (m ++ data) := by
  obtain ⟨hb, hs, ht, h0, h1⟩ := h
  have hj : (x.count0 >>> 3) &&& 63 = m.length % 64 := by
    have : (x.count0 >>> 3) &&& 63 = (x.count0 >>> 3) % 64 := Nat.and_two_pow_sub_one_eq_mod _ 6
    rw [this, Nat.shiftRight_eq_div_pow, h0]; omega
  have hc0 : (x.count0 + (data.length <<< 3) % 2 ^ 32) % 2 ^ 32 = 8 * (m ++ data).length % 2 ^ 32 := by
    rw [h0, Nat.shiftLeft_eq, List.length_append]; omega
  have hc1 : (x.count1 + (if (x.count0 + (data.length <<< 3) % 2 ^ 32) % 2 ^ 32 < x.count0 then 1 else 0) + (data.length >>> 29)) % 2 ^ 32 =
      8 * (m ++ data).length / 2 ^ 32 % 2 ^ 32 := by
    rw [h0, h1, Nat.shiftLeft_eq, Nat.shiftRight_eq_div_pow, List.length_append]
    split <;> omega
  rw [hc0] at hc1
  -- the whole blocks of `m` and the rest
  obtain ⟨a, t, rfl, ha, htl⟩ : ∃ a t, m = a ++ t ∧ a.length = 64 * (m.length / 64) ∧ t.length = m.length % 64 :=
    ⟨m.take (64 * (m.length / 64)), m.drop (64 * (m.length / 64)), by simp, by simp; omega, by simp; omega⟩
  have htl64 : t.length < 64 := by rw [htl]; exact Nat.mod_lt _ (by decide)
  have hat : (a ++ t).length - (a ++ t).length % 64 = a.length := by rw [ha]; omega
  rw [hat, ← htl, List.drop_left' rfl] at ht
  have hs' : value x.state = hashBlocks H0 a := by
    rw [hs, hashBlocks_append _ _ _ ha, hashBlocks_small _ htl64]
  unfold Sha1.update
  simp only [hj, hc0]
  rw [← htl]
  have hm : (a ++ t ++ data).length % 64 = (t.length + data.length) % 64 := by
    simp only [List.length_append] at ha ⊢; omega
  by_cases hbig : t.length + data.length > 63
  · rw [if_pos hbig]
    have hbuf : memcpy x.buffer t.length (data.take (64 - t.length)) = t ++ data.take (64 - t.length) := by
      unfold memcpy
      rw [ht, List.drop_eq_nil_of_le (by simp; omega), List.append_nil]
    rw [hbuf]
    have hbl : (t ++ data.take (64 - t.length)).length = 64 := by simp; omega
    obtain ⟨k1, k2⟩ := absorb_eq _ (transform x.state (t ++ data.take (64 - t.length))) (data.drop (64 - t.length)) (Nat.le_refl _)
    generalize absorb (transform x.state (t ++ data.take (64 - t.length))) (data.drop (64 - t.length)) = r at k1 k2
    obtain ⟨r1, r2⟩ := r
    simp only at k1 k2 ⊢
    have hsplit : a ++ t ++ data = a ++ ((t ++ data.take (64 - t.length)) ++ data.drop (64 - t.length)) := by simp
    have hr2 : r2.length = (a ++ t ++ data).length % 64 := by
      rw [k2, hm]; simp; omega
    refine ⟨?_, ?_, ?_, rfl, hc1⟩
    · rw [memcpy_length (by rw [hr2, hbl]; have := Nat.mod_lt (a ++ t ++ data).length (show 0 < 64 by decide); omega), hbl]
    · simp only
      rw [k1, transform_eq, hs', hsplit, hashBlocks_append _ _ _ ha, hashBlocks_block _ hbl]
    · have e := memcpy_take (dst := t ++ data.take (64 - t.length)) (src := r2) (off := 0) (Nat.zero_le _)
      rw [Nat.zero_add, List.take_zero, List.nil_append] at e
      simp only
      have hfin : a ++ t ++ data = (a ++ (t ++ data.take (64 - t.length)) ++ (data.drop (64 - t.length)).take
          ((data.drop (64 - t.length)).length - (data.drop (64 - t.length)).length % 64)) ++ r2 := by
        rw [k2, List.append_assoc _ _ (List.drop _ _), List.take_append_drop, hsplit, List.append_assoc a]
      rw [← hr2, e, hfin]
      exact (drop_tail _ _).symm
  · rw [if_neg hbig]
    refine ⟨?_, ?_, ?_, rfl, hc1⟩
    · rw [memcpy_length (by omega), hb]
    · simp only
      rw [hs', List.append_assoc, hashBlocks_append _ _ _ ha, hashBlocks_small _ (m := t ++ data) (by simp; omega)]
    · simp only
      rw [hm, Nat.mod_eq_of_lt (by omega), memcpy_take (by omega), ht]
      rw [List.append_assoc, List.drop_left' (by simp only [List.length_append] at ha ⊢; omega)]

theorem and_504 (n : Nat) : n &&& 504 = 8 * (n / 8 % 64) := by
  have h1 : n / 8 % 64 = (n >>> 3) &&& 63 := by
    have : (n >>> 3) &&& 63 = (n >>> 3) % 64 := Nat.and_two_pow_sub_one_eq_mod _ 6
    rw [this, Nat.shiftRight_eq_div_pow]
  have h2 : 8 * (n / 8 % 64) = ((n >>> 3) &&& 63) <<< 3 := by rw [h1, Nat.shiftLeft_eq]; omega
  rw [h2]
  apply Nat.eq_of_testBit_eq
  intro i
  rw [Nat.testBit_and, Nat.testBit_shiftLeft, Nat.testBit_and, Nat.testBit_shiftRight]
  by_cases h : 3 ≤ i
  · have e : (504 : Nat) = 63 <<< 3 := by decide
    rw [e, Nat.testBit_shiftLeft]
    simp [h, show 3 + (i - 3) = i by omega]
  · have h5 : ∀ i < 3, Nat.testBit 504 i = false := by decide
    rw [h5 i (by omega)]
    simp [h]

theorem padLoop_eq (fuel : Nat) : ∀ {x : Ctx} {m : Bytes}, SRep x m → ∀ k, k < 64 → (m.length + k) % 64 = 56 → k ≤ fuel →
    ∃ y, padLoop fuel x = some y ∧ SRep y (m ++ List.replicate k 0) := by
  induction fuel with
  | zero =>
    intro x m h k hk h1 h2
    obtain rfl : k = 0 := by omega
    refine ⟨x, ?_, by simpa using h⟩
    have : x.count0 &&& 504 = 448 := by rw [and_504, h.c0]; omega
    rw [padLoop, if_neg (by omega)]
  | succ fuel ih =>
    intro x m h k hk h1 h2
    have hc : x.count0 &&& 504 = 8 * (m.length % 64) := by rw [and_504, h.c0]; omega
    rw [padLoop, hc]
    by_cases h0 : k = 0
    · subst h0
      rw [if_neg (by omega)]
      exact ⟨x, rfl, by simpa using h⟩
    · rw [if_pos (by omega)]
      obtain ⟨y, h3, h4⟩ := ih (h.update [0]) (k - 1) (by omega) (by simp; omega) (by omega)
      refine ⟨y, h3, ?_⟩
      rw [List.append_assoc] at h4
      obtain ⟨j, rfl⟩ : ∃ j, k = j + 1 := ⟨k - 1, by omega⟩
      rw [List.replicate_succ]
      exact h4

theorem byte_eq {a b : Nat} (h : a % 256 = b % 256) : UInt8.ofNat a = UInt8.ofNat b := by
  apply UInt8.toNat_inj.1
  simpa using h

theorem finalcount_eq {x : Ctx} {m : Bytes} (h : SRep x m) : finalcount x = bigEndian 8 (8 * m.length) := by
  have hand : ∀ n, n &&& 255 = n % 256 := fun n => Nat.and_two_pow_sub_one_eq_mod n 8
  unfold finalcount bigEndian
  rw [h.c0, h.c1]
  generalize 8 * m.length = n
  simp only [show List.range 8 = [0, 1, 2, 3, 4, 5, 6, 7] from rfl, List.map_cons, List.map_nil, toLE, List.reverse_cons, List.reverse_nil, List.nil_append, List.cons_append,
    hand, Nat.shiftRight_eq_div_pow]
  simp only [List.cons.injEq, and_true]
  refine ⟨?_, ?_, ?_, ?_, ?_, ?_, ?_, ?_⟩ <;> apply byte_eq <;> simp <;> omega

theorem digest_eq (r : Regs) : ((List.range 20).map fun i =>
      UInt8.ofNat (((([r.a, r.b, r.c, r.d, r.e] : List W).getD (i >>> 2) 0) >>> ((3 - (i &&& 3)) * 8)).toNat &&& 255)) =
    [(value r).a, (value r).b, (value r).c, (value r).d, (value r).e].flatMap fun w => bigEndian 4 w.toNat := by
  have hand : ∀ n, n &&& 255 = n % 256 := fun n => Nat.and_two_pow_sub_one_eq_mod n 8
  simp only [show List.range 20 = [0, 1, 2, 3, 4, 5, 6, 7, 8, 9, 10, 11, 12, 13, 14, 15, 16, 17, 18, 19] from rfl, List.map_cons, List.map_nil,
    hand, value, bigEndian, toLE, List.flatMap_cons, List.flatMap_nil, List.reverse_cons, List.reverse_nil, List.nil_append, List.cons_append,
    List.append_nil, BitVec.toNat_ushiftRight, Nat.shiftRight_eq_div_pow]
  simp only [List.cons.injEq, and_true]
  refine ⟨?_, ?_, ?_, ?_, ?_, ?_, ?_, ?_, ?_, ?_, ?_, ?_, ?_, ?_, ?_, ?_, ?_, ?_, ?_, ?_⟩ <;> apply byte_eq <;> simp <;> omega

theorem final_eq {x : Ctx} {m : Bytes} (h : SRep x m) : final x = some (sha1 m) := by
  obtain ⟨y, h1, h2⟩ := padLoop_eq 64 (h.update [0x80]) ((119 - m.length % 64) % 64) (Nat.mod_lt _ (by decide))
    (by simp only [List.length_append, List.length_singleton]; omega) (by have := Nat.mod_lt (119 - m.length % 64) (show 0 < 64 by decide); omega)
  have h3 := h2.update (finalcount x)
  rw [finalcount_eq h] at h3
  unfold final
  rw [h1, finalcount_eq h]
  simp only [Option.bind_eq_bind, Option.bind_some, pure]
  rw [digest_eq, h3.st]
  rfl

theorem updates_rep (l : List Bytes) : ∀ {x : Ctx} {m : Bytes}, SRep x m → SRep (l.foldl update x) (m ++ l.flatten) := by
  induction l with
  | nil => intro x m h; simpa using h
  | cons d l ih =>
    intro x m h
    have := ih (h.update d)
    simpa using this

end Zdb.Sha1
