/-
The code of SHA-1 against the standard.
-/
import Verif.Model.Sha1
import Verif.Spec.Sha1
namespace Zdb.Sha1
open Fips

theorem rol_eq (x : W) {n : Nat} (h : n < 32) : rol x n = x.rotateLeft n := by
  rw [BitVec.rotateLeft_def, Nat.mod_eq_of_lt h]; rfl

theorem cat_bit (a b c d : BitVec 8) (i : Nat) : BitVec.getLsbD (w := 32) (d ++ c ++ b ++ a) i =
    if i < 8 then a.getLsbD i else if i < 16 then b.getLsbD (i - 8) else if i < 24 then c.getLsbD (i - 16)
      else d.getLsbD (i - 24) := by
  have h : BitVec.getLsbD (w := 8 + 8 + 8 + 8) (d ++ c ++ b ++ a) i = _ := BitVec.getLsbD_append
  refine h.trans ?_
  rw [BitVec.getLsbD_append, BitVec.getLsbD_append]
  by_cases h1 : i < 8
  · simp [h1]
  by_cases h2 : i < 16
  · simp [h1, h2, show i - 8 < 8 by omega]
  by_cases h3 : i < 24
  · simp [h1, h2, h3, show ¬ i - 8 < 8 by omega, show i - 16 < 8 by omega, show i - 8 - 8 = i - 16 by omega]
  · simp [h1, h2, h3, show ¬ i - 8 < 8 by omega, show ¬ i - 16 < 8 by omega, show i - 8 - 8 = i - 16 by omega, show i - 16 - 8 = i - 24 by omega]

theorem mask_hi : ∀ i < 32, BitVec.getLsbD 0xFF00FF00#32 i = ((8 ≤ i && i < 16) || (24 ≤ i)) := by decide

theorem mask_lo : ∀ i < 32, BitVec.getLsbD 0x00FF00FF#32 i = (i < 8 || (16 ≤ i && i < 24)) := by decide

theorem swap_bytes (a b c d : BitVec 8) : swap (d ++ c ++ b ++ a) = a ++ b ++ c ++ d := by
  apply BitVec.eq_of_getLsbD_eq
  intro i hi
  unfold swap rol
  simp only [BitVec.getLsbD_or, BitVec.getLsbD_and, BitVec.getLsbD_shiftLeft, BitVec.getLsbD_ushiftRight, cat_bit, mask_hi i hi, mask_lo i hi]
  by_cases h1 : i < 8
  · simp [h1, show i < 24 by omega, show ¬ 8 ≤ i by omega, show ¬ 24 ≤ i by omega, show ¬ 24 + i < 8 by omega,
      show ¬ 24 + i < 16 by omega, show ¬ 24 + i < 24 by omega]
  by_cases h2 : i < 16
  · simp [h1, h2, hi, show i < 24 by omega, show 8 ≤ i by omega, show ¬ 16 ≤ i by omega, show ¬ 24 ≤ i by omega,
      show ¬ 8 + i < 8 by omega, show ¬ 8 + i < 16 by omega, show 8 + i < 24 by omega, show 8 + i - 16 = i - 8 by omega]
  by_cases h3 : i < 24
  · simp [h1, h2, h3, hi, show 8 ≤ i by omega, show 16 ≤ i by omega, show ¬ 24 ≤ i by omega,
      show ¬ i - 8 < 8 by omega, show i - 8 < 16 by omega, show i - 8 - 8 = i - 16 by omega, show ¬ 24 + i < 8 by omega,
      show ¬ 24 + i < 16 by omega, show ¬ 24 + i < 24 by omega]
  · simp [h1, h2, h3, hi, show 8 ≤ i by omega, show 16 ≤ i by omega, show 24 ≤ i by omega, show i - 24 < 8 by omega,
      show ¬ i - 8 < 8 by omega, show ¬ i - 8 < 16 by omega]
    intro _ h
    rw [if_neg (by omega), BitVec.getLsbD_of_ge d _ (by omega)] at h
    cases h

theorem swap_load (buf : Bytes) (i : Nat) : swap (load buf i) = word buf i := swap_bytes _ _ _ _

theorem ch_eq (x y z : W) : (x &&& (y ^^^ z)) ^^^ z = (x &&& y) ^^^ (~~~x &&& z) := by
  ext i hi
  simp only [BitVec.getElem_xor, BitVec.getElem_and, BitVec.getElem_not]
  cases x[i] <;> cases y[i] <;> cases z[i] <;> rfl

theorem maj_eq (x y z : W) : ((x ||| y) &&& z) ||| (x &&& y) = (x &&& y) ^^^ (x &&& z) ^^^ (y &&& z) := by
  ext i hi
  simp only [BitVec.getElem_xor, BitVec.getElem_and, BitVec.getElem_or]
  cases x[i] <;> cases y[i] <;> cases z[i] <;> rfl

/-- The macro of a step. -/
def kindAt (t : Nat) : Nat := if t < 16 then 0 else if t < 20 then 1 else if t < 40 then 2 else if t < 60 then 3 else 4

theorem mix_eq (t : Nat) (x y z : W) : mix (kindAt t) x y z = f t x y z + K t := by
  have m0 : mix 0 x y z = ((x &&& (y ^^^ z)) ^^^ z) + 0x5A827999#32 := rfl
  have m1 : mix 1 x y z = ((x &&& (y ^^^ z)) ^^^ z) + 0x5A827999#32 := rfl
  have m2 : mix 2 x y z = (x ^^^ y ^^^ z) + 0x6ED9EBA1#32 := rfl
  have m3 : mix 3 x y z = (((x ||| y) &&& z) ||| (x &&& y)) + 0x8F1BBCDC#32 := rfl
  have m4 : mix 4 x y z = (x ^^^ y ^^^ z) + 0xCA62C1D6#32 := rfl
  unfold kindAt f K
  by_cases h1 : t < 16
  · rw [if_pos h1, if_pos (by omega : t < 20), if_pos (by omega : t < 20), m0, ch_eq]
  by_cases h2 : t < 20
  · rw [if_neg h1, if_pos h2, if_pos h2, if_pos h2, m1, ch_eq]
  by_cases h3 : t < 40
  · rw [if_neg h1, if_neg h2, if_neg h2, if_neg h2, if_pos h3, if_pos h3, if_pos h3, m2]
  by_cases h4 : t < 60
  · rw [if_neg h1, if_neg h2, if_neg h2, if_neg h2, if_neg h3, if_neg h3, if_neg h3, if_pos h4, if_pos h4, if_pos h4, m3, maj_eq]
  · rw [if_neg h1, if_neg h2, if_neg h2, if_neg h2, if_neg h3, if_neg h3, if_neg h3, if_neg h4, if_neg h4, if_neg h4, m4]

/-- The register with a given place. -/
def regAt (k : Nat) : Reg :=
  match k % 5 with
  | 0 => .a
  | 1 => .b
  | 2 => .c
  | 3 => .d
  | _ => .e

/-- The call of a step: the registers move by one place at each step. -/
def callAt (t : Nat) : Call :=
  (kindAt t, regAt (4 * t), regAt (4 * t + 1), regAt (4 * t + 2), regAt (4 * t + 3), regAt (4 * t + 4), t)

theorem calls_eq : calls = (List.range 80).map callAt := by rfl

/-- The working variables of the standard held by the registers before step `t`. -/
def held (t : Nat) (r : Regs) : H :=
  ⟨r.get (regAt (4 * t)), r.get (regAt (4 * t + 1)), r.get (regAt (4 * t + 2)), r.get (regAt (4 * t + 3)),
    r.get (regAt (4 * t + 4))⟩

theorem schedule_length (B : Bytes) (n : Nat) : (schedule B n).length = 16 + n := by
  induction n with
  | zero => simp [schedule]
  | succ n ih => simp [schedule, ih]; omega

theorem schedule_prefix (B : Bytes) {m n t : Nat} (h : m ≤ n) (ht : t < 16 + m) :
    (schedule B n).getD t 0 = (schedule B m).getD t 0 := by
  induction n with
  | zero => obtain rfl : m = 0 := by omega
            rfl
  | succ n ih =>
    by_cases hm : m = n + 1
    · rw [hm]
    · rw [← ih (by omega)]
      simp only [schedule, List.getD_eq_getElem?_getD]
      rw [List.getElem?_append_left (by rw [schedule_length]; omega)]

theorem schedule_first (B : Bytes) {t : Nat} (h : t < 16) : (schedule B 64).getD t 0 = word B t := by
  rw [schedule_prefix B (Nat.zero_le 64) (by omega)]
  simp [schedule, List.getD_eq_getElem?_getD, h]

theorem schedule_next (B : Bytes) {t : Nat} (h0 : 16 ≤ t) (h : t < 80) : (schedule B 64).getD t 0 =
    ((schedule B 64).getD (t - 3) 0 ^^^ (schedule B 64).getD (t - 8) 0 ^^^ (schedule B 64).getD (t - 14) 0 ^^^
      (schedule B 64).getD (t - 16) 0).rotateLeft 1 := by
  obtain ⟨n, rfl⟩ : ∃ n, t = 16 + n := ⟨t - 16, by omega⟩
  rw [schedule_prefix B (m := n + 1) (by omega) (by omega), schedule_prefix B (m := n) (t := 16 + n - 3) (by omega) (by omega),
    schedule_prefix B (m := n) (t := 16 + n - 8) (by omega) (by omega),
    schedule_prefix B (m := n) (t := 16 + n - 14) (by omega) (by omega),
    schedule_prefix B (m := n) (t := 16 + n - 16) (by omega) (by omega)]
  have e1 : 16 + n - 3 = n + 13 := by omega
  have e2 : 16 + n - 8 = n + 8 := by omega
  have e3 : 16 + n - 14 = n + 2 := by omega
  have e4 : 16 + n - 16 = n := by omega
  rw [e1, e2, e3, e4]
  conv => lhs; rw [schedule]
  simp only [List.getD_eq_getElem?_getD]
  rw [List.getElem?_append_right (by rw [schedule_length]; omega), schedule_length]
  simp

/-- Registers and block before step `t`. -/
structure Inv (h : H) (B : Bytes) (S : List W) (t : Nat) (st : Regs × Block) : Prop where
  regs : held t st.1 = rounds h S t
  len : st.2.length = 16
  done : ∀ i, i < t → t ≤ i + 16 → st.2.at (i % 16) = S.getD i 0
  raw : ∀ i, t ≤ i → i < 16 → st.2.at i = load B i

theorem set_at (l : Block) (i j : Nat) (v : W) (h : i < l.length) :
    Block.at (l.set i v) j = if j = i then v else l.at j := by
  unfold Block.at
  simp only [List.getD_eq_getElem?_getD, List.getElem?_set]
  by_cases e : i = j
  · subst e; simp [h]
  · simp [e, Ne.symm e]

theorem held_step (t : Nat) (r : Regs) (word : W) :
    held (t + 1)
      (let r1 := r.set (regAt (4 * t + 4)) (r.get (regAt (4 * t + 4)) +
          (mix (kindAt t) (r.get (regAt (4 * t + 1))) (r.get (regAt (4 * t + 2))) (r.get (regAt (4 * t + 3))) + word +
            rol (r.get (regAt (4 * t))) 5))
       r1.set (regAt (4 * t + 1)) (rol (r1.get (regAt (4 * t + 1))) 30)) = round (held t r) t word := by
  have key : ∀ a b c d e : W, e + (mix (kindAt t) b c d + word + rol a 5) = a.rotateLeft 5 + f t b c d + e + K t + word := by
    intro a b c d e
    rw [mix_eq, rol_eq a (by decide)]
    ac_rfl
  have h5 : t % 5 = 0 ∨ t % 5 = 1 ∨ t % 5 = 2 ∨ t % 5 = 3 ∨ t % 5 = 4 := by omega
  rcases h5 with h5 | h5 | h5 | h5 | h5
  · have e0 : 4 * t % 5 = 0 := by omega
    have e1 : (4 * t + 1) % 5 = 1 := by omega
    have e2 : (4 * t + 2) % 5 = 2 := by omega
    have e3 : (4 * t + 3) % 5 = 3 := by omega
    have e4 : (4 * t + 4) % 5 = 4 := by omega
    have e5 : (4 * (t + 1)) % 5 = 4 := by omega
    have e6 : (4 * (t + 1) + 1) % 5 = 0 := by omega
    have e7 : (4 * (t + 1) + 2) % 5 = 1 := by omega
    have e8 : (4 * (t + 1) + 3) % 5 = 2 := by omega
    have e9 : (4 * (t + 1) + 4) % 5 = 3 := by omega
    simp only [held, round, regAt, e0, e1, e2, e3, e4, e5, e6, e7, e8, e9, Regs.get, Regs.set, key, rol_eq _ (show 30 < 32 by decide)]
  · have e0 : 4 * t % 5 = 4 := by omega
    have e1 : (4 * t + 1) % 5 = 0 := by omega
    have e2 : (4 * t + 2) % 5 = 1 := by omega
    have e3 : (4 * t + 3) % 5 = 2 := by omega
    have e4 : (4 * t + 4) % 5 = 3 := by omega
    have e5 : (4 * (t + 1)) % 5 = 3 := by omega
    have e6 : (4 * (t + 1) + 1) % 5 = 4 := by omega
    have e7 : (4 * (t + 1) + 2) % 5 = 0 := by omega
    have e8 : (4 * (t + 1) + 3) % 5 = 1 := by omega
    have e9 : (4 * (t + 1) + 4) % 5 = 2 := by omega
    simp only [held, round, regAt, e0, e1, e2, e3, e4, e5, e6, e7, e8, e9, Regs.get, Regs.set, key, rol_eq _ (show 30 < 32 by decide)]
  · have e0 : 4 * t % 5 = 3 := by omega
    have e1 : (4 * t + 1) % 5 = 4 := by omega
    have e2 : (4 * t + 2) % 5 = 0 := by omega
    have e3 : (4 * t + 3) % 5 = 1 := by omega
    have e4 : (4 * t + 4) % 5 = 2 := by omega
    have e5 : (4 * (t + 1)) % 5 = 2 := by omega
    have e6 : (4 * (t + 1) + 1) % 5 = 3 := by omega
    have e7 : (4 * (t + 1) + 2) % 5 = 4 := by omega
    have e8 : (4 * (t + 1) + 3) % 5 = 0 := by omega
    have e9 : (4 * (t + 1) + 4) % 5 = 1 := by omega
    simp only [held, round, regAt, e0, e1, e2, e3, e4, e5, e6, e7, e8, e9, Regs.get, Regs.set, key, rol_eq _ (show 30 < 32 by decide)]
  · have e0 : 4 * t % 5 = 2 := by omega
    have e1 : (4 * t + 1) % 5 = 3 := by omega
    have e2 : (4 * t + 2) % 5 = 4 := by omega
    have e3 : (4 * t + 3) % 5 = 0 := by omega
    have e4 : (4 * t + 4) % 5 = 1 := by omega
    have e5 : (4 * (t + 1)) % 5 = 1 := by omega
    have e6 : (4 * (t + 1) + 1) % 5 = 2 := by omega
    have e7 : (4 * (t + 1) + 2) % 5 = 3 := by omega
    have e8 : (4 * (t + 1) + 3) % 5 = 4 := by omega
    have e9 : (4 * (t + 1) + 4) % 5 = 0 := by omega
    simp only [held, round, regAt, e0, e1, e2, e3, e4, e5, e6, e7, e8, e9, Regs.get, Regs.set, key, rol_eq _ (show 30 < 32 by decide)]
  · have e0 : 4 * t % 5 = 1 := by omega
    have e1 : (4 * t + 1) % 5 = 2 := by omega
    have e2 : (4 * t + 2) % 5 = 3 := by omega
    have e3 : (4 * t + 3) % 5 = 4 := by omega
    have e4 : (4 * t + 4) % 5 = 0 := by omega
    have e5 : (4 * (t + 1)) % 5 = 0 := by omega
    have e6 : (4 * (t + 1) + 1) % 5 = 1 := by omega
    have e7 : (4 * (t + 1) + 2) % 5 = 2 := by omega
    have e8 : (4 * (t + 1) + 3) % 5 = 3 := by omega
    have e9 : (4 * (t + 1) + 4) % 5 = 4 := by omega
    simp only [held, round, regAt, e0, e1, e2, e3, e4, e5, e6, e7, e8, e9, Regs.get, Regs.set, key, rol_eq _ (show 30 < 32 by decide)]

theorem Inv.step {h : H} {B : Bytes} {S : List W} (hS1 : ∀ t, t < 16 → S.getD t 0 = word B t)
    (hS2 : ∀ t, 16 ≤ t → t < 80 → S.getD t 0 =
      (S.getD (t - 3) 0 ^^^ S.getD (t - 8) 0 ^^^ S.getD (t - 14) 0 ^^^ S.getD (t - 16) 0).rotateLeft 1)
    {t : Nat} {st : Regs × Block} (hi : Inv h B S t st) (ht : t < 80) :
    Inv h B S (t + 1) (exec st (callAt t)) := by
  obtain ⟨r, l⟩ := st
  obtain ⟨hr, hl, hd, hw⟩ := hi
  simp only at hr hl hd hw
  -- the word and the block of this step
  have hb : ∃ l', (if kindAt t = 0 then blk0 l t else blk l t) = (l', S.getD t 0) ∧
      l' = l.set (t % 16) (S.getD t 0) := by
    by_cases h16 : t < 16
    · have hk : kindAt t = 0 := by simp [kindAt, h16]
      have hv : swap (l.at t) = S.getD t 0 := by
        rw [hw t (Nat.le_refl t) h16, swap_load, hS1 t h16]
      rw [if_pos hk, blk0]
      simp only [hv]
      rw [Nat.mod_eq_of_lt h16]
      exact ⟨_, rfl, rfl⟩
    · have hk : kindAt t ≠ 0 := by
        unfold kindAt
        rw [if_neg h16]
        repeat' split
        all_goals decide
      have m := fun n => Nat.and_two_pow_sub_one_eq_mod n 4
      have hm : ∀ n, n &&& 15 = n % 16 := m
      have hv : rol (l.at ((t + 13) &&& 15) ^^^ l.at ((t + 8) &&& 15) ^^^ l.at ((t + 2) &&& 15) ^^^ l.at (t &&& 15)) 1 =
          S.getD t 0 := by
        rw [rol_eq _ (by decide), hS2 t (by omega) ht, ← hd (t - 3) (by omega) (by omega), ← hd (t - 8) (by omega) (by omega),
          ← hd (t - 14) (by omega) (by omega), ← hd (t - 16) (by omega) (by omega)]
        rw [hm, hm, hm, hm]
        rw [show (t + 13) % 16 = (t - 3) % 16 by omega, show (t + 8) % 16 = (t - 8) % 16 by omega,
          show (t + 2) % 16 = (t - 14) % 16 by omega, show t % 16 = (t - 16) % 16 by omega]
      rw [if_neg hk, blk]
      simp only [hv]
      rw [hm]
      exact ⟨_, rfl, rfl⟩
  obtain ⟨l', hb, rfl⟩ := hb
  have hex : exec (r, l) (callAt t) =
      ((let r1 := r.set (regAt (4 * t + 4)) (r.get (regAt (4 * t + 4)) +
          (mix (kindAt t) (r.get (regAt (4 * t + 1))) (r.get (regAt (4 * t + 2))) (r.get (regAt (4 * t + 3))) +
            S.getD t 0 + rol (r.get (regAt (4 * t))) 5))
        r1.set (regAt (4 * t + 1)) (rol (r1.get (regAt (4 * t + 1))) 30)), l.set (t % 16) (S.getD t 0)) := by
    unfold exec callAt
    dsimp only
    rw [hb]
  rw [hex]
  refine ⟨?_, by simpa using hl, ?_, ?_⟩
  · rw [held_step, hr]; rfl
  · intro i h1 h2
    rw [set_at _ _ _ _ (by rw [hl]; exact Nat.mod_lt _ (by decide))]
    by_cases e : i = t
    · subst e; rw [if_pos rfl]
    · rw [if_neg (by omega)]
      exact hd i (by omega) (by omega)
  · intro i h1 h2
    rw [set_at _ _ _ _ (by rw [hl]; exact Nat.mod_lt _ (by decide)), if_neg (by omega)]
    exact hw i (by omega) h2

/-- The hash value held by the state. -/
def value (r : Regs) : H := ⟨r.a, r.b, r.c, r.d, r.e⟩

theorem rounds_eq (state : Regs) (B : Bytes) (l : Block) (hl : l.length = 16) (hr : ∀ i, i < 16 → l.at i = load B i) {S : List W}
    (hS1 : ∀ t, t < 16 → S.getD t 0 = word B t)
    (hS2 : ∀ t, 16 ≤ t → t < 80 → S.getD t 0 =
      (S.getD (t - 3) 0 ^^^ S.getD (t - 8) 0 ^^^ S.getD (t - 14) 0 ^^^ S.getD (t - 16) 0).rotateLeft 1) (n : Nat) (hn : n ≤ 80) :
    Inv (value state) B S n (((List.range n).map callAt).foldl exec (state, l)) := by
  induction n with
  | zero => exact ⟨rfl, hl, by intro i h; omega, fun i _ h => hr i h⟩
  | succ n ih =>
    rw [List.range_succ, List.map_append, List.foldl_append]
    exact (ih (by omega)).step hS1 hS2 (by omega)

theorem held80 (r : Regs) : held 80 r = value r := rfl

theorem transform_eq (state : Regs) (B : Bytes) : value (transform state B) = compress (value state) B := by
  have h := (rounds_eq state B ((List.range 16).map (load B)) (by simp)
    (by intro i h; simp [Block.at, List.getD_eq_getElem?_getD, h]) (fun t h => schedule_first B h)
    (fun t h h' => schedule_next B h h') 80 (Nat.le_refl _)).regs
  rw [← calls_eq, held80] at h
  unfold transform compress
  dsimp only
  generalize (List.foldl exec (state, List.map (load B) (List.range 16)) calls).1 = r at h ⊢
  rw [← h]
  simp only [value]

end Zdb.Sha1
