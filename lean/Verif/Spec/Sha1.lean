/-
SHA-1 as in FIPS 180-4, sections 4.1.1, 4.2.1, 5.1.1, 5.3.1 and 6.1.
-/
import Verif.Model.Bytes
namespace Zdb.Fips

abbrev Word := BitVec 32

/-- The functions of section 4.1.1. -/
def f (t : Nat) (x y z : Word) : Word :=
  if t < 20 then (x &&& y) ^^^ (~~~x &&& z)
  else if t < 40 then x ^^^ y ^^^ z
  else if t < 60 then (x &&& y) ^^^ (x &&& z) ^^^ (y &&& z)
  else x ^^^ y ^^^ z

/-- The constants of section 4.2.1. -/
def K (t : Nat) : Word :=
  if t < 20 then 0x5a827999#32 else if t < 40 then 0x6ed9eba1#32 else if t < 60 then 0x8f1bbcdc#32 else 0xca62c1d6#32

/-- A hash value or the five working variables. -/
structure H where
  a : Word
  b : Word
  c : Word
  d : Word
  e : Word
  deriving DecidableEq

/-- The initial hash value, section 5.3.1. -/
def H0 : H := ⟨0x67452301#32, 0xefcdab89#32, 0x98badcfe#32, 0x10325476#32, 0xc3d2e1f0#32⟩

/-- The words of a block of 64 bytes, first byte first. -/
def word (block : Bytes) (t : Nat) : Word :=
  (block.getD (4 * t) 0).toBitVec ++ (block.getD (4 * t + 1) 0).toBitVec ++ (block.getD (4 * t + 2) 0).toBitVec ++
    (block.getD (4 * t + 3) 0).toBitVec

/-- The first `16 + n` words of the message schedule (step 1 of section 6.1.2). -/
def schedule (block : Bytes) : Nat → List Word
  | 0 => (List.range 16).map (word block)
  | n + 1 =>
    let w := schedule block n
    w ++ [(w.getD (n + 13) 0 ^^^ w.getD (n + 8) 0 ^^^ w.getD (n + 2) 0 ^^^ w.getD n 0).rotateLeft 1]

/-- Step 3 of section 6.1.2 for one `t`. -/
def round (h : H) (t : Nat) (w : Word) : H :=
  ⟨h.a.rotateLeft 5 + f t h.b h.c h.d + h.e + K t + w, h.a, h.b.rotateLeft 30, h.c, h.d⟩

/-- The working variables after `n` steps. -/
def rounds (h : H) (w : List Word) : Nat → H
  | 0 => h
  | n + 1 => round (rounds h w n) n (w.getD n 0)

/-- The hash value after one more block. -/
def compress (h : H) (block : Bytes) : H :=
  let r := rounds h (schedule block 64) 80
  ⟨h.a + r.a, h.b + r.b, h.c + r.c, h.d + r.d, h.e + r.e⟩

/-- The hash value after the blocks of a message. -/
def hashBlocks (h : H) (m : Bytes) : H :=
  if 64 ≤ m.length then hashBlocks (compress h (m.take 64)) (m.drop 64) else h
termination_by m.length
decreasing_by simp; omega

/-- `k` bytes of a number, the most significant one first. -/
def bigEndian (k n : Nat) : Bytes := (toLE k n).reverse

/-- The padded message, section 5.1.1: a bit 1, as few bits 0 as needed, the length in bits on 64 bits. -/
def pad (m : Bytes) : Bytes :=
  m ++ [0x80] ++ List.replicate ((119 - m.length % 64) % 64) 0 ++ bigEndian 8 (8 * m.length)

/-- The digest of a message of less than 2^61 bytes. -/
def sha1 (m : Bytes) : Bytes :=
  let h := hashBlocks H0 (pad m)
  [h.a, h.b, h.c, h.d, h.e].flatMap fun w => bigEndian 4 w.toNat

/-- Lower case hexadecimal. -/
def hexadecimal (m : Bytes) : Bytes :=
  let digit := fun n => (("0123456789abcdef".toList.map fun c => UInt8.ofNat c.toNat).getD n 0)
  m.flatMap fun b => [digit (b.toNat / 16), digit (b.toNat % 16)]

end Zdb.Fips
