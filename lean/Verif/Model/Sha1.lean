/-
SHA-1 as computed by libzdb/sha1.c, and the digests of passwords of libzdb/security.c.
-/
import Verif.Model.Commands
namespace Zdb.Sha1

/-- `uint32_t`. -/
abbrev W := BitVec 32

/-- The macro `rol`, libzdb/sha1.c:9. -/
def rol (x : W) (n : Nat) : W := (x <<< n) ||| (x >>> (32 - n))

/-- The word at byte `4 * i` of a buffer, as read on a little-endian host through the union `char64long16`
    (libzdb/sha1.c:39-46).  A read past the buffer gives 0; the callers give 64 bytes. -/
def load (buf : Bytes) (i : Nat) : W :=
  (buf.getD (4 * i + 3) 0).toBitVec ++ (buf.getD (4 * i + 2) 0).toBitVec ++ (buf.getD (4 * i + 1) 0).toBitVec ++
    (buf.getD (4 * i) 0).toBitVec

/-- The 16 words `block->l`. -/
abbrev Block := List W

/-- `block->l[i]`. -/
def Block.at (l : Block) (i : Nat) : W := l.getD i 0

/-- The value assigned by `blk0`, libzdb/sha1.c:11-13 (little-endian variant). -/
def swap (x : W) : W := (rol x 24 &&& 0xFF00FF00#32) ||| (rol x 8 &&& 0x00FF00FF#32)

/-- The macro `blk0`: the block after the assignment and the value. -/
def blk0 (l : Block) (i : Nat) : Block × W :=
  let v := swap (l.at i)
  (l.set i v, v)

/-- The macro `blk`, libzdb/sha1.c:19-20. -/
def blk (l : Block) (i : Nat) : Block × W :=
  let v := rol (l.at ((i + 13) &&& 15) ^^^ l.at ((i + 8) &&& 15) ^^^ l.at ((i + 2) &&& 15) ^^^ l.at (i &&& 15)) 1
  (l.set (i &&& 15) v, v)

/-- The local variables `a` to `e` of `SHA1Transform`. -/
inductive Reg where
  | a | b | c | d | e
  deriving DecidableEq

/-- Their values. -/
structure Regs where
  a : W
  b : W
  c : W
  d : W
  e : W

def Regs.get (r : Regs) : Reg → W
  | .a => r.a
  | .b => r.b
  | .c => r.c
  | .d => r.d
  | .e => r.e

def Regs.set (r : Regs) (q : Reg) (x : W) : Regs :=
  match q with
  | .a => { r with a := x }
  | .b => { r with b := x }
  | .c => { r with c := x }
  | .d => { r with d := x }
  | .e => { r with e := x }

/-- The macros `R0` to `R4`, libzdb/sha1.c:23-27: the expression added to `z` without the word and `rol(v,5)`. -/
def mix (kind : Nat) (w x y : W) : W :=
  match kind with
  | 0 | 1 => ((w &&& (x ^^^ y)) ^^^ y) + 0x5A827999#32
  | 2 => (w ^^^ x ^^^ y) + 0x6ED9EBA1#32
  | 3 => (((w ||| x) &&& y) ||| (w &&& x)) + 0x8F1BBCDC#32
  | _ => (w ^^^ x ^^^ y) + 0xCA62C1D6#32

/-- A call of one of the macros: its number, its five registers, its index. -/
abbrev Call := Nat × Reg × Reg × Reg × Reg × Reg × Nat

/-- Execution of one call: first `z += ...`, then `w = rol(w,30)`. -/
def exec (st : Regs × Block) : Call → Regs × Block
  | (kind, v, w, x, y, z, i) =>
    let r := st.1
    let (l, word) := if kind = 0 then blk0 st.2 i else blk st.2 i
    let r := r.set z (r.get z + (mix kind (r.get w) (r.get x) (r.get y) + word + rol (r.get v) 5))
    (r.set w (rol (r.get w) 30), l)

/-- The calls of `SHA1Transform` in the order of the source, libzdb/sha1.c:54-133. -/
def calls : List Call :=
  [(0, .a, .b, .c, .d, .e, 0), (0, .e, .a, .b, .c, .d, 1), (0, .d, .e, .a, .b, .c, 2), (0, .c, .d, .e, .a, .b, 3),
   (0, .b, .c, .d, .e, .a, 4), (0, .a, .b, .c, .d, .e, 5), (0, .e, .a, .b, .c, .d, 6), (0, .d, .e, .a, .b, .c, 7),
   (0, .c, .d, .e, .a, .b, 8), (0, .b, .c, .d, .e, .a, 9), (0, .a, .b, .c, .d, .e, 10), (0, .e, .a, .b, .c, .d, 11),
   (0, .d, .e, .a, .b, .c, 12), (0, .c, .d, .e, .a, .b, 13), (0, .b, .c, .d, .e, .a, 14), (0, .a, .b, .c, .d, .e, 15),
   (1, .e, .a, .b, .c, .d, 16), (1, .d, .e, .a, .b, .c, 17), (1, .c, .d, .e, .a, .b, 18), (1, .b, .c, .d, .e, .a, 19),
   (2, .a, .b, .c, .d, .e, 20), (2, .e, .a, .b, .c, .d, 21), (2, .d, .e, .a, .b, .c, 22), (2, .c, .d, .e, .a, .b, 23),
   (2, .b, .c, .d, .e, .a, 24), (2, .a, .b, .c, .d, .e, 25), (2, .e, .a, .b, .c, .d, 26), (2, .d, .e, .a, .b, .c, 27),
   (2, .c, .d, .e, .a, .b, 28), (2, .b, .c, .d, .e, .a, 29), (2, .a, .b, .c, .d, .e, 30), (2, .e, .a, .b, .c, .d, 31),
   (2, .d, .e, .a, .b, .c, 32), (2, .c, .d, .e, .a, .b, 33), (2, .b, .c, .d, .e, .a, 34), (2, .a, .b, .c, .d, .e, 35),
   (2, .e, .a, .b, .c, .d, 36), (2, .d, .e, .a, .b, .c, 37), (2, .c, .d, .e, .a, .b, 38), (2, .b, .c, .d, .e, .a, 39),
   (3, .a, .b, .c, .d, .e, 40), (3, .e, .a, .b, .c, .d, 41), (3, .d, .e, .a, .b, .c, 42), (3, .c, .d, .e, .a, .b, 43),
   (3, .b, .c, .d, .e, .a, 44), (3, .a, .b, .c, .d, .e, 45), (3, .e, .a, .b, .c, .d, 46), (3, .d, .e, .a, .b, .c, 47),
   (3, .c, .d, .e, .a, .b, 48), (3, .b, .c, .d, .e, .a, 49), (3, .a, .b, .c, .d, .e, 50), (3, .e, .a, .b, .c, .d, 51),
   (3, .d, .e, .a, .b, .c, 52), (3, .c, .d, .e, .a, .b, 53), (3, .b, .c, .d, .e, .a, 54), (3, .a, .b, .c, .d, .e, 55),
   (3, .e, .a, .b, .c, .d, 56), (3, .d, .e, .a, .b, .c, 57), (3, .c, .d, .e, .a, .b, 58), (3, .b, .c, .d, .e, .a, 59),
   (4, .a, .b, .c, .d, .e, 60), (4, .e, .a, .b, .c, .d, 61), (4, .d, .e, .a, .b, .c, 62), (4, .c, .d, .e, .a, .b, 63),
   (4, .b, .c, .d, .e, .a, 64), (4, .a, .b, .c, .d, .e, 65), (4, .e, .a, .b, .c, .d, 66), (4, .d, .e, .a, .b, .c, 67),
   (4, .c, .d, .e, .a, .b, 68), (4, .b, .c, .d, .e, .a, 69), (4, .a, .b, .c, .d, .e, 70), (4, .e, .a, .b, .c, .d, 71),
   (4, .d, .e, .a, .b, .c, 72), (4, .c, .d, .e, .a, .b, 73), (4, .b, .c, .d, .e, .a, 74), (4, .a, .b, .c, .d, .e, 75),
   (4, .e, .a, .b, .c, .d, 76), (4, .d, .e, .a, .b, .c, 77), (4, .c, .d, .e, .a, .b, 78), (4, .b, .c, .d, .e, .a, 79)]

/-- `SHA1Transform`, libzdb/sha1.c:36-144.  `state[0]` to `state[4]` are held under the names of the registers they
    are copied to. -/
def transform (state : Regs) (buffer : Bytes) : Regs :=
  let r := (calls.foldl exec (state, (List.range 16).map (load buffer))).1
  ⟨state.a + r.a, state.b + r.b, state.c + r.c, state.d + r.d, state.e + r.e⟩

/-- `SHA1_CTX`, libzdb/sha1.c:29-34. -/
structure Ctx where
  state : Regs
  count0 : Nat
  count1 : Nat
  buffer : Bytes

/-- `SHA1Init`, libzdb/sha1.c:147-154.  The buffer is left as it is. -/
def init (buffer : Bytes) : Ctx where
  state := ⟨0x67452301#32, 0xEFCDAB89#32, 0x98BADCFE#32, 0x10325476#32, 0xC3D2E1F0#32⟩
  count0 := 0
  count1 := 0
  buffer

/-- `memcpy(&dst[off], src, n)`. -/
def memcpy (dst : Bytes) (off : Nat) (src : Bytes) : Bytes := dst.take off ++ src ++ dst.drop (off + src.length)

/-- The loop of `SHA1Update`, libzdb/sha1.c:171-173, on the data not yet read: the state and what is left of the data. -/
def absorb (state : Regs) (data : Bytes) : Regs × Bytes :=
  if 64 ≤ data.length then absorb (transform state (data.take 64)) (data.drop 64) else (state, data)
termination_by data.length
decreasing_by simp; omega

/-- `SHA1Update`, libzdb/sha1.c:156-182.  The length of the data is that of the list; `j + len` does not pass 2^32
    (the callers give 1 or 8 bytes). -/
def update (x : Ctx) (data : Bytes) : Ctx :=
  let len := data.length
  let count0 := (x.count0 + (len <<< 3) % 2 ^ 32) % 2 ^ 32
  let carry := if count0 < x.count0 then 1 else 0
  let count1 := (x.count1 + carry + (len >>> 29)) % 2 ^ 32
  let j := (x.count0 >>> 3) &&& 63
  if j + len > 63 then
    let i := 64 - j
    let buffer := memcpy x.buffer j (data.take i)
    let (state, rest) := absorb (transform x.state buffer) (data.drop i)
    ⟨state, count0, count1, memcpy buffer 0 rest⟩
  else ⟨x.state, count0, count1, memcpy x.buffer j data⟩

/-- `finalcount`, libzdb/sha1.c:190-192. -/
def finalcount (x : Ctx) : Bytes :=
  (List.range 8).map fun i => UInt8.ofNat ((if 4 ≤ i then x.count0 else x.count1) >>> ((3 - (i &&& 3)) * 8) &&& 255)

/-- The loop of `SHA1Final`, libzdb/sha1.c:197-200, at most `fuel` turns (`none` if it is not over then). -/
def padLoop : Nat → Ctx → Option Ctx
  | 0, x => if x.count0 &&& 504 ≠ 448 then none else some x
  | fuel + 1, x => if x.count0 &&& 504 ≠ 448 then padLoop fuel (update x [0]) else some x

/-- `SHA1Final`, libzdb/sha1.c:185-209: the digest. -/
def final (x : Ctx) : Option Bytes := do
  let y ← padLoop 64 (update x [0x80])
  let z := update y (finalcount x)
  return (List.range 20).map fun i =>
    UInt8.ofNat ((([z.state.a, z.state.b, z.state.c, z.state.d, z.state.e].getD (i >>> 2) 0) >>> ((3 - (i &&& 3)) * 8)).toNat &&& 255)

/-- `zdb_sha1`, libzdb/sha1.c:211-222: one byte after the other.  `junk` is the uninitialised buffer of the context. -/
def zdbSha1 (junk : Bytes) (s : Bytes) : Option Bytes := final (s.foldl (fun x b => update x [b]) (init junk))

/-- `sprintf("%02x", c & 0xff)`. -/
def hex2 (b : UInt8) : Bytes :=
  let d := fun (n : Nat) => UInt8.ofNat (if n < 10 then 48 + n else 87 + n)
  [d (b.toNat / 16), d (b.toNat % 16)]

/-- `zdb_challenge`, libzdb/security.c:14-34, from the bytes given by `getentropy`. -/
def challenge (random : Bytes) : Bytes := random.flatMap hex2

/-- `zdb_hash_password`, libzdb/security.c:41-63.  Both strings end at their first NUL. -/
def hashPassword (junk : Bytes) (salt password : Bytes) : Option Bytes :=
  (zdbSha1 junk (cstr salt ++ [58] ++ cstr password)).map fun d => d.flatMap hex2

end Zdb.Sha1
