/-
Bytes, little-endian integers and POSIX file primitives.
-/
namespace Zdb

/-- A buffer or a file contents. -/
abbrev Bytes := List UInt8

/-- `k` little-endian bytes of `n`: what storing `n` in a `uint8_t`/`uint32_t`/`uint64_t`
    field of a packed structure leaves in memory on the supported (little-endian) hosts.
    Storing truncates, as the C assignment does. -/
def toLE : Nat → Nat → Bytes
  | 0, _ => []
  | k + 1, n => UInt8.ofNat (n % 256) :: toLE k (n / 256)

/-- Value of a little-endian field. -/
def fromLE : Bytes → Nat
  | [] => 0
  | b :: bs => b.toNat + 256 * fromLE bs

/-- `lseek(fd, off, SEEK_SET); read(fd, buf, len)`: bytes present, short at end of file. -/
def pread (f : Bytes) (off len : Nat) : Bytes := (f.drop off).take len

/-- A read that must return exactly `len` bytes (`index_read`, libzdb/index.c:131-159, and the
    comparisons with the expected length in libzdb/data.c). -/
def readExact (f : Bytes) (off len : Nat) : Option Bytes :=
  let r := pread f off len
  if r.length = len then some r else none

/-- `lseek(fd, off, SEEK_SET); write(fd, b, n)` on a descriptor opened without `O_APPEND`:
    a hole before `off` is filled with zeros. -/
def pwrite (f : Bytes) (off : Nat) (b : Bytes) : Bytes :=
  f.take off ++ List.replicate (off - f.length) 0 ++ b ++ f.drop (off + b.length)

/-- Outcome of one `write` call: `none` is a complete write, `some n` an error after `n` bytes
    reached the file. -/
abbrev WriteFault := Option Nat

/-- The bytes that reach the file. -/
def WriteFault.cut (w : WriteFault) (b : Bytes) : Bytes :=
  match w with
  | none => b
  | some n => b.take n

/-- Does the caller see the write as successful? -/
def WriteFault.ok (w : WriteFault) : Bool := w.isNone

end Zdb
