/-
The data files of a namespace as a log: what is written in the files, and which requests it records.
-/
import Verif.Spec.UserTrace
import Verif.Spec.Resp
namespace Zdb

/-- A record of a data file: a payload stored under an id, or the deletion of an id. -/
structure DRec where
  id : Bytes
  payload : Bytes
  /-- the field `previous` of the header -/
  prev : Nat
  del : Bool
  time : Nat

/-- The bytes of a record: the fields of `data_entry_header_t` (libzdb/data.h:53-65, packed, little
    endian), then the id, then the payload. -/
def DRec.enc (r : DRec) : Bytes :=
  (toLE 1 r.id.length ++ (toLE 4 r.payload.length ++ (toLE 4 r.prev ++ (toLE 4 (if r.del then 0 else crc32 r.payload) ++
    (toLE 1 (if r.del then 1 else 0) ++ toLE 4 r.time))))) ++ (r.id ++ r.payload)

/-- The fields of a record fit in the header, so that the record can be read back; a deletion has no payload. -/
structure DRec.WF (r : DRec) : Prop where
  id0 : 0 < r.id.length
  id1 : r.id.length < 256
  len : r.payload.length < 2 ^ 32
  prev : r.prev < 2 ^ 32
  time : r.time < 2 ^ 32
  gone : r.del = true → r.payload = []

/-- The bytes taken by some records. -/
def dsize (g : List DRec) : Nat := (g.map (fun r => r.enc.length)).sum

/-- Data file `i` with records `g`: a header of 28 bytes, and the records one after the other. -/
def encDFile (i : Nat) (g : List DRec) : Bytes := encDFHeader (freshDFHeader i) ++ g.flatMap DRec.enc

/-- A write: from this time on this key has this payload (`none`: no longer any). -/
structure Write where
  id : Bytes
  payload : Option Bytes
  time : Nat

/-- What a record says. -/
def DRec.what (r : DRec) : Write := ⟨r.id, if r.del then none else some r.payload, r.time⟩

/-- Every record of a file but the first gives the place of the record before it. -/
def Chained (g : List DRec) : Prop :=
  ∀ a x y b, g = a ++ x :: y :: b → y.prev = (28 + dsize a) % 2 ^ 32

/-- The time of a write, in 32 bits: the next word of the request (`rest`) if there is one, else the clock. -/
def writeTime (now : Nat) : List Bytes → Nat
  | [] => now % 2 ^ 32
  | t :: _ => (atoll t % 2 ^ 32).toNat

/-- The write told to the client as done by a request and its reply.  A SET is acknowledged with the id under
    which the payload is stored. -/
def acked : NsEvent × Reply → List Write
  | (.cmd c .set (_ :: _ :: p :: rest), .bulk id) => [⟨id, some p, writeTime c.now rest⟩]
  | (.cmd c .del (_ :: k :: rest), .simple _) => [⟨k, none, writeTime c.now rest⟩]
  | _ => []

/-- The words of `DATA RAW <file> <offset>`, the numbers in decimal. -/
def rawArgs (name : Bytes) (file off : Nat) : List Bytes := [name, wordRaw, Resp.digits file, Resp.digits off]

/-- A digit to the base 16. -/
def hexDigit (n : Nat) : UInt8 := if n < 10 then 48 + UInt8.ofNat n else 87 + UInt8.ofNat n

/-- The last `k` digits of a number. -/
def hexDigits : Nat → Nat → Bytes
  | 0, _ => []
  | k + 1, n => hexDigits k (n / 16) ++ [hexDigit (n % 16)]

/-- A number of 32 bits, as `0x` and eight digits. -/
def hexText (n : Nat) : Bytes := 48 :: 120 :: hexDigits 8 n

/-- The answer of DATA RAW that gives a record: id, previous, crc, flags, time, payload. -/
def DRec.reply (r : DRec) : Reply :=
  .arr [.bulk r.id, .int r.prev, .bulk (hexText (if r.del then 0 else crc32 r.payload)), .int (if r.del then 1 else 0), .int r.time,
    if r.del then .nil else .bulk r.payload]

end Zdb
