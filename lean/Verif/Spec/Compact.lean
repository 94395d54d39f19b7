/-
What a compacted namespace is, for C79.
-/
import Verif.Model.Compact
import Verif.Model.Crc
namespace Zdb.Compact

/-- An item of an index file with the payload it refers to; what is kept of the payload. -/
abbrev Entry := Item × Bytes

def kept (x : Entry) : Bytes := if isDeleted x.1.flags then [] else x.2

/-- The record kept: the id, what is kept of the payload, its checksum; records without payload are marked. -/
def record (prev : Nat) (x : Entry) : Bytes :=
  encDHdr { idlength := x.1.id.length, datalength := (kept x).length, previous := prev,
            integrity := if kept x = [] then 0 else crc32 (kept x), flags := if kept x = [] then 2 else 0,
            timestamp := x.1.timestamp } ++ (x.1.id ++ kept x)

/-- The records of a file one after the other, the first one at `pos`; each one tells where the one before is. -/
def records (prev pos : Nat) : List Entry → Bytes
  | [] => []
  | x :: xs => record prev x ++ records (pos % 2 ^ 32) (pos + (record prev x).length) xs

/-- The item of an entry in the compacted index file `i`, saying that its record is at `off`. -/
def item (i off : Nat) (x : Entry) : Item := { x.1 with length := (kept x).length, offset := off, dataid := i }

/-- The items of a compacted file when each one says where its record is. -/
def items (i pos : Nat) : List Entry → List Item
  | [] => []
  | x :: xs => item i (pos % 2 ^ 32) x :: items i (pos + (record 0 x).length) xs

/-- The items when each one but the first says where the record of the one before is. -/
def late (i off pos : Nat) : List Entry → List Item
  | [] => []
  | x :: xs => item i off x :: late i (pos % 2 ^ 32) (pos + (record 0 x).length) xs

/-- `prev` at the end of a file. -/
def lastPos (prev pos : Nat) : List Entry → Nat
  | [] => prev
  | x :: xs => lastPos (pos % 2 ^ 32) (pos + (record 0 x).length) xs

/-- All files, from number `i` on; `m` is the mode in the headers. -/
def layout (m i prev : Nat) : List (List Entry) → List (Bytes × Bytes)
  | [] => []
  | g :: gs =>
    (encIHeader (freshIHeader i m) ++ (late i dfhdrLen dfhdrLen g).flatMap encItem,
     encDFHeader (freshDFHeader i) ++ records prev dfhdrLen g) :: layout m (i + 1) (lastPos prev dfhdrLen g) gs

end Zdb.Compact
