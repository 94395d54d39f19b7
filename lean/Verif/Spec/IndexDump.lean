/-
What the index files contain, and what a listing of them should show.
-/
import Verif.Model.IndexDump
import Verif.Props.Crc
import Verif.Spec.UserMap
import Verif.Spec.SeqMap
namespace Zdb

/-- The first 29 bytes of an index file of the version that the tool knows. -/
structure GoodIndex (h : Bytes) : Prop where
  length : h.length = 29
  magic : h.take 4 = [0x49, 0x44, 0x58, 0x30]
  version : (h.drop 4).take 4 = toLE 4 4

/-- An index file: its header and its items. -/
def encIndex (h : Bytes) (g : List Item) : Bytes := h ++ g.flatMap encItem

/-- The lines for items one after the other, the first one at `off`, `num` entries before. -/
def itemLines (num off : Nat) : List Item → List DumpLine
  | [] => []
  | it :: g => ⟨num + 1, off, it⟩ :: itemLines (num + 1) (off + (34 + it.id.length)) g

/-- What is printed of an entry that tells which payload it stands for: key, length, checksum, date. -/
def DumpLine.shows (x : DumpLine) : Bytes × Nat × Nat × Nat := (x.item.id, x.item.length, x.item.crc, x.item.timestamp)

/-- The same for a value stored under a key. -/
def Val.shows (k : Bytes) (v : Val) : Bytes × Nat × Nat × Nat := (k, v.payload.length, castagnoli (bufferBits v.payload), v.time)

/-- All lines printed, in order. -/
def DumpOut.lines (d : DumpOut) : List DumpLine := d.files.flatMap (·.2)

/-- The entry is printed with flags `0x0`. -/
def DumpLine.kept (x : DumpLine) : Bool := x.item.flags == 0

/-- The data file has, at the place printed, a record of this key whose payload has the length and the checksum printed. -/
def DumpLine.Leads (x : DumpLine) (f : Bytes) : Prop :=
  ∃ pre prev p post, f = pre ++ (toLE 1 x.item.id.length ++ (toLE 4 p.length ++ (toLE 4 prev ++ (toLE 4 (castagnoli (bufferBits p)) ++
      (toLE 1 0 ++ toLE 4 x.item.timestamp)))) ++ (x.item.id ++ p)) ++ post ∧
    pre.length = x.item.offset ∧ p.length = x.item.length ∧ castagnoli (bufferBits p) = x.item.crc

end Zdb
