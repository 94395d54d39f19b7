/-
What DATA RAW may show of a data file that holds anything at all.
-/
import Verif.Spec.DataLog
namespace Zdb

/-- At the place `off` of a file there is a whole record: a header, an id and a payload of the lengths the header
    gives. -/
def RecordAt (f : Bytes) (off : Nat) (h : DHdr) (id p : Bytes) : Prop :=
  ∃ before behind : Bytes, f = before ++ (encDHdr h ++ (id ++ (p ++ behind))) ∧ before.length = off ∧ h.WF ∧
    h.idlength = id.length ∧ h.datalength = p.length

/-- The record can be shown: it has a payload, of at most 8 MiB, and is not a deletion. -/
def Showable (h : DHdr) (p : Bytes) : Prop := p ≠ [] ∧ p.length ≤ 8 * 1024 * 1024 ∧ h.flags % 2 = 0

/-- The answer that shows a record. -/
def rawShown (h : DHdr) (id p : Bytes) : List Reply :=
  [.bulk id, .int h.previous, .bulk (hexText h.integrity), .int h.flags, .int h.timestamp, .bulk p]

end Zdb
