/-
The records of a data file as they are in the file, whether the checksums are right or not.
-/
import Verif.Props.Crc
import Verif.Spec.DataLog
namespace Zdb

/-- A record of a data file with the checksum found in its header. -/
structure SRec where
  id : Bytes
  payload : Bytes
  prev : Nat
  crc : Nat
  flags : Nat
  time : Nat

/-- The bytes of a record (`data_entry_header_t`, libzdb/data.h:53-65, packed, little endian). -/
def SRec.enc (r : SRec) : Bytes :=
  (toLE 1 r.id.length ++ (toLE 4 r.payload.length ++ (toLE 4 r.prev ++ (toLE 4 r.crc ++ (toLE 1 r.flags ++ toLE 4 r.time))))) ++
    (r.id ++ r.payload)

/-- The fields fit in the header. -/
structure SRec.WF (r : SRec) : Prop where
  id : r.id.length < 256
  len : r.payload.length < 2 ^ 32
  prev : r.prev < 2 ^ 32
  crc : r.crc < 2 ^ 32
  flags : r.flags < 256
  time : r.time < 2 ^ 32

/-- There is a payload, and its checksum is not the one of the header. -/
def SRec.Bad (r : SRec) : Prop := r.payload ≠ [] ∧ castagnoli (bufferBits r.payload) ≠ r.crc

instance (r : SRec) : Decidable r.Bad := inferInstanceAs (Decidable (_ ∧ _))

/-- The first 28 bytes of a data file of the version that the tool knows. -/
structure GoodHeader (h : Bytes) : Prop where
  length : h.length = 28
  magic : h.take 4 = [0x44, 0x41, 0x54, 0x30]
  version : (h.drop 4).take 4 = toLE 4 3

/-- A data file: its header and its records. -/
def encSFile (h : Bytes) (g : List SRec) : Bytes := h ++ g.flatMap SRec.enc

/-- The number of records with a wrong checksum. -/
def badCount (g : List SRec) : Nat := g.countP (fun r => decide r.Bad)

/-- The name of a data file of version 2: the only names that the tool accepts. -/
def oldName (i : Nat) : Bytes := [122, 100, 98, 45, 100, 97, 116, 97, 45] ++ Resp.digits i

end Zdb
