/-
Packed on-disk structures.
-/
import Verif.Model.Bytes
namespace Zdb

/-- `index_item_t`, libzdb/index.h:52-70 (packed).  `id` is the flexible array; `idlength` is the
    stored length byte. -/
structure Item where
  idlength : Nat
  offset : Nat
  length : Nat
  previous : Nat
  flags : Nat
  dataid : Nat
  timestamp : Nat
  crc : Nat
  parentid : Nat
  parentoff : Nat
  id : Bytes
deriving DecidableEq, Repr

/-- `sizeof(index_item_t)`. -/
def itemHdr : Nat := 34

/-- Bytes of an `index_item_t` followed by its id, in field order of libzdb/index.h:52-70. -/
def encItem (it : Item) : Bytes :=
  toLE 1 it.idlength ++ (toLE 4 it.offset ++ (toLE 4 it.length ++ (toLE 4 it.previous ++
  (toLE 1 it.flags ++ (toLE 4 it.dataid ++ (toLE 4 it.timestamp ++ (toLE 4 it.crc ++
  (toLE 4 it.parentid ++ (toLE 4 it.parentoff ++ it.id)))))))))

/-- Reading the fields of an `index_item_t` through a pointer to a buffer of at least 34 bytes. -/
def decItem (b : Bytes) : Item where
  idlength := fromLE (pread b 0 1)
  offset := fromLE (pread b 1 4)
  length := fromLE (pread b 5 4)
  previous := fromLE (pread b 9 4)
  flags := fromLE (pread b 13 1)
  dataid := fromLE (pread b 14 4)
  timestamp := fromLE (pread b 18 4)
  crc := fromLE (pread b 22 4)
  parentid := fromLE (pread b 26 4)
  parentoff := fromLE (pread b 30 4)
  id := b.drop 34

/-- Storing into the `flags` field of an `index_item_t` held in a buffer
    (`index_transition->flags = entry->flags`, libzdb/index.c:564). -/
def setItemFlags (b : Bytes) (flags : Nat) : Bytes :=
  b.take 13 ++ (toLE 1 flags ++ b.drop 14)

/-- `data_entry_header_t`, libzdb/data.h:56-65 (packed), without its id. -/
structure DHdr where
  idlength : Nat
  datalength : Nat
  previous : Nat
  integrity : Nat
  flags : Nat
  timestamp : Nat
deriving DecidableEq, Repr

/-- `sizeof(data_entry_header_t)`. -/
def dhdrLen : Nat := 18

def encDHdr (h : DHdr) : Bytes :=
  toLE 1 h.idlength ++ (toLE 4 h.datalength ++ (toLE 4 h.previous ++ (toLE 4 h.integrity ++
  (toLE 1 h.flags ++ toLE 4 h.timestamp))))

def decDHdr (b : Bytes) : DHdr where
  idlength := fromLE (pread b 0 1)
  datalength := fromLE (pread b 1 4)
  previous := fromLE (pread b 5 4)
  integrity := fromLE (pread b 9 4)
  flags := fromLE (pread b 13 1)
  timestamp := fromLE (pread b 14 4)

/-- `index_header_t`, libzdb/index.h:40-48 (packed). -/
structure IHeader where
  magic : Bytes
  version : Nat
  created : Nat
  opened : Nat
  fileid : Nat
  mode : Nat
deriving DecidableEq, Repr

/-- `sizeof(index_header_t)`. -/
def ihdrLen : Nat := 29

def encIHeader (h : IHeader) : Bytes :=
  h.magic ++ (toLE 4 h.version ++ (toLE 8 h.created ++ (toLE 8 h.opened ++
  (toLE 4 h.fileid ++ toLE 1 h.mode))))

def decIHeader (b : Bytes) : IHeader where
  magic := pread b 0 4
  version := fromLE (pread b 4 4)
  created := fromLE (pread b 8 8)
  opened := fromLE (pread b 16 8)
  fileid := fromLE (pread b 24 4)
  mode := fromLE (pread b 28 1)

/-- `"IDX0"`, libzdb/index_loader.c:89. -/
def idxMagic : Bytes := [0x49, 0x44, 0x58, 0x30]

/-- `"DAT0"`, libzdb/data.c:266. -/
def datMagic : Bytes := [0x44, 0x41, 0x54, 0x30]

/-- `index_initialize`, libzdb/index_loader.c:86-104: the header of a fresh index file.
    `ZDB_IDXFILE_VERSION` is 4 (libzdb/libzdb.h). -/
def freshIHeader (fileid mode : Nat) : IHeader :=
  { magic := idxMagic, version := 4, created := 0, opened := 0, fileid := fileid, mode := mode }

/-- `data_header_t`, libzdb/data.h:38-45 (packed). -/
structure DFHeader where
  magic : Bytes
  version : Nat
  created : Nat
  opened : Nat
  fileid : Nat
deriving DecidableEq, Repr

/-- `sizeof(data_header_t)`. -/
def dfhdrLen : Nat := 28

def encDFHeader (h : DFHeader) : Bytes :=
  h.magic ++ (toLE 4 h.version ++ (toLE 8 h.created ++ (toLE 8 h.opened ++ toLE 4 h.fileid)))

def decDFHeader (b : Bytes) : DFHeader where
  magic := pread b 0 4
  version := fromLE (pread b 4 4)
  created := fromLE (pread b 8 8)
  opened := fromLE (pread b 16 8)
  fileid := fromLE (pread b 24 4)

/-- `data_initialize`, libzdb/data.c:263-270: header written at the start of a data file.
    `ZDB_DATAFILE_VERSION` is 3. -/
def freshDFHeader (fileid : Nat) : DFHeader :=
  { magic := datMagic, version := 3, created := 0, opened := 0, fileid := fileid }

/-- `index_bkey_t`, libzdb/index.h:239-246 (packed): the SCAN cursor. -/
structure BKey where
  idlength : Nat
  fileid : Nat
  length : Nat
  idxoffset : Nat
  crc : Nat
deriving DecidableEq, Repr

def bkeyLen : Nat := 17

def encBKey (k : BKey) : Bytes :=
  toLE 1 k.idlength ++ (toLE 4 k.fileid ++ (toLE 4 k.length ++ (toLE 4 k.idxoffset ++ toLE 4 k.crc)))

def decBKey (b : Bytes) : BKey where
  idlength := fromLE (pread b 0 1)
  fileid := fromLE (pread b 1 4)
  length := fromLE (pread b 5 4)
  idxoffset := fromLE (pread b 9 4)
  crc := fromLE (pread b 13 4)

/-- `index_ekey_t`, libzdb/index.h:250-254 (packed): the HISTORY cursor. -/
structure EKey where
  indexid : Nat
  offset : Nat
deriving DecidableEq, Repr

def ekeyLen : Nat := 8

def encEKey (k : EKey) : Bytes := toLE 4 k.indexid ++ toLE 4 k.offset

def decEKey (b : Bytes) : EKey where
  indexid := fromLE (pread b 0 4)
  offset := fromLE (pread b 4 4)

/-- Field ranges under which an item is stored exactly. -/
def Item.WF (it : Item) : Prop :=
  it.idlength = it.id.length ∧ it.id.length < 256 ∧ it.offset < 2 ^ 32 ∧ it.length < 2 ^ 32 ∧
  it.previous < 2 ^ 32 ∧ it.flags < 256 ∧ it.dataid < 2 ^ 32 ∧ it.timestamp < 2 ^ 32 ∧
  it.crc < 2 ^ 32 ∧ it.parentid < 2 ^ 32 ∧ it.parentoff < 2 ^ 32

def DHdr.WF (h : DHdr) : Prop :=
  h.idlength < 256 ∧ h.datalength < 2 ^ 32 ∧ h.previous < 2 ^ 32 ∧ h.integrity < 2 ^ 32 ∧
  h.flags < 256 ∧ h.timestamp < 2 ^ 32

def IHeader.WF (h : IHeader) : Prop :=
  h.magic.length = 4 ∧ h.version < 2 ^ 32 ∧ h.created < 2 ^ 64 ∧ h.opened < 2 ^ 64 ∧
  h.fileid < 2 ^ 32 ∧ h.mode < 256

def DFHeader.WF (h : DFHeader) : Prop :=
  h.magic.length = 4 ∧ h.version < 2 ^ 32 ∧ h.created < 2 ^ 64 ∧ h.opened < 2 ^ 64 ∧
  h.fileid < 2 ^ 32

def BKey.WF (k : BKey) : Prop :=
  k.idlength < 256 ∧ k.fileid < 2 ^ 32 ∧ k.length < 2 ^ 32 ∧ k.idxoffset < 2 ^ 32 ∧ k.crc < 2 ^ 32

def EKey.WF (k : EKey) : Prop := k.indexid < 2 ^ 32 ∧ k.offset < 2 ^ 32

end Zdb
