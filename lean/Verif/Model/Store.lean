/-
One namespace: its index and data files, its counters, and the in-memory table shared by all
namespaces.  libzdb/index.c, index_set.c, index_get.c, index_seq.c, index_branch.c, data.c.
-/
import Verif.Model.Layout
import Verif.Model.Crc
namespace Zdb

/-- `index_mode_t`, libzdb/index.h: `ZDB_MODE_KEY_VALUE` = 0, `ZDB_MODE_SEQUENTIAL` = 1.  The two other
    values are marked unused in the source and cannot be selected by any command. -/
inductive Mode where
  | user
  | seq
deriving DecidableEq, Repr

def Mode.byte : Mode → Nat
  | .user => 0
  | .seq => 1

/-- `index_entry_t`, libzdb/index.h:77-102.  `ns` stands for the namespace pointer, `idlength` is
    `id.length`, the `next` pointer is the list structure of the branch. -/
structure Entry where
  ns : Nat
  id : Bytes
  offset : Nat
  idxoffset : Nat
  length : Nat
  flags : Nat
  dataid : Nat
  indexid : Nat
  crc : Nat
  parentid : Nat
  parentoff : Nat
  timestamp : Nat
deriving DecidableEq, Repr

/-- `INDEX_ENTRY_DELETED` = 1 (libzdb/index.h:72-75) tested on a flags field. -/
def isDeleted (flags : Nat) : Bool := flags % 2 == 1

/-- `flags |= INDEX_ENTRY_DELETED`. -/
def setDeleted (flags : Nat) : Nat := flags ||| 1

/-! ### in-memory branches (libzdb/index_branch.c) -/

/-- `index_branch_t **branches`: branch number to the entries of the branch, in list order. -/
abbrev Branches := Nat → List Entry

/-- `index_key_hash`, libzdb/index.c:419-421, with the default `buckets_mask` `(1 << 24) - 1`
    (libzdb/index_branch.c:28). -/
def keyHash (id : Bytes) : Nat := crc32 id &&& (2 ^ 24 - 1)

/-- The test in the loop of `index_entry_get`, libzdb/index.c:434-440: same length, same
    namespace, same bytes. -/
def Entry.is (u : Nat) (id : Bytes) (e : Entry) : Bool := e.ns == u && e.id == id

/-- `index_entry_get`, libzdb/index.c:424-445: first match in the branch. -/
def brGet (br : Branches) (u : Nat) (id : Bytes) : Option Entry :=
  (br (keyHash id)).find? (Entry.is u id)

/-- `index_branch_append`, libzdb/index_branch.c:105-127. -/
def brAppend (br : Branches) (e : Entry) : Branches :=
  fun h => if h = keyHash e.id then br h ++ [e] else br h

/-- Replace the first element satisfying `p`. -/
def replaceFirst (p : Entry → Bool) (e' : Entry) : List Entry → List Entry
  | [] => []
  | e :: es => if p e then e' :: es else e :: replaceFirst p e' es

/-- Writing through the pointer returned by `index_entry_get`. -/
def brUpdate (br : Branches) (u : Nat) (id : Bytes) (e' : Entry) : Branches :=
  fun h => if h = keyHash id then replaceFirst (Entry.is u id) e' (br h) else br h

/-- `index_branch_get_previous` + `index_branch_remove` + `free` on the pointer returned by
    `index_entry_get` (libzdb/index.c:515-531): the entry is unlinked. -/
def brRemove (br : Branches) (u : Nat) (id : Bytes) : Branches :=
  fun h => if h = keyHash id then (br h).eraseP (Entry.is u id) else br h

/-- `index_clean_namespace`, libzdb/index.c:715-771: every entry of the namespace is unlinked. -/
def brClean (br : Branches) (u : Nat) : Branches :=
  fun h => (br h).filter (fun e => !(e.ns == u))

/-! ### dirty bitmap (libzdb/index.c:800-849) -/

/-- `index_dirty_t`, libzdb/index.h.  `oob` records an access outside the map, which would be
    undefined behaviour. -/
structure Dirty where
  maxid : Nat
  map : Bytes
  oob : Bool
deriving DecidableEq, Repr

/-- `index_dirty_resize`, libzdb/index.c:800-829.  `realloc` leaves the new bytes
    uninitialised (here 0xFF) and only the last one is zeroed. -/
def dirtyResize (d : Dirty) (maxid : Nat) : Dirty :=
  if maxid ≤ d.maxid then d
  else
    let bytes := (maxid + 8) / 8
    if bytes ≤ d.map.length then { d with maxid := maxid }
    else { d with
      maxid := maxid
      map := d.map ++ List.replicate (bytes - d.map.length - 1) 0xFF ++ [0] }

/-- `index_dirty_set(root, id, 1)`, libzdb/index.c:840-849. -/
def dirtySet (d : Dirty) (id : Nat) : Dirty :=
  match d.map[id / 8]? with
  | some b => { d with map := d.map.set (id / 8) (b ||| (1 <<< UInt8.ofNat (id % 8))) }
  | none => { d with oob := true }

/-- `index_dirty_reset`, libzdb/index.c:832-837. -/
def dirtyReset (d : Dirty) : Dirty := { d with map := d.map.map (fun _ => 0) }

/-- `index_dirty_get`, libzdb/index.c:852-857, on an id inside the map. -/
def dirtyGet (d : Dirty) (id : Nat) : Bool :=
  match d.map[id / 8]? with
  | some b => b &&& (1 <<< UInt8.ofNat (id % 8)) != 0
  | none => false

/-- `index_dirty_list`, libzdb/index.c:859-883. -/
def dirtyList (d : Dirty) : List Nat := (List.range (8 * d.map.length)).filter (dirtyGet d)

/-! ### files -/

/-- `lseek(fd, 0, SEEK_END)` on file `i`. -/
def fileLen (fs : List Bytes) (i : Nat) : Nat :=
  match fs[i]? with
  | some f => f.length
  | none => 0

/-- `write` on a descriptor of file `i` opened with `O_APPEND`. -/
def appendFile (fs : List Bytes) (i : Nat) (b : Bytes) : List Bytes := fs.modify i (· ++ b)

/-- `lseek` + `write` on a descriptor of file `i` opened without `O_APPEND`. -/
def writeFileAt (fs : List Bytes) (i off : Nat) (b : Bytes) : List Bytes :=
  fs.modify i (fun f => pwrite f off b)

/-- `-=` on a `size_t` (libzdb/index.c:507-508, libzdb/index_set.c:247, 355): it wraps instead of stopping at zero. -/
def sub64 (a b : Nat) : Nat := if b ≤ a then a - b else a + (2 ^ 64 - b)

/-- Without a wrap it is the subtraction. -/
theorem sub64_le {a b : Nat} (h : b ≤ a) : sub64 a b = a - b := if_pos h

/-- The index and data roots of a namespace together with its files.
    `index_root_t` (libzdb/index.h:179-219) and `data_root_t` (libzdb/data.h).
    The counters `entries` and `datasize` are representatives modulo 2^64 of the 64-bit ones of the
    source: additions are not reduced, subtractions wrap (`sub64`), and the comparison that uses
    them reduces (`overQuota`).  `stats.size` (memory usage
    estimate, only printed by NSINFO) is left out. -/
structure Store where
  mode : Mode
  /-- contents of `i0`, `i1`, ... -/
  ifiles : List Bytes
  /-- contents of `d0`, `d1`, ... -/
  dfiles : List Bytes
  indexid : Nat
  dataid : Nat
  nextentry : Nat
  nextid : Nat
  /-- `index_root_t.previous` -/
  iprev : Nat
  /-- `data_root_t.previous` -/
  dprev : Nat
  entries : Nat
  datasize : Nat
  /-- `index_root_t.seqid`: (first id, file) pairs, `none` when not allocated -/
  seqmap : Option (List (Nat × Nat))
  dirty : Dirty
deriving DecidableEq, Repr

/-- The outcome of the five kinds of `write` a SET or DEL can issue. -/
structure Io where
  /-- data record header, libzdb/data.c:615 -/
  dhdr : WriteFault := none
  /-- data payload, libzdb/data.c:623 -/
  dpay : WriteFault := none
  /-- rewriting an index item with the deleted flag, libzdb/index.c:572 -/
  iflag : WriteFault := none
  /-- appending an index item, libzdb/index_set.c:154 -/
  iapp : WriteFault := none
  /-- overwriting a sequential item, libzdb/index_set.c:98 -/
  iover : WriteFault := none

/-- All writes succeed. -/
def Io.good : Io := {}

/-! ### data files (libzdb/data.c) -/

/-- `data_insert`, libzdb/data.c:594-633.  Returns the offset of the record, 0 on failure. -/
def dataInsert (s : Store) (io : Io) (id payload : Bytes) (flags crc ts : Nat) : Store × Nat :=
  let off := fileLen s.dfiles s.dataid
  let hdr := encDHdr { idlength := id.length, datalength := payload.length, previous := s.dprev,
                       integrity := crc, flags := flags, timestamp := ts } ++ id
  if !io.dhdr.ok then
    ({ s with dfiles := appendFile s.dfiles s.dataid (io.dhdr.cut hdr) }, 0)
  else if !io.dpay.ok then
    ({ s with dfiles := appendFile s.dfiles s.dataid (hdr ++ io.dpay.cut payload) }, 0)
  else
    ({ s with dfiles := appendFile s.dfiles s.dataid (hdr ++ payload), dprev := off }, off)

/-- `data_get_real` / `data_get`, libzdb/data.c:449-528.  `none` is a NULL buffer.  A zero length asks
    for the length stored in the record header; if that is zero too (or cannot be read)
    the result is an empty non-NULL buffer. -/
def dataGet (s : Store) (off length dataid idlength : Nat) : Option Bytes :=
  match s.dfiles[dataid]? with
  | none => none
  | some f =>
    let length' :=
      if length = 0 then
        match readExact f off dhdrLen with
        | some h => (decDHdr h).datalength
        | none => 0
      else length
    if length' = 0 then some []
    else readExact f (off + dhdrLen + idlength) length'

/-- `data_check_real` / `data_check`, libzdb/data.c:533-588: 1, 0, or -1 if a read fails. -/
def dataCheck (s : Store) (off dataid : Nat) : Int :=
  match s.dfiles[dataid]? with
  | none => -1
  | some f =>
    match readExact f off dhdrLen with
    | none => -1
    | some h =>
      let h := decDHdr h
      match readExact f (off + dhdrLen + h.idlength) h.datalength with
      | none => -1
      | some p => if crc32 p = h.integrity then 1 else 0

/-- The loop of `data_open_final`, libzdb/data.c:306-311: offset of the last record header met, `last`
    if none.  `fuel` bounds the number of turns; each turn advances by at least 18 bytes, so
    the file length is enough. -/
def dataScanLast : Nat → Bytes → Nat → Nat → Nat
  | 0, _, _, last => last
  | fuel + 1, f, pos, last =>
    match readExact f pos dhdrLen with
    | none => last
    | some h =>
      let h := decDHdr h
      dataScanLast fuel f (pos + dhdrLen + (h.datalength + h.idlength) % 2 ^ 32) pos

/-- `data_initialize` (libzdb/data.c:245-276) on file `id`: the header is written at offset 0 of the
    file, which is created if missing.  File ids are only ever used consecutively, so a missing
    file is the next one. -/
def dataInitialize (fs : List Bytes) (id : Nat) : List Bytes :=
  let hdr := encDFHeader (freshDFHeader id)
  if id < fs.length then writeFileAt fs id 0 hdr else fs ++ [hdr]

/-- `data_initialize` followed by `data_open_final` (libzdb/data.c:283-315), as in `data_jump_next`
    (413-447) and `data_init` (708-718). -/
def dataOpen (s : Store) (id : Nat) : Store :=
  let fs := dataInitialize s.dfiles id
  let dprev :=
    match fs[id]? with
    | some f => dataScanLast f.length f dfhdrLen s.dprev
    | none => s.dprev
  { s with dfiles := fs, dataid := id, dprev := dprev }

/-! ### index files (libzdb/index.c, index_set.c) -/

/-- `index_set_id`, libzdb/index.c:167-173. -/
def indexSetId (s : Store) (id : Nat) : Store :=
  { s with indexid := id, dirty := dirtyResize s.dirty id }

/-- `index_open_final` + `index_initialize` in `index_jump_next` (libzdb/index.c:376-377): the file is
    created if missing and the header is appended (`O_APPEND`). -/
def indexCreate (fs : List Bytes) (id mode : Nat) : List Bytes :=
  let hdr := encIHeader (freshIHeader id mode)
  if id < fs.length then appendFile fs id hdr else fs ++ [hdr]

/-- `index_jump_next` (libzdb/index.c:341-399) followed by `data_jump_next` with the new id
    (zdbd/commands_set.c:370-373, zdbd/commands_namespace.c:585-598).  No hook is configured: the hook
    call and the dirty reset that depends on its result are in `Model/Backup`. -/
def jump (s : Store) : Store :=
  let id := (s.indexid + 1) % 2 ^ 32
  let s := { s with nextid := 0 }
  let s := indexSetId s id
  let s := { s with ifiles := indexCreate s.ifiles id s.mode.byte }
  let s := { s with seqmap := s.seqmap.map (· ++ [(s.nextentry, id)]) }
  dataOpen s id

/-- `index_item_from_set`, libzdb/index_set.c:116-134.  The id given by the caller is always the
    id of the entry.  Storing in the structure truncates (see `encItem`). -/
def itemOf (previous : Nat) (e : Entry) : Item where
  idlength := e.id.length
  offset := e.offset
  length := e.length
  previous := previous
  flags := e.flags
  dataid := e.dataid
  timestamp := e.timestamp
  crc := e.crc
  parentid := e.parentid
  parentoff := e.parentoff
  id := e.id

/-- `index_append_entry_on_disk`, libzdb/index_set.c:136-164.  Returns the entry as modified and
    whether the write succeeded. -/
def appendEntry (s : Store) (io : Io) (e : Entry) : Store × Entry × Bool :=
  let eof := fileLen s.ifiles s.indexid
  let e := { e with idxoffset := eof % 2 ^ 32, indexid := s.indexid }
  let item := itemOf s.iprev e
  let s := { s with
    iprev := eof
    ifiles := appendFile s.ifiles s.indexid (io.iapp.cut (encItem item)) }
  if io.iapp.ok then (s, e, true)
  else (s, { e with flags := setDeleted e.flags }, false)

/-- `index_item_get_disk`, libzdb/index.c:453-483. -/
def itemGetDisk (s : Store) (indexid offset idlength : Nat) : Option Item :=
  match s.ifiles[indexid]? with
  | none => none
  | some f => (readExact f offset (itemHdr + idlength)).map decItem

/-- `index_entry_delete_disk`, libzdb/index.c:536-589, disk part.  The caller also sets the
    flag on the entry in memory, whatever the outcome.  `true` is success. -/
def deleteDisk (s : Store) (io : Io) (e : Entry) : Store × Bool :=
  let flags := setDeleted e.flags
  match s.ifiles[e.indexid]? with
  | none => (s, false)
  | some f =>
    match readExact f e.idxoffset (itemHdr + e.id.length) with
    | none => (s, false)
    | some b =>
      let b' := io.iflag.cut (setItemFlags b flags)
      let s := { s with ifiles := writeFileAt s.ifiles e.indexid e.idxoffset b' }
      if io.iflag.ok then ({ s with dirty := dirtySet s.dirty e.indexid }, true)
      else (s, false)

/-! ### sequential ids (libzdb/index_seq.c) -/

/-- The loop of `index_seqmap_from_seq`, libzdb/index_seq.c:16-38.  `none` stands for a read outside
    the map or for running out of `fuel` (shown impossible for a non-empty map). -/
def seqSearchLoop (m : List (Nat × Nat)) (id : Nat) : Nat → Nat → Nat → Option (Nat × Nat)
  | 0, _, _ => none
  | fuel + 1, lower, higher =>
    if lower < higher then
      let mid := (lower + higher) / 2
      match m[mid]? with
      | none => none
      | some (smid, fmid) =>
        if id = smid then some (smid, fmid)
        else if id < smid then seqSearchLoop m id fuel lower mid
        else if lower + 1 ≥ m.length then m[lower]?
        else
          match m[lower]?, m[lower + 1]? with
          | some (slow, flow), some (snext, _) =>
            if slow < id ∧ snext > id then some (slow, flow)
            else seqSearchLoop m id fuel mid higher
          | _, _ => none
    else m[lower]?

/-- `index_seqmap_from_seq` / `index_fileid_from_seq`, libzdb/index_seq.c:11-48. -/
def seqSearch (m : List (Nat × Nat)) (id : Nat) : Option (Nat × Nat) :=
  seqSearchLoop m id (2 * m.length + 2) 0 m.length

/-- `index_seq_offset`, libzdb/index_seq.c:67-82 (`size_t` arithmetic). -/
def seqOffset (relative : Nat) : Nat := (29 + relative * 42) % 2 ^ 64

/-- `id - seqmap->seqid` in 64-bit unsigned arithmetic, libzdb/index_get.c:31, libzdb/index_set.c:71. -/
def seqRelative (id first : Nat) : Nat := (id + 2 ^ 64 - first) % 2 ^ 64

/-- `index_get_handler_sequential`, libzdb/index_get.c:16-59.  `relative` and `offset` are
    `uint32_t`.  Copying `item->idlength` bytes out of an 8-byte id over-reads if the length byte is above 8 (only
    possible at a misaligned offset); here it stops at 8, and `seqOverrun` in `Model/Node` makes such a request
    undefined. -/
def seqGet (s : Store) (u : Nat) (id : Bytes) : Option Entry :=
  if id.length ≠ 8 then none
  else
    let key := fromLE id
    match s.seqmap with
    | none => none
    | some m =>
      match seqSearch m key with
      | none => none
      | some (sid, fid) =>
        let relative := seqRelative key sid % 2 ^ 32
        let offset := seqOffset relative % 2 ^ 32
        match itemGetDisk s fid offset 8 with
        | none => none
        | some it =>
          some { ns := u, id := it.id.take it.idlength, offset := it.offset, idxoffset := offset,
                 length := it.length, flags := it.flags, dataid := it.dataid, indexid := fid,
                 crc := it.crc, parentid := it.parentid, parentoff := it.parentoff,
                 timestamp := it.timestamp }

/-- `index_get`, libzdb/index_get.c:61-86: lookup by mode, then the deleted flag. -/
def indexGet (br : Branches) (s : Store) (u : Nat) (id : Bytes) : Option Entry :=
  let e := match s.mode with
    | .user => brGet br u id
    | .seq => seqGet s u id
  match e with
  | some e => if isDeleted e.flags then none else some e
  | none => none

/-! ### index_set -/

/-- The caller-supplied part of an entry (`idxreq` in zdbd/commands_set.c:136-144, 247-255). -/
structure SetReq where
  id : Bytes
  offset : Nat
  length : Nat
  crc : Nat
  dataid : Nat
  timestamp : Nat

/-- The `index_entry_t idxreq` on the stack: fields not named in the initialiser are zero. -/
def SetReq.entry (r : SetReq) (u : Nat) : Entry where
  ns := u
  id := r.id
  offset := r.offset % 2 ^ 32
  idxoffset := 0
  length := r.length % 2 ^ 32
  flags := 0
  dataid := r.dataid
  indexid := 0
  crc := r.crc
  parentid := 0
  parentoff := 0
  timestamp := r.timestamp % 2 ^ 32

/-- `index_insert_memory_handler_memkey`, libzdb/index_set.c:174-213.  The entry in memory gets
    `dataid = root->indexid` whatever `new` says. -/
def insertMemUser (br : Branches) (s : Store) (u : Nat) (new : Entry) : Branches × Store :=
  let e := { new with ns := u, dataid := s.indexid }
  (brAppend br e,
   { s with entries := s.entries + 1, datasize := s.datasize + new.length,
            nextentry := s.nextentry + 1, nextid := (s.nextid + 1) % 2 ^ 32 })

/-- `index_update_memory_handler_memkey`, libzdb/index_set.c:238-269: the fields of the
    existing entry after the update. -/
def updatedEntry (s : Store) (ex new : Entry) : Entry :=
  { ex with
    parentid := ex.indexid
    parentoff := ex.idxoffset
    length := new.length
    offset := new.offset
    flags := new.flags
    dataid := s.indexid
    indexid := new.indexid
    idxoffset := new.idxoffset
    crc := new.crc
    timestamp := new.timestamp }

/-- The counters changed by `index_update_memory_handler_memkey`. -/
def updateStats (s : Store) (ex new : Entry) : Store :=
  { s with datasize := sub64 s.datasize ex.length + new.length }

/-- `index_update_entry_memkey`, libzdb/index_set.c:304-323.  The result of
    `index_entry_delete_disk` is ignored.  `true` is success. -/
def updateUser (br : Branches) (s : Store) (u : Nat) (io : Io) (r : SetReq) (ex : Entry) :
    Branches × Store × Bool :=
  let (s, _) := deleteDisk s io ex
  let new := r.entry u
  let e := updatedEntry s ex new
  let s := updateStats s ex new
  let (s, e, ok) := appendEntry s io e
  (brUpdate br u ex.id e, s, ok)

/-- `index_insert_entry_memkey`, libzdb/index_set.c:370-382. -/
def insertUser (br : Branches) (s : Store) (u : Nat) (io : Io) (r : SetReq) :
    Branches × Store × Bool :=
  let (s, e, ok) := appendEntry s io (r.entry u)
  if ok then
    let (br, s) := insertMemUser br s u e
    (br, s, true)
  else (br, s, false)

/-- `index_insert_entry_sequential` + `index_insert_memory_handler_sequential`,
    libzdb/index_set.c:215-231, 384-396. -/
def insertSeq (s : Store) (u : Nat) (io : Io) (r : SetReq) : Store × Bool :=
  let (s, e, ok) := appendEntry s io (r.entry u)
  if ok then
    ({ s with entries := s.entries + 1, datasize := s.datasize + e.length,
              nextentry := s.nextentry + 1, nextid := (s.nextid + 1) % 2 ^ 32 }, true)
  else (s, false)

/-- Second half of `index_seq_overwrite`, libzdb/index_set.c:76-109: the item at `offset` is replaced, its
    `previous` field is kept. -/
def overwriteItem (s : Store) (io : Io) (e : Entry) (fid offset : Nat) : Store :=
  match s.ifiles[fid]? with
  | none => s
  | some f =>
    match readExact f offset itemHdr with
    | none => s
    | some b =>
      let item := itemOf (decItem b).previous e
      let s := { s with ifiles := writeFileAt s.ifiles fid offset (io.iover.cut (encItem item)) }
      if io.iover.ok then { s with dirty := dirtySet s.dirty fid } else s

/-- `index_seq_overwrite`, libzdb/index_set.c:55-110: `relative` is 64-bit, `offset` 32-bit.  Its result is
    ignored by the caller. -/
def seqOverwrite (s : Store) (io : Io) (e : Entry) : Store :=
  let key := fromLE e.id
  match s.seqmap with
  | none => s
  | some m =>
    match seqSearch m key with
    | none => s
    | some (sid, fid) => overwriteItem s io e fid (seqOffset (seqRelative key sid) % 2 ^ 32)

/-- `index_update_entry_sequential`, libzdb/index_set.c:325-359: append a deleted copy of the
    previous entry, then overwrite the original with the new one. -/
def updateSeq (s : Store) (u : Nat) (io : Io) (r : SetReq) (ex : Entry) : Store × Bool :=
  let (s, ex', ok) := appendEntry s io { ex with flags := setDeleted ex.flags }
  if ok then
    let new := { r.entry u with parentid := s.indexid, parentoff := ex'.idxoffset }
    let s := seqOverwrite s io new
    ({ s with nextid := (s.nextid + 1) % 2 ^ 32, nextentry := s.nextentry + 1,
              datasize := sub64 s.datasize ex.length + new.length }, true)
  else (s, false)

/-! ### deletion -/

/-- `index_entry_delete`, libzdb/index.c:591-601, with `index_entry_delete_memory` (505-534).  In
    memory the entry is flagged first, and unlinked only if the disk part succeeds.  In
    sequential mode there is no memory entry (`root->branches == NULL`). -/
def indexDelete (br : Branches) (s : Store) (u : Nat) (io : Io) (e : Entry) :
    Branches × Store × Bool :=
  let (s, ok) := deleteDisk s io e
  if ok then
    let s := { s with entries := sub64 s.entries 1, datasize := sub64 s.datasize e.length }
    match s.mode with
    | .user => (brRemove br u e.id, s, true)
    | .seq => (br, s, true)
  else
    match s.mode with
    | .user => (brUpdate br u e.id { e with flags := setDeleted e.flags }, s, false)
    | .seq => (br, s, false)

end Zdb
