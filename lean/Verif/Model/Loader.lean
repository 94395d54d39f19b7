/-
Loading a namespace from its files: libzdb/index_loader.c, data.c (init), namespace.c (reload).
-/
import Verif.Model.Store
namespace Zdb

/-- Outcome of loading. -/
inductive LoadRes where
  | ok (br : Branches) (s : Store)
  /-- the process stops with an error message -/
  | exit
  /-- memory is read outside the buffer holding the file -/
  | ub

/-- Cutting the buffer into items, `index_load_file`, libzdb/index_loader.c:296-366: each turn reads an
    `index_item_t` at the seeker and advances by its size.  `none`: the last item goes past the end
    of the buffer.  Every turn advances by at least 34 bytes, so the buffer length plus one
    is enough `fuel`. -/
def parseItems : Nat → Bytes → Option (List Item)
  | 0, _ => none
  | fuel + 1, b =>
    if b = [] then some []
    else
      let n := itemHdr + fromLE (pread b 0 1)
      if b.length < n then none
      else (parseItems fuel (b.drop n)).map (decItem (b.take n) :: ·)

/-- The entry built from an item, libzdb/index_loader.c:305-318; `dataid` is not set there. -/
def sourceEntry (s : Store) (u off : Nat) (it : Item) : Entry where
  ns := u
  id := it.id
  offset := it.offset
  idxoffset := off % 2 ^ 32
  length := it.length
  flags := it.flags
  dataid := 0
  indexid := s.indexid
  crc := it.crc
  parentid := it.parentid
  parentoff := it.parentoff
  timestamp := it.timestamp

/-- One turn of the loop of `index_load_file` in user mode, libzdb/index_loader.c:334-350 with
    `index_set_memory` (libzdb/index_set.c:427-449) and `index_entry_delete_memory`
    (libzdb/index.c:505-534). -/
def replayUser (br : Branches) (s : Store) (u off : Nat) (it : Item) : Branches × Store :=
  let src := sourceEntry s u off it
  match indexGet br s u it.id with
  | some ex =>
    let e := updatedEntry s ex src
    let s := updateStats s ex src
    if isDeleted e.flags then
      (brRemove br u e.id, { s with entries := sub64 s.entries 1, datasize := sub64 s.datasize e.length })
    else (brUpdate br u e.id e, s)
  | none =>
    let (br, s) := insertMemUser br s u src
    if isDeleted src.flags then
      (brRemove br u it.id, { s with entries := sub64 s.entries 1, datasize := sub64 s.datasize src.length })
    else (br, s)

/-- The same turn in sequential mode: only counters change (`index_update_memory_handler_sequential`
    with no previous entry, libzdb/index_set.c:271-285, then `index_entry_delete_memory`). -/
def replaySeq (s : Store) (it : Item) : Store :=
  let s := { s with nextentry := s.nextentry + 1, nextid := (s.nextid + 1) % 2 ^ 32,
                    entries := s.entries + 1, datasize := s.datasize + it.length }
  if isDeleted it.flags then { s with entries := sub64 s.entries 1, datasize := sub64 s.datasize it.length }
  else s

/-- One turn of the loop, libzdb/index_loader.c:328-354: the map of first ids gets a pair at the
    first item of the file, `previous` follows the seeker. -/
def replayItem (br : Branches) (s : Store) (u off : Nat) (it : Item) : Branches × Store :=
  let s := if off = ihdrLen then { s with seqmap := s.seqmap.map (· ++ [(s.nextentry, s.indexid)]) } else s
  let (br, s) := match s.mode with
    | .user => replayUser br s u off it
    | .seq => (br, replaySeq s it)
  (br, { s with iprev := off })

/-- All items of a file. -/
def replayItems (br : Branches) (s : Store) (u off : Nat) : List Item → Branches × Store
  | [] => (br, s)
  | it :: its =>
    let (br, s) := replayItem br s u off it
    replayItems br s u (off + itemHdr + it.idlength) its

/-- `index_rehash`, libzdb/index_loader.c:557-587, as far as the map of first ids goes. -/
def rehash (s : Store) : Store :=
  let m := match s.mode with
    | .seq => some (s.seqmap.getD [])
    | .user => s.seqmap
  { s with seqmap := if m = some [] then some [(0, 0)] else m }

/-- What `index_load_file` returns. -/
inductive FileRes where
  /-- a non-zero length: go on with the next file -/
  | next (br : Branches) (s : Store)
  /-- zero: the caller stops here -/
  | stop (br : Branches) (s : Store)
  | exit
  | ub

/-- Mode field of an index header applied to the root, libzdb/index_loader.c:236-240. -/
def applyMode (m : Mode) (b : Nat) : Mode :=
  if b = 1 then .seq else if b = 0 then .user else m

/-- The part of `index_load_file` after the header was read or created, libzdb/index_loader.c:230-377.
    `cfg` is the mode in the settings, `none` for `ZDB_MODE_MIX`; `f` is the file with its header. -/
def loadBody (cfg : Option Mode) (br : Branches) (s : Store) (u : Nat) (f : Bytes) (fresh : Bool) : FileRes :=
  let h := decIHeader f
  if h.magic ≠ idxMagic ∨ h.version ≠ 4 then .exit
  else
    let s := rehash { s with mode := applyMode s.mode h.mode }
    let f := pwrite f 0 (encIHeader { h with opened := 0 })
    let s := { s with ifiles := if s.indexid < s.ifiles.length then s.ifiles.set s.indexid f
                                else s.ifiles ++ [f] }
    if cfg.any (fun m => m.byte ≠ h.mode) then .exit
    else
      match parseItems (f.length + 1) (f.drop ihdrLen) with
      | none => .ub
      | some its =>
        let (br, s) := replayItems br { s with nextid := 0 } u ihdrLen its
        if fresh then .stop br s else .next br s

/-- `index_load_file` on file `s.indexid`, libzdb/index_loader.c:183-384, on a writable file system
    without read errors. -/
def loadFile (cfg : Option Mode) (br : Branches) (s : Store) (u : Nat) : FileRes :=
  let f := (s.ifiles[s.indexid]?).getD []
  if f.length = 0 then
    if s.indexid > 0 then .stop br s
    else loadBody cfg br s u (encIHeader (freshIHeader 0 s.mode.byte)) true
  else if f.length < ihdrLen then .exit
  else loadBody cfg br s u f false

/-- The loop of `index_internal_load`, libzdb/index_loader.c:430-440. -/
def loadLoop (cfg : Option Mode) (u : Nat) : List Nat → Branches → Store → LoadRes
  | [], br, s => .ok br s
  | id :: ids, br, s =>
    match loadFile cfg br (indexSetId s id) u with
    | .next br s => loadLoop cfg u ids br s
    | .stop br s => .ok br s
    | .exit => .exit
    | .ub => .ub

/-- `index_init_lazy` and the first `index_rehash` (libzdb/index_loader.c:522-554, 590-600), with
    `data_init_lazy` (libzdb/data.c:687-706): counters at zero, an empty bitmap.
    `ZDB_DEFAULT_MIX_MODE` is the user-key mode. -/
def initRoot (cfg : Option Mode) (ifiles dfiles : List Bytes) : Store :=
  rehash
    { mode := cfg.getD .user, ifiles := ifiles, dfiles := dfiles, indexid := 0, dataid := 0,
      nextentry := 0, nextid := 0, iprev := 0, dprev := 0, entries := 0, datasize := 0, seqmap := none,
      dirty := dirtyResize { maxid := 0, map := [], oob := false } 1 }

/-- `index_availity_check`, libzdb/index_loader.c:387-404: ids are tried in turn (which grows the dirty
    bitmap) until a file is missing; at most `2^32 - 1` files are considered. -/
def maxFiles (ifiles : List Bytes) : Nat := min ifiles.length (2 ^ 32 - 1)

/-- `namespace_load_lazy`, libzdb/namespace.c:224-231: `index_init` (libzdb/index_loader.c:590-615) then
    `data_init` with the index id. -/
def loadNs (cfg : Option Mode) (br : Branches) (u : Nat) (ifiles dfiles : List Bytes) : LoadRes :=
  let n := maxFiles ifiles
  let s := (List.range (n + 1)).foldl indexSetId (initRoot cfg ifiles dfiles)
  let r := loadLoop cfg u (if n > 0 then List.range n else [0]) br s
  match r with
  | .ok br s => .ok br (dataOpen s s.indexid)
  | r => r

/-- `namespace_reload`, libzdb/namespace.c:605-622.  `index_clean_namespace` does nothing in a mode without
    branches (libzdb/index.c:716-719). -/
def reloadNs (cfg : Option Mode) (br : Branches) (u : Nat) (s : Store) : LoadRes :=
  let br := match s.mode with
    | .user => brClean br u
    | .seq => br
  loadNs cfg br u s.ifiles s.dfiles

/-- A namespace created with no files (`namespace_load` on a new directory, libzdb/namespace.c:275-287). -/
def freshNs (cfg : Option Mode) (br : Branches) (u : Nat) : LoadRes := loadNs cfg br u [] []

/-- `index_switch_mode`, libzdb/index_loader.c:657-691: the header of file 0 is rewritten with the
    current mode. -/
def switchMode (s : Store) : Store :=
  match s.ifiles[0]? with
  | none => s
  | some f =>
    match readExact f 0 ihdrLen with
    | none => s
    | some h =>
      { s with ifiles := writeFileAt s.ifiles 0 0 (encIHeader { decIHeader h with mode := s.mode.byte }) }

end Zdb
