/-
The tool that builds the index files from the data files: tools/index-rebuild/index-rebuild.c.
-/
import Verif.Model.Loader
namespace Zdb

/-- `index_jump_next`, libzdb/index.c:341-399, without a hook: the index part of `jump`. -/
def indexJump (s : Store) : Store :=
  let id := (s.indexid + 1) % 2 ^ 32
  let s := { s with nextid := 0 }
  let s := indexSetId s id
  let s := { s with ifiles := indexCreate s.ifiles id s.mode.byte }
  { s with seqmap := s.seqmap.map (· ++ [(s.nextentry, id)]) }

/-- `index_set`, libzdb/index_set.c:416-424, all writes succeeding. -/
def indexSet (br : Branches) (s : Store) (u : Nat) (r : SetReq) (existing : Option Entry) : Branches × Store × Bool :=
  match s.mode, existing with
  | .user, some ex => updateUser br s u Io.good r ex
  | .user, none => insertUser br s u Io.good r
  | .seq, some ex => let (s, ok) := updateSeq s u Io.good r ex; (br, s, ok)
  | .seq, none => let (s, ok) := insertSeq s u Io.good r; (br, s, ok)

/-- How a pass over one data file ends. -/
inductive PassRes where
  /-- a number of entries is returned -/
  | ok (br : Branches) (s : Store)
  /-- -1 is returned: the index could not be written -/
  | stop (br : Branches) (s : Store)
  /-- `zdb_diep`: the process exits -/
  | die
  /-- undefined behaviour: a NULL entry is dereferenced -/
  | null

/-- One record, tools/index-rebuild/index-rebuild.c:85-117.  `pos` is the offset of the record, `s.dataid` is
    `zdbdata->dataid`.  The flags of the record other than the deleted one are left out: no function writes them.
    `none`: `index_entry_delete` is called with NULL. -/
def rebuildRecord (br : Branches) (s : Store) (u : Nat) (h : DHdr) (id : Bytes) (pos : Nat) : Option (Branches × Store × Bool) :=
  let existing := indexGet br s u id
  if isDeleted h.flags then
    match existing with
    | none => none
    | some e => some (indexDelete br s u Io.good e)
  else
    some (indexSet br s u { id := id, offset := pos, length := h.datalength, crc := h.integrity, dataid := s.dataid,
                            timestamp := h.timestamp } existing)

/-- The loop of `index_rebuild_pass`, tools/index-rebuild/index-rebuild.c:56-130, on the contents `f` of the data file.
    `limit` is the value of `--time`, 0 if it is not given.  Each turn advances by at least 18 bytes, so that the length of
    the file plus one is enough `fuel`. -/
def rebuildPass (limit u : Nat) (f : Bytes) : Nat → Branches → Store → Nat → PassRes
  | 0, br, s, _ => .ok br s
  | fuel + 1, br, s, pos =>
    match readExact f pos 1 with
    | none => .ok br s
    | some b =>
      match readExact f pos (dhdrLen + fromLE b) with
      | none => .die
      | some r =>
        let h := decDHdr r
        if limit > 0 ∧ h.timestamp > limit then .ok br s
        else
          match rebuildRecord br s u h (r.drop dhdrLen) pos with
          | none => .null
          | some (br, s, ok) =>
            if ok then rebuildPass limit u f fuel br s (pos + dhdrLen + fromLE b + h.datalength)
            else .stop br s

/-- How the tool ends. -/
inductive RebuildRes where
  /-- the message `index rebuilt` -/
  | done (br : Branches) (s : Store)
  | die
  | null

/-- The loop of `index_rebuild`, tools/index-rebuild/index-rebuild.c:133-154, with `index_data_jump_to` (lines 21-54).  The tool
    opens each file of `ids` in turn; it ends at the first one that is missing or has no valid header
    (`data_descriptor_load`, `data_descriptor_validate`, libzdb/data.c:177-209). -/
def rebuildLoop (limit u : Nat) : List Nat → Branches → Store → RebuildRes
  | [], br, s => .done br s
  | id :: ids, br, s =>
    match s.dfiles[id]? with
    | none => .done br s
    | some f =>
      match readExact f 0 dfhdrLen with
      | none => .done br s
      | some b =>
        if (decDFHeader b).magic ≠ datMagic ∨ (decDFHeader b).version ≠ 3 then .done br s
        else
          let s := { s with dataid := id }
          let s := if id > 0 then indexJump s else s
          match rebuildPass limit u f (f.length + 1) br s dfhdrLen with
          | .ok br s => rebuildLoop limit u ids br s
          | .stop br s => .done br s
          | .die => .die
          | .null => .null

/-- `main`, tools/index-rebuild/index-rebuild.c:251-306: `zdb_index_init` on a directory without index files, then
    `index_rebuild`.  There is no file after the last data file, so that the loop ends. -/
def rebuild (m : Mode) (limit u : Nat) (dfiles : List Bytes) : RebuildRes :=
  match loadLoop (some m) u [0] (fun _ => []) ((List.range 1).foldl indexSetId (initRoot (some m) [] dfiles)) with
  | .ok br s => rebuildLoop limit u (List.range (dfiles.length + 1)) br s
  | _ => .die

end Zdb
