/-
The tool that copies a namespace without the payloads of deleted entries: tools/quick-compaction/quick-compact.c.

`none` is an exit with an error (`diep`, lines 23-26).  Calls of `open` on new files, `write` and `malloc` succeed, and the
output directories are empty at the start.
-/
import Verif.Model.Text
import Verif.Model.Loader
namespace Zdb.Compact

/-- The files being written (`indexfd`, `datafd`), `dataoffset` and `session->dataprev`
    (tools/quick-compaction/quick-compact.c:43-48, 132-144). -/
structure Work where
  index : Bytes
  data : Bytes
  offset : Nat
  prev : Nat

/-- One turn of the loop of `quick_compact_pass`, tools/quick-compaction/quick-compact.c:178-280, on an item `it` with its id; `d`
    is the data file `fileid`.  An item with another `dataid` makes the tool open `zdb-data-%05d` in the input directory (lines
    227-237); data files are called `d%u` (libzdb/data.c:280), so that the open fails and the tool exits.
    The positions are `uint32_t`. -/
def entry (fileid : Nat) (d : Bytes) (it : Item) (w : Work) : Option Work :=
  let len := if isDeleted it.flags then 0 else it.length
  let out := { it with length := len, offset := w.offset, dataid := fileid }
  if it.dataid ≠ fileid then none
  else
    match readExact d it.offset (dhdrLen + it.idlength + it.length) with
    | none => none
    | some b =>
      let h := decDHdr b
      let h := if len = 0 then { h with datalength := 0, flags := h.flags ||| 2, integrity := 0 } else h
      let h := { h with previous := w.prev }
      some { index := w.index ++ encItem out
             data := w.data ++ (encDHdr h ++ b.drop dhdrLen).take (dhdrLen + it.idlength + len)
             offset := w.data.length % 2 ^ 32
             prev := w.data.length % 2 ^ 32 }

/-- The loop of `quick_compact_pass`, tools/quick-compaction/quick-compact.c:178-280, at offset `off` of the index file `f`.  Each
    turn advances by at least 34 bytes: the length of the file plus one is enough `fuel`. -/
def entries (fileid : Nat) (f d : Bytes) : Nat → Nat → Work → Option Work
  | 0, _, w => some w
  | fuel + 1, off, w =>
    match readExact f off itemHdr with
    | none => some w
    | some b =>
      match readExact f (off + itemHdr) (decItem b).idlength with
      | none => none
      | some id =>
        match entry fileid d { decItem b with id := id } w with
        | none => none
        | some w => entries fileid f d fuel (off + itemHdr + (decItem b).idlength) w

/-- `quick_compact_pass`, tools/quick-compaction/quick-compact.c:132-289: the headers of both files are copied, then the entries. -/
def pass (fileid prev : Nat) (f d : Bytes) : Option Work :=
  match readExact f 0 ihdrLen, readExact d 0 dfhdrLen with
  | some ih, some dh => entries fileid f d (f.length + 1) ihdrLen { index := ih, data := dh, offset := dfhdrLen, prev := prev }
  | _, _ => none

/-- The loop of `quick_compaction`, tools/quick-compaction/quick-compact.c:303-312, on the index and data files from number
    `fileid` on, with `index_data_jump_to` (lines 50-88): it ends at the first number of which a file is missing or the data
    file has no valid header (`data_descriptor_load`, `data_descriptor_validate`, libzdb/data.c:177-209). -/
def loop : Nat → Nat → List (Bytes × Bytes) → Option (List (Bytes × Bytes))
  | _, _, [] => some []
  | fileid, prev, (f, d) :: fs =>
    match readExact d 0 dfhdrLen with
    | none => some []
    | some b =>
      if (decDFHeader b).magic ≠ datMagic ∨ (decDFHeader b).version ≠ 3 then some []
      else
        match pass fileid prev f d with
        | none => none
        | some w => (loop (fileid + 1) w.prev fs).map ((w.index, w.data) :: ·)

/-- `quick_compaction`, tools/quick-compaction/quick-compact.c:291-317: the index and data files written, in the order of their
    numbers.  -/
def compact (ifiles dfiles : List Bytes) : Option (List (Bytes × Bytes)) := loop 0 0 (ifiles.zip dfiles)

/-- `%05d` of a number that is not negative. -/
def dec5 (n : Nat) : Bytes := List.replicate (5 - (decBytes n).length) 48 ++ decBytes n

/-- The files the tool leaves in the index directory of the namespace, with their contents: `quick_descriptor_copy`
    (tools/quick-compaction/quick-compact.c:104-118) writes the descriptor, `quick_compact_pass` (line 147) the index files. -/
def indexDir (descriptor : Bytes) (fs : List (Bytes × Bytes)) : List (Bytes × Bytes) :=
  (Wire.chars "zdb-namespace", descriptor) :: fs.mapIdx (fun i f => (Wire.chars "zdb-index-" ++ dec5 i, f.1))

/-- What a server does that is started on an index directory: `index_availity_check` and `index_internal_load`,
    libzdb/index_loader.c:387-446.  The files `i0`, `i1`, … up to the first missing one are loaded, but the process exits if the
    directory holds a file `zdb-index-00000`.  `fuel` is the number of files in the directory. -/
def indexFiles (dir : List (Bytes × Bytes)) : Nat → Nat → List Bytes
  | 0, _ => []
  | fuel + 1, n =>
    match dir.find? (fun x => x.1 == Wire.chars "i" ++ decBytes n) with
    | none => []
    | some x => x.2 :: indexFiles dir fuel (n + 1)

def startOn (dir : List (Bytes × Bytes)) : Option (List Bytes) :=
  if dir.any (fun x => x.1 == Wire.chars "zdb-index-00000") then none else some (indexFiles dir dir.length 0)

end Zdb.Compact
