/-
The tool that prints the contents of the index: tools/index-dump/index-dump.c.
-/
import Verif.Model.Loader
namespace Zdb

/-- The lines printed for an entry, tools/index-dump/index-dump.c:44-57: its number in the file, its place, and the fields of
    the item.  The conversions `PRIu16` of the two file numbers are `%u`, which prints all 32 bits.  The date is a
    rendering of `timestamp`. -/
structure DumpLine where
  num : Nat
  off : Nat
  item : Item
deriving DecidableEq

/-- The loop of `index_dump_files` over the entries of a file, tools/index-dump/index-dump.c:38-62, with
    `index_raw_fetch_entry` (libzdb/index_get.c:91-110), from offset `pos`, `num` entries printed so far.  The second component is
    false when `zdb_diep` ends the process.  Each turn advances by at least 34 bytes, so the length of the file plus one is
    enough `fuel`.  Allocations are taken as successful. -/
def dumpLoop (f : Bytes) : Nat → Nat → Nat → List DumpLine × Bool
  | 0, _, _ => ([], true)
  | fuel + 1, pos, num =>
    match readExact f pos 1 with
    | none => ([], true)
    | some b =>
      match readExact f pos (itemHdr + fromLE b) with
      | none => ([], false)
      | some r =>
        let x := dumpLoop f fuel (pos + itemHdr + fromLE b) (num + 1)
        (⟨num + 1, pos, decItem r⟩ :: x.1, x.2)

/-- What is printed: for each file the header (created, last open, mode) and the entries.  `total` is the number in the last line,
    printed if all is done. -/
structure DumpOut where
  files : List (IHeader × List DumpLine)
  total : Option Nat
  status : Nat

/-- `index_dump_files`, tools/index-dump/index-dump.c:7-74, on the files that are left; `count` entries printed so far.  `zdb_diep`
    exits with 1 (libzdb/libzdb.c:138-141); the lines printed before are flushed by `exit`. -/
def dumpFiles (count : Nat) : List Bytes → DumpOut
  | [] => ⟨[], some count, 0⟩
  | f :: fs =>
    match readExact f 0 ihdrLen with
    | none => ⟨[], none, 1⟩
    | some b =>
      let h := decIHeader b
      if h.magic ≠ idxMagic ∨ h.version ≠ 4 then ⟨[], none, 1⟩
      else
        let x := dumpLoop f (f.length + 1) ihdrLen 0
        if x.2 then
          let r := dumpFiles (count + x.1.length) fs
          { r with files := (h, x.1) :: r.files }
        else ⟨[(h, x.1)], none, 1⟩

/-- `main`, tools/index-dump/index-dump.c:76-124, on an index directory with these files (`i0`, `i1`, …); the number of files is
    found by `index_availity_check` (libzdb/index_loader.c:386-403). -/
def indexDump (ifiles : List Bytes) : DumpOut :=
  if maxFiles ifiles = 0 then ⟨[], none, 1⟩ else dumpFiles 0 (ifiles.take (maxFiles ifiles))

end Zdb
