/-
The tool that checks the payloads of a data file: tools/integrity-check/integrity-check.c.
-/
import Verif.Model.Commands
namespace Zdb

/-- The regular files of a directory: name and contents. -/
abbrev FileDir := List (Bytes × Bytes)

/-- The conversion `%u`. -/
def decimal (n : Nat) : Bytes := (Nat.toDigits 10 n).map (fun c => UInt8.ofNat c.toNat)

/-- The name of data file `id`, `data_set_id`, libzdb/data.c:279-281. -/
def dataName (id : Nat) : Bytes := 100 :: decimal id

/-- `"zdb-data-"`, tools/integrity-check/integrity-check.c:130. -/
def oldPrefix : Bytes := [122, 100, 98, 45, 100, 97, 116, 97, 45]

/-- The loop of `data_integrity`, tools/integrity-check/integrity-check.c:58-105, on the contents `f` of the file, from
    offset `pos`, with `errors` mismatches so far.  `none`: `zdb_diep` ends the process.  Each turn advances by at least 18
    bytes, so that the length of the file plus one is enough `fuel`.  A `read` of more than 2^31 bytes is taken as
    complete, allocations as successful, and the counter as unbounded. -/
def integrityLoop (f : Bytes) : Nat → Nat → Nat → Option Nat
  | 0, _, errors => some errors
  | fuel + 1, pos, errors =>
    match readExact f pos 1 with
    | none => some errors
    | some b =>
      match readExact f pos (dhdrLen + fromLE b) with
      | none => none
      | some r =>
        let h := decDHdr r
        let pos := pos + dhdrLen + fromLE b
        if h.datalength = 0 then integrityLoop f fuel pos errors
        else
          match readExact f pos h.datalength with
          | none => none
          | some p => integrityLoop f fuel (pos + h.datalength) (if crc32 p ≠ h.integrity then errors + 1 else errors)

/-- `data_integrity`, tools/integrity-check/integrity-check.c:30-110.  A file that cannot be opened has a descriptor from
    which nothing can be read (`data_descriptor_load`, libzdb/data.c:177-194). -/
def dataIntegrity (file : Option Bytes) : Option Nat :=
  match file with
  | none => some 1
  | some f =>
    match readExact f 0 dfhdrLen with
    | none => some 1
    | some b =>
      if (decDFHeader b).magic ≠ datMagic ∨ (decDFHeader b).version ≠ 3 then some 1
      else integrityLoop f (f.length + 1) dfhdrLen 0

/-- `main`, tools/integrity-check/integrity-check.c:112-169: the exit status of the tool called with the path of file
    `name` of the directory.  `atoi` (line 135) is `strtol` cut to 32 bits.  The file that is opened is not the one of
    the argument but the data file with the number found (`zdb_data_init_lazy`, libzdb/data.c:688-706).  The status is
    the returned `int` modulo 256; `zdb_diep` exits with 1 (libzdb/libzdb.c:138-141). -/
def integrityMain (dir : FileDir) (name : Bytes) : Nat :=
  match dir.lookup name with
  | none => 1
  | some _ =>
    if name.take 9 ≠ oldPrefix then 1
    else
      match dataIntegrity (dir.lookup (dataName (atoll (name.drop 9) % 2 ^ 32).toNat)) with
      | none => 1
      | some n => n % 256

end Zdb
