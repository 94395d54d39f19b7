/-
The process dies while it executes a command.
-/
import Verif.Model.Engine
namespace Zdb

/-- Where the process dies.  The system calls of a command that change a file are, in order: creating and
    initialising the next index file and the next data file if the data file is full or the command is
    NSJUMP (libzdb/index.c:376-377, libzdb/data.c:245-276), the two writes of `data_insert`
    (libzdb/data.c:615, 623), then in user-key mode rewriting the previous item with the deleted flag
    (libzdb/index.c:572) and appending the new one (libzdb/index_set.c:154), in sequential mode
    appending a deleted copy (libzdb/index_set.c:154) and overwriting the item (libzdb/index_set.c:98).
    `n` is the number of bytes of the last write that reached the file. -/
inductive Death where
  /-- before anything is written -/
  | start
  /-- the next index file exists, with `n` bytes of its header -/
  | jumpIndex (n : Nat)
  /-- the next index file is complete, the next data file has `n` bytes of its header -/
  | jumpData (n : Nat)
  | dataHdr (n : Nat)
  | dataPay (n : Nat)
  | itemFlag (n : Nat)
  | itemApp (n : Nat)
  | itemOver (n : Nat)
deriving DecidableEq, Repr

/-- The writes after the point of death reach the files with no byte. -/
def deathIo : Death → Io
  | .dataHdr n => { dhdr := some n, dpay := some 0, iflag := some 0, iapp := some 0, iover := some 0 }
  | .dataPay n => { dpay := some n, iflag := some 0, iapp := some 0, iover := some 0 }
  | .itemFlag n => { iflag := some n, iapp := some 0, iover := some 0 }
  | .itemApp n => { iapp := some n, iover := some 0 }
  | .itemOver n => { iover := some n }
  | _ => { dhdr := some 0, dpay := some 0, iflag := some 0, iapp := some 0, iover := some 0 }

/-- `indexCreate` cut after `n` bytes. -/
def indexCreateCut (fs : List Bytes) (id mode n : Nat) : List Bytes :=
  let hdr := (encIHeader (freshIHeader id mode)).take n
  if id < fs.length then appendFile fs id hdr else fs ++ [hdr]

/-- `dataInitialize` cut after `n` bytes. -/
def dataInitializeCut (fs : List Bytes) (id n : Nat) : List Bytes :=
  let hdr := (encDFHeader (freshDFHeader id)).take n
  if id < fs.length then writeFileAt fs id 0 hdr else fs ++ [hdr]

/-- The index and data files left by a process that dies at `p` during a command.  A point inside a jump only
    exists if the command starts new files. -/
def deathFiles (c : Ctx) (br : Branches) (s : Store) (d : DsCmd) (argv : List Bytes) (p : Death) :
    List Bytes × List Bytes :=
  let id := (s.indexid + 1) % 2 ^ 32
  let jumps := (dsCommand c br s d argv).2.1.indexid != s.indexid
  match p with
  | .start => (s.ifiles, s.dfiles)
  | .jumpIndex n =>
    if jumps then (indexCreateCut s.ifiles id s.mode.byte n, s.dfiles) else (s.ifiles, s.dfiles)
  | .jumpData n =>
    if jumps then (indexCreate s.ifiles id s.mode.byte, dataInitializeCut s.dfiles id n)
    else (s.ifiles, s.dfiles)
  | p =>
    let t := (dsCommand { c with io := deathIo p } br s d argv).2.1
    (t.ifiles, t.dfiles)

/-- What happens around one namespace when the process may die. -/
inductive LifeEv where
  | ev (e : NsEvent)
  /-- the process dies at `p` during a command and is started again -/
  | died (c : Ctx) (d : DsCmd) (argv : List Bytes) (p : Death)

/-- Executions of the namespace `u` in which the process may die during a command; a new process then loads the
    files into a table that has no entry of `u`. -/
inductive CrashRun (cfg : Option Mode) (u : Nat) :
    Branches → Store → List (LifeEv × Reply) → Branches → Store → Prop where
  | nil (br : Branches) (s : Store) : CrashRun cfg u br s [] br s
  | ev {br br1 br2 : Branches} {s s1 s2 : Store} {e : NsEvent} {r : Reply} {tr : List (LifeEv × Reply)}
      (h1 : NsRun cfg u br s [(e, r)] br1 s1) (h2 : CrashRun cfg u br1 s1 tr br2 s2) :
      CrashRun cfg u br s ((.ev e, r) :: tr) br2 s2
  | died (c : Ctx) (d : DsCmd) (argv : List Bytes) (p : Death) {br br0 br1 br2 : Branches}
      {s s1 s2 : Store} {tr : List (LifeEv × Reply)} (hu : c.u = u)
      (h0 : ∀ h, (br0 h).filter (fun e => e.ns == u) = [])
      (h1 : loadNs cfg br0 u (deathFiles c br s d argv p).1 (deathFiles c br s d argv p).2 = .ok br1 s1)
      (h2 : CrashRun cfg u br1 s1 tr br2 s2) :
      CrashRun cfg u br s ((.died c d argv p, .nil) :: tr) br2 s2

end Zdb
