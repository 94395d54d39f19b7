/-
The hooks called when a namespace changes files and when it is closed, and what the outcome of the first one does
to the list of modified index files.
-/
import Verif.Model.Scan
import Verif.Model.Engine
namespace Zdb.Backup

/-- How waiting for a hook ended, libzdb/hook.c:152-156: the script ended with a code, the script was killed by a
    signal, or no child could be started and `waitpid(0)` gave the code of some other child or left the status as
    it was. -/
inductive Waited where
  | exited (code : Nat)
  | killed
  | other (status : Nat)
deriving DecidableEq, Repr

/-- `WEXITSTATUS(status)`, libzdb/hook.c:159: the second byte of the status, which holds the low byte of the code of
    a script that ended, and is 0 for a script that was killed. -/
def Waited.status : Waited → Nat
  | .exited code => code % 256
  | .killed => 0
  | .other st => st / 256 % 256

/-- The hooks called for one namespace, with the arguments of each after the identifier of the server; files are
    given by number.
    `jump-index`: libzdb/index.c:347-354 and 379-381; `jump-data`: libzdb/data.c:418-422 and 441-444;
    `namespace-closing`: libzdb/namespace.c:705-714. -/
inductive Hook where
  | jumpIndex (closed new : Nat) (dirty : List Nat)
  | jumpData (closed new : Nat)
  | closing (index data : Nat) (dirty : List Nat)
deriving DecidableEq, Repr

/-- A call, with the index files and data files as they are on disk when the script starts. -/
structure Call where
  hook : Hook
  ifiles : List Bytes
  dfiles : List Bytes
deriving DecidableEq, Repr

/-- `index_jump_next` (libzdb/index.c:341-399) followed by `data_jump_next` (libzdb/data.c:413-447) when a hook is
    set.  The list is taken before the new file is made; the script runs when the new index file is there; the list
    is emptied if its status is 0.  What comes after, `index_seqid_push` and the new data file, does not look at the
    list, so that emptying it last gives the same. -/
def jump (w : Waited) (s : Store) : Store × List Call :=
  let t := Zdb.jump s
  (if w.status = 0 then { t with dirty := dirtyReset t.dirty } else t,
   [⟨.jumpIndex s.indexid t.indexid (dirtyList s.dirty), t.ifiles, s.dfiles⟩,
    ⟨.jumpData s.dataid t.dataid, t.ifiles, t.dfiles⟩])

/-- File change test of `command_set`, zdbd/commands_set.c:370-373. -/
def jumpIfFull (w : Waited) (limit : Nat) (s : Store) (len : Nat) : Store × List Call :=
  if fileLen s.dfiles s.dataid + len > limit then jump w s else (s, [])

/-- `command_set`, zdbd/commands_set.c:292-380, when a hook is set. -/
def cmdSet (w : Waited) (c : Ctx) (br : Branches) (s : Store) (argv : List Bytes) :
    (Branches × Store × Reply) × List Call :=
  match argv with
  | [_, key, payload] => body key payload
  | [_, key, payload, _] => if c.admin then body key payload else ((br, s, errDenied), [])
  | _ => ((br, s, errArgs), [])
where
  body (key payload : Bytes) : (Branches × Store × Reply) × List Call :=
    if key.length > 255 then ((br, s, .err "Key too large"), [])
    else if !c.writable then ((br, s, errReadOnly), [])
    else if c.conf.isFrozen then ((br, s, errFrozen), [])
    else if c.conf.isLocked then ((br, s, errLocked), [])
    else
      let entry := if key.length ≠ 0 then indexGet br s c.u key else none
      let floating := floatingOf entry
      if entry.isSome && c.conf.worm then ((br, s, .err "Namespace is protected by worm mode"), [])
      else if overQuota c.conf s.datasize payload.length floating then
        ((br, s, .err "No space left on this namespace"), [])
      else
        let mode := s.mode
        let (s, calls) := jumpIfFull w c.limit s payload.length
        let ts := timestampFromSet c.now argv 3
        match mode with
        | .user => (setHandlerUser c br s key payload ts entry, calls)
        | .seq => (setHandlerSeq c br s key payload ts entry, calls)

/-- `command_nsjump`, zdbd/commands_namespace.c:585-598, when a hook is set.  The rotation by age
    (zdbd/redis.c:1093-1110) does the same without asking for rights. -/
def cmdNsjump (w : Waited) (c : Ctx) (br : Branches) (s : Store) : (Branches × Store × Reply) × List Call :=
  if c.admin then
    let (s, calls) := jump w s
    ((br, s, .ok), calls)
  else ((br, s, errDenied), [])

/-- Running a handler when a hook is set: SET and NSJUMP are the ones that change files. -/
def command (w : Waited) (c : Ctx) (br : Branches) (s : Store) (d : DsCmd) (argv : List Bytes) :
    (Branches × Store × Reply) × List Call :=
  match d with
  | .set => cmdSet w c br s argv
  | .nsjump => cmdNsjump w c br s
  | d => (dsCommand c br s d argv, [])

/-- `namespace_flushing_hook` of a namespace when the server stops, libzdb/namespace.c:701-717.  What the server
    does afterwards is to flush and to close the files. -/
def close (s : Store) : List Call :=
  [⟨.closing s.indexid s.dataid (dirtyList s.dirty), s.ifiles, s.dfiles⟩]

end Zdb.Backup
