/-
The directories of an instance and the locks on them: `zdb_open` and `zdb_lock` of libzdb/bootstrap.c, the directory
functions of libzdb/filesystem.c.

The file system is a tree of directories, files and symbolic links; nothing is ever removed or renamed from outside.  The
meaning of `stat`, `mkdir`, `realpath`, `open` and `flock` is the one of POSIX and Linux.  Left out: permissions other
than the refusal of `mkdir`, mount points, lengths above `PATH_MAX`, a `.lockfile` that is a dangling symbolic link
(opening it counts as a failure), a slash behind the name of a file (it is ignored).
-/
import Verif.Model.Bytes
namespace Zdb

/-- What an inode is.  A directory knows its parent (`..`). -/
inductive Inode where
  | dir (parent : Nat) (ents : List (Bytes × Nat))
  | file
  | link (target : Bytes)
deriving DecidableEq

/-- Inodes by number; 0 is the root. -/
abbrev Fs := List Inode

/-- The names of a path: the parts between slashes, empty ones left out. -/
def pathParts : Bytes → Bytes → List Bytes
  | acc, [] => if acc = [] then [] else [acc]
  | acc, b :: bs => if b = 47 then (if acc = [] then [] else [acc]) ++ pathParts [] bs else pathParts (acc ++ [b]) bs

def parts (p : Bytes) : List Bytes := pathParts [] p

/-- Where a path starts: the root or the working directory. -/
def pathStart (cwd : Nat) (p : Bytes) : Nat := if p.head? = some 47 then 0 else cwd

/-- Entry of a directory. -/
def entOf (ents : List (Bytes × Nat)) (c : Bytes) : Option Nat := (ents.find? (fun e => e.1 == c)).map (·.2)

/-- Following names until the end or the first symbolic link. -/
inductive Hop where
  | done (ino : Nat)
  /-- go on from this directory with these names -/
  | jump (dir : Nat) (names : List Bytes)
  | fail
deriving DecidableEq

def hop (fs : Fs) : Nat → List Bytes → Hop
  | cur, [] => .done cur
  | cur, c :: cs =>
    match fs[cur]? with
    | some (.dir par ents) =>
      if c = [46] then hop fs cur cs
      else if c = [46, 46] then hop fs par cs
      else
        match entOf ents c with
        | none => .fail
        | some n =>
          match fs[n]? with
          | some (.link t) => .jump (pathStart cur t) (parts t ++ cs)
          | some _ => hop fs n cs
          | none => .fail
    | _ => .fail

/-- Resolution of names with at most `links` symbolic links. -/
def walkPath (fs : Fs) : Nat → Nat → List Bytes → Option Nat
  | 0, cur, cs =>
    match hop fs cur cs with
    | .done n => some n
    | _ => none
  | links + 1, cur, cs =>
    match hop fs cur cs with
    | .done n => some n
    | .jump d cs' => walkPath fs links d cs'
    | .fail => none

/-- `stat`: the inode of a path; the empty path does not exist.  Linux follows at most 40 links. -/
def lookup (fs : Fs) (cwd : Nat) (p : Bytes) : Option Nat :=
  if p = [] then none else walkPath fs 40 (pathStart cwd p) (parts p)

def isDir (fs : Fs) (n : Nat) : Bool :=
  match fs[n]? with
  | some (.dir _ _) => true
  | _ => false

/-- `zdb_dir_exists`, libzdb/filesystem.c:22-32, `== ZDB_DIRECTORY_EXISTS`. -/
def dirExists (fs : Fs) (cwd : Nat) (p : Bytes) : Bool :=
  match lookup fs cwd p with
  | some n => isDir fs n
  | none => false

/-- Adding a name to a directory. -/
def addEnt (fs : Fs) (d : Nat) (c : Bytes) (i : Inode) : Fs :=
  match fs[d]? with
  | some (.dir par ents) => fs.set d (.dir par (ents ++ [(c, fs.length)])) ++ [i]
  | _ => fs

/-- The directory holding the last name of a path, and that name. -/
def dirOfPath (fs : Fs) (cwd : Nat) (p : Bytes) : Option (Nat × Bytes) :=
  match (parts p).getLast? with
  | none => none
  | some c =>
    match walkPath fs 40 (pathStart cwd p) (parts p).dropLast with
    | some d =>
      match fs[d]? with
      | some (.dir _ ents) => if c = [46] ∨ c = [46, 46] ∨ (entOf ents c).isSome then none else some (d, c)
      | _ => none
    | none => none

/-- `mkdir`; `may` is false if the system refuses (permissions, space). -/
def mkdir (fs : Fs) (may : Bool) (cwd : Nat) (p : Bytes) : Fs :=
  match dirOfPath fs cwd p with
  | some (d, c) => if may then addEnt fs d c (.dir d []) else fs
  | none => fs

/-- Positions of the slashes behind the first byte: the prefixes given to `mkdir` in the loop. -/
def slashPrefixes (p : Bytes) : List Bytes :=
  (List.range p.length).filterMap fun i => if i ≠ 0 ∧ p[i]? = some 47 then some (p.take i) else none

/-- `zdb_dir_create`, libzdb/filesystem.c:34-51; its result is ignored by `zdb_open`.  `none`: the byte before the buffer
    is read (`tmp[len - 1]` for an empty path). -/
def dirCreate (fs : Fs) (may : Bool) (cwd : Nat) (p : Bytes) : Option Fs :=
  let tmp := p.take 4095
  if tmp = [] then none
  else
    let tmp := if tmp.getLast? = some 47 then tmp.dropLast else tmp
    some (mkdir ((slashPrefixes tmp).foldl (fun fs q => mkdir fs may cwd q) fs) may cwd tmp)

/-- `namespace_path`, libzdb/namespace.c:196-205. -/
def namespacePath (pre name : Bytes) : Bytes := pre ++ 47 :: name

/-- Half of `namespace_ensure`, libzdb/namespace.c:207-221: the tree afterwards, whether the creation succeeded or not. -/
def ensureDir (fs : Fs) (may : Bool) (cwd : Nat) (p : Bytes) : Option Fs :=
  if dirExists fs cwd p then some fs else dirCreate fs may cwd p

/-- What `zdb_dir_remove`, libzdb/filesystem.c:54-71, removes for a directory: it and everything below; links are not
    followed (`FTW_PHYS`). -/
inductive RemovedBy (fs : Fs) (d : Nat) : Nat → Prop
  | self : RemovedBy fs d d
  | child {n par : Nat} {ents : List (Bytes × Nat)} {e : Bytes × Nat} : RemovedBy fs d n →
      fs[n]? = some (.dir par ents) → e ∈ ents → RemovedBy fs d e.2

/-- Names from the root to a directory. -/
def namesOf (fs : Fs) : Nat → Nat → Option (List Bytes)
  | 0, _ => none
  | fuel + 1, n =>
    if n = 0 then some []
    else
      match fs[n]? with
      | some (.dir par _) =>
        match fs[par]? with
        | some (.dir _ ents) =>
          match ents.find? (fun e => e.2 == n), namesOf fs fuel par with
          | some e, some l => some (l ++ [e.1])
          | _, _ => none
        | _ => none
      | _ => none

/-- What `realpath` answers for an existing directory; anything else has its inode as second part, so that two
    different files never have the same name. -/
def realName (fs : Fs) (n : Nat) : Option (List Bytes) × Option Nat :=
  match fs[n]? with
  | some (.dir _ _) => (namesOf fs (fs.length + 1) n, none)
  | _ => (none, some n)

/-- How far `zdb_open` has come. -/
inductive Stage where
  /-- libzdb/bootstrap.c:102-105: the data directory -/
  | data
  /-- 107-110: the index directory -/
  | index
  /-- 112-120: the comparison -/
  | compare
  /-- 126-128: the lock of the index -/
  | lockIndex
  /-- 130-132: the lock of the data -/
  | lockData
  /-- `namespaces_init` and the server -/
  | running
deriving DecidableEq

structure Proc where
  pid : Nat
  cwd : Nat
  index : Bytes
  data : Bytes
  stage : Stage
deriving DecidableEq

/-- A lock of `flock`: it belongs to the open file description, which the children of the process share; it is gone when
    nobody holds the description any more. -/
structure Flock where
  ino : Nat
  owner : Nat
  holders : List Nat
deriving DecidableEq

/-- The machine: files, held locks, processes. -/
structure World where
  fs : Fs
  locks : List Flock
  procs : List Proc

/-- `snprintf(lockpath, sizeof(lockpath), "%s/.lockfile", path)` with 512 bytes, libzdb/bootstrap.c:97, 126, 130. -/
def lockPath (p : Bytes) : Bytes := (p ++ [47, 46, 108, 111, 99, 107, 102, 105, 108, 101]).take 511

/-- `open(path, O_CREAT | O_RDONLY)`: the inode, the file being created if missing. -/
def openLock (fs : Fs) (may : Bool) (cwd : Nat) (p : Bytes) : Option (Fs × Nat) :=
  match lookup fs cwd p with
  | some n => if isDir fs n then none else some (fs, n)
  | none =>
    match dirOfPath fs cwd p with
    | some (d, c) => if may then some (addEnt fs d c .file, fs.length) else none
    | none => none

/-- What the system does during a step: may files be created, and does `flock` fail with an error other than
    `EWOULDBLOCK`? -/
structure Luck where
  may : Bool
  flockError : Bool

/-- Outcome of a step of `zdb_open`. -/
inductive Went where
  | on (w : World)
  /-- `return NULL`: the process ends -/
  | refused (fs : Fs)
  /-- undefined behaviour -/
  | ub

/-- `zdb_lock`, libzdb/bootstrap.c:72-94: `flock` with `LOCK_EX | LOCK_NB` conflicts with a lock held through any other
    descriptor, also of the same process.  An error other than `EWOULDBLOCK` counts as success (1 is returned). -/
def zdbLock (w : World) (l : Luck) (pid cwd : Nat) (p : Bytes) : Went :=
  match openLock w.fs l.may cwd (lockPath p) with
  | none => .refused w.fs
  | some (fs, n) =>
    if l.flockError then .on { w with fs := fs }
    else if w.locks.any (fun x => x.ino == n) then .refused fs
    else .on { w with fs := fs, locks := ⟨n, pid, [pid]⟩ :: w.locks }

/-- The stage that follows. -/
def Stage.next : Stage → Stage
  | .data => .index
  | .index => .compare
  | .compare => .lockIndex
  | .lockIndex => .lockData
  | .lockData => .running
  | .running => .running

/-- One step of `zdb_open`, libzdb/bootstrap.c:96-147, by process `q`; the stage is advanced by `act`. -/
def openStep (w : World) (l : Luck) (q : Proc) : Went :=
  match q.stage with
  | .data =>
    if dirExists w.fs q.cwd q.data then .on w
    else
      match dirCreate w.fs l.may q.cwd q.data with
      | none => .ub
      | some fs => .on { w with fs := fs }
  | .index =>
    if dirExists w.fs q.cwd q.index then .on w
    else
      match dirCreate w.fs l.may q.cwd q.index with
      | none => .ub
      | some fs => .on { w with fs := fs }
  | .compare =>
    -- `strcmp` of a NULL pointer if `realpath` failed
    match lookup w.fs q.cwd q.data, lookup w.fs q.cwd q.index with
    | some d, some i => if realName w.fs d = realName w.fs i then .refused w.fs else .on w
    | _, _ => .ub
  | .lockIndex => zdbLock w l q.pid q.cwd q.index
  | .lockData => zdbLock w l q.pid q.cwd q.data
  | .running => .on w

/-- What may happen. -/
inductive Act where
  /-- a process with these settings is created; its number is not in use -/
  | spawn (pid cwd : Nat) (index data : Bytes)
  /-- the process does its next step -/
  | step (pid : Nat) (l : Luck)
  /-- `hook_execute`, libzdb/hook.c:119-146: a child; it keeps the descriptors of the locks (no `O_CLOEXEC`) -/
  | hook (pid child : Nat)
  /-- a process ends, for whatever reason: its descriptors are closed -/
  | quit (pid : Nat)
  /-- somebody creates a directory, a file or a link with a new name in a directory -/
  | create (dir : Nat) (name : Bytes) (i : Inode)

/-- The number is that of no process. -/
def World.free (w : World) (pid : Nat) : Bool :=
  !(w.procs.any (fun q => q.pid == pid)) && !(w.locks.any (fun x => x.holders.contains pid))

/-- The process is gone, and the locks nobody holds any more. -/
def World.without (w : World) (pid : Nat) : World :=
  { w with
    locks := (w.locks.map (fun x => { x with holders := x.holders.filter (· != pid) })).filter (fun x => !x.holders.isEmpty)
    procs := w.procs.filter (fun q => q.pid != pid) }

/-- The new inode that anybody may create: not a directory with contents. -/
def Inode.fresh (d : Nat) : Inode → Bool
  | .dir par ents => decide (par = d) && ents.isEmpty
  | .file => true
  | .link t => !t.isEmpty

/-- A proper name of a directory entry. -/
def properName (c : Bytes) : Bool := !c.isEmpty && !c.contains 47 && !c.contains 0 && c != [46] && c != [46, 46]

/-- What came of it. -/
inductive Acted where
  | now (w : World)
  /-- this cannot happen here -/
  | cannot
  /-- undefined behaviour in the program -/
  | ub

/-- The process has done a step. -/
def World.advance (w : World) (pid : Nat) : World :=
  { w with procs := w.procs.map (fun x => if x.pid = pid then { x with stage := x.stage.next } else x) }

/-- One thing happens. -/
def act (w : World) : Act → Acted
  | .spawn pid cwd index data =>
    if w.free pid && isDir w.fs cwd then .now { w with procs := ⟨pid, cwd, index, data, .data⟩ :: w.procs } else .cannot
  | .step pid l =>
    match w.procs.find? (fun q => q.pid == pid) with
    | none => .cannot
    | some q =>
      match openStep w l q with
      | .on w' => .now (w'.advance pid)
      | .refused fs => .now (({ w with fs := fs } : World).without pid)
      | .ub => .ub
  | .hook pid child =>
    if w.procs.any (fun q => q.pid == pid && decide (q.stage = .running)) && w.free child then
      .now { w with locks := w.locks.map (fun x => if pid ∈ x.holders then { x with holders := child :: x.holders } else x) }
    else .cannot
  | .quit pid => .now (w.without pid)
  | .create d c i =>
    match w.fs[d]? with
    | some (.dir _ ents) =>
      if properName c && (entOf ents c).isNone && i.fresh d then .now { w with fs := addEnt w.fs d c i } else .cannot
    | _ => .cannot

def acts (w : World) : List Act → Acted
  | [] => .now w
  | a :: l =>
    match act w a with
    | .now w' => acts w' l
    | .cannot => .cannot
    | .ub => .ub

/-- A machine that has just started: the root directory and nothing else. -/
def bootWorld : World := { fs := [.dir 0 []], locks := [], procs := [] }

end Zdb
