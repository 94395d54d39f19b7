/-
A server that goes to the background (zdbd/redis.c:1234-1280): its descriptors, and its log.
-/
namespace Zdb.Daemon

/-- What a descriptor is open on (an open file description). -/
inductive Obj where
  /-- what the process was given as standard input, output and error -/
  | std (n : Nat)
  /-- `/dev/null` -/
  | null
  /-- the log file, opened for standard output (1) and for standard error (2) -/
  | log (n : Nat)
  /-- `.lockfile` of the index directory (0) and of the data directory (1); the lock of `flock` is released when no
      descriptor is open on it any more -/
  | lock (n : Nat)
  /-- anything else: files of namespaces, listening sockets -/
  | file (n : Nat)
deriving DecidableEq, Repr

/-- The descriptors of a process. -/
abbrev Table := Nat → Option Obj

/-- A descriptor is opened on something, or led to something else. -/
def Table.set (T : Table) (n : Nat) (o : Obj) : Table := fun m => if m = n then some o else T m

/-- What the kernel answers: to `fork` (a failure, or whether this is the child), to the `i`-th `open` (a number that is
    free, or a failure), to the `i`-th `dup2` and to the `i`-th `freopen`. -/
structure Kernel where
  fork : Option Bool
  pick : Nat → Table → Option Nat
  free : ∀ i T n, pick i T = some n → T n = none
  dup : Nat → Bool
  reopen : Nat → Bool

/-- How it ends. -/
inductive Fate where
  /-- the first process has ended with success -/
  | parent
  /-- the process has ended with an error -/
  | failed
  /-- the server goes on in the second process with these descriptors -/
  | child (T : Table)

/-- `open("/dev/null")` and `dup2` to `fd`, zdbd/redis.c:1248-1252, 1267-1277: the number that was opened is not closed. -/
def toNull (K : Kernel) (i fd : Nat) (T : Table) : Option Table :=
  match K.pick i T with
  | none => none
  | some n => if K.dup i then some ((T.set n .null).set fd .null) else none

/-- `freopen` of the log file for a stream, zdbd/redis.c:1255-1259. The C library keeps the number of the stream. -/
def toLog (K : Kernel) (i fd : Nat) (T : Table) : Option Table :=
  if K.reopen i then some (T.set fd (.log fd)) else none

/-- `daemonize`, zdbd/redis.c:1234-1280; `log` tells whether there is `--logfile`. -/
def daemonize (K : Kernel) (log : Bool) (T : Table) : Fate :=
  match K.fork with
  | none => .failed
  | some false => .parent
  | some true =>
    match toNull K 0 0 T with
    | none => .failed
    | some T =>
      if log then
        match toLog K 0 1 T with
        | none => .failed
        | some T =>
          match toLog K 1 2 T with
          | none => .failed
          | some T => .child T
      else
        match toNull K 1 1 T with
        | none => .failed
        | some T =>
          match toNull K 2 2 T with
          | none => .failed
          | some T => .child T

/-- What the server opens before it goes to the background, each with the lowest number that is free, as the kernel does:
    the lock files (libzdb/bootstrap.c:127-133), the files of namespaces, the listening sockets (zdbd/redis.c:1318-1335). -/
inductive Opens : List Obj → Table → Table → Prop
  | nil (T) : Opens [] T T
  | cons (o os T n T') : T n = none → (∀ m, m < n → T m ≠ none) → Opens os (T.set n o) T' → Opens (o :: os) T T'

/-! ### the log -/

/-- The log file and the positions of the two streams in it. Both are opened with "w" (zdbd/redis.c:1255-1259), each with a
    position of its own, and neither appends. -/
structure Log where
  bytes : List Nat
  out : Nat
  err : Nat
deriving DecidableEq, Repr

/-- The log as `daemonize` leaves it. -/
def Log.start : Log := ⟨[], 0, 0⟩

/-- `write` at a position that is not behind the end. -/
def overwrite (f : List Nat) (pos : Nat) (b : List Nat) : List Nat := f.take pos ++ b ++ f.drop (pos + b.length)

/-- A message: to standard output (`zdb_log` and the like, zdbd/zdbd.h:65-78, libzdb/libzdb.h:149-155) or to standard error
    (`zdb_logerr`, `zdb_warnp`, `zdbd_warnp`, libzdb/libzdb.c:119-136, zdbd/zdbd.c:113-139). A line is written at once. -/
inductive Msg where
  | out (b : List Nat)
  | err (b : List Nat)
deriving DecidableEq, Repr

/-- A message is written. -/
def Log.write (l : Log) : Msg → Log
  | .out b => { l with bytes := overwrite l.bytes l.out b, out := l.out + b.length }
  | .err b => { l with bytes := overwrite l.bytes l.err b, err := l.err + b.length }

/-- Messages one after the other. -/
def Log.run (l : Log) (ms : List Msg) : Log := ms.foldl Log.write l

end Zdb.Daemon
