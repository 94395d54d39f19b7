/-
Which descriptors a server should have open: stated over the variables that hold them.
-/
import Verif.Model.Fds
namespace Zdb.Fds

/-- Descriptor `fd` belongs to a variable of the process, and the variable is for `p`. -/
inductive Owns (s : Srv) : Nat → Path → Prop
  | std (n) : n < 3 → Owns s n (.std n)
  | ilock : Owns s s.ilock (.lock 0)
  | dlock : Owns s s.dlock (.lock 1)
  | listen (i fd) : s.main[i]? = some fd → Owns s fd (.listen i)
  | epoll (fd) : s.evfd = some fd → Owns s fd .epoll
  | client (c) : c ∈ s.clients → Owns s c.fd (.client c.conn)
  | index (r fd) : r ∈ s.roots → r.idxFd = some fd → Owns s fd (.index r.ns r.idxId)
  | data (r fd) : r ∈ s.roots → r.datFd = some fd → Owns s fd (.data r.ns r.datId)

/-- The process from its start: the database is opened, `n` sockets listen, events arrive. -/
def serve (n : Nat) (es : List Ev) : Prog (Option Srv) := do
  let s ← zdbOpen
  match s with
  | none => pure none
  | some s => do
    let s ← listenOn n s
    let s ← runEvs es s
    pure (some s)

/-- A program that uses the library: the database is opened, used and closed. -/
def library (es : List Ev) : Prog Bool := do
  let s ← zdbOpen
  match s with
  | none => pure false
  | some s => do
    let s ← runEvs es s
    zdbClose s
    pure true

/-- Is a path the mark of a descriptor no variable holds? -/
def Path.isLost : Path → Bool
  | .lost _ => true
  | _ => false

/-- Is a path a lock file? -/
def Path.isLock : Path → Bool
  | .lock _ => true
  | _ => false

/-- The files that can be left open: a namespace descriptor of an unsupported version, an index file whose header could
    not be read, a lock file that could not be locked. -/
def Path.canLeak : Path → Bool
  | .desc _ => true
  | .index _ _ => true
  | .lock _ => true
  | _ => false

end Zdb.Fds
