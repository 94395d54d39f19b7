/-
C26, C44: the library calls beside the commands.
-/
import Verif.Model.Api
import Verif.Model.Node
namespace Zdb

inductive ApiCall where
  | set (key payload : Bytes)
  | get (key : Bytes)
  | exists (key : Bytes)
  | del (key : Bytes)
  | check (key : Bytes)

def ApiCall.key : ApiCall → Bytes
  | .set k _ => k
  | .get k => k
  | .exists k => k
  | .del k => k
  | .check k => k

/-- The call. -/
def apiCall (cfg : Option Mode) (c : Ctx) (br : Branches) (s : Store) : ApiCall → Branches × Store × ApiReply
  | .set k p => apiSet cfg c br s k p
  | .get k => (br, s, apiGet c br s k)
  | .exists k => (br, s, apiExists c br s k)
  | .del k => apiDel c br s k
  | .check k => (br, s, apiCheck c br s k)

/-- The command with the same key and payload. -/
def ApiCall.cmd : ApiCall → DsCmd
  | .set .. => .set
  | .get _ => .get
  | .exists _ => .exists
  | .del _ => .del
  | .check _ => .check

def ApiCall.argv (name : Bytes) : ApiCall → List Bytes
  | .set k p => [name, k, p]
  | .get k => [name, k]
  | .exists k => [name, k]
  | .del k => [name, k]
  | .check k => [name, k]

/-- What the call returns says the same as the answer of the command. -/
def ApiSame : ApiCall → ApiReply → Reply → Prop
  | .set .., .buffer b, r => r = .bulk b
  | .set .., .upToDate, r => r = .nil
  | .set .., .failure m, r => r = .err m
  | .get k, .entry k' p, r => k' = k ∧ r = .bulk p
  | .get _, .notFound, r => r = .nil
  | .get _, .internalError, r => r = .err "Internal Error"
  | .exists _, .yes, r => r = .int 1
  | .exists _, .no, r => r = .int 0
  | .del _, .success, r => r = .ok
  | .del _, .notFound, r => r = .err "Key not found"
  | .del _, .internalError, r => r = .err "Cannot delete key (data)" ∨ r = .err "Cannot delete key (index)"
  | .check _, .yes, r => r = .int 1
  | .check _, .no, r => r = .int 0
  | .check _, .notFound, r => r = .nil
  | _, _, _ => False

/-- A client of the daemon whom nothing is refused for his rights or the state of the namespace. -/
structure Free (c : Ctx) : Prop where
  writable : c.writable = true
  lock : c.conf.lock = .unlocked
  worm : c.conf.worm = false

/-- The payload stored, if it has the checksum of the new one, is the new one. -/
def NoCollision (c : Ctx) (br : Branches) (s : Store) : ApiCall → Prop
  | .set k p => ∀ old, getSingle c br s k = .bulk old → crc32 old = crc32 p → old = p
  | _ => True

/-- A sequence of library calls on a user-key namespace `u` of a server in user-key mode, with what they return. -/
inductive ApiRun (u : Nat) : Branches → Store → List (Ctx × ApiCall × ApiReply) → Branches → Store → Prop
  | nil (br s) : ApiRun u br s [] br s
  | call {br br1 br2 s s1 s2} {c : Ctx} {a : ApiCall} {r : ApiReply} {l} (hu : c.u = u) (hn : NoCollision c br s a)
      (h : apiCall (some .user) c br s a = (br1, s1, r)) (hl : ApiRun u br1 s1 l br2 s2) : ApiRun u br s ((c, a, r) :: l) br2 s2

end Zdb
