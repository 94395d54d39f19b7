/-
What may be read of a user-key namespace when disk writes fail.
-/
import Verif.Spec.Bounds
import Verif.Spec.UserTrace
namespace Zdb

/-- Events covered: any of the writes of a command may fail or be cut; no restart. -/
def FaultOK : NsEvent → Prop
  | .cmd c _ argv => c.limit ≤ 2 ^ 31 ∧ ArgsOK argv
  | .foreign => True
  | .reload => False

/-- A command on key `k`, whose value was `w`, that reports a failed write to the index and may have damaged the
    key: an overwrite or a deletion. -/
def damages (k : Bytes) (w : Option Bytes) : NsEvent × Reply → Bool
  | (.cmd _ .set (_ :: k' :: _), .err m) => k' == k && w.isSome && m == "Cannot write index right now"
  | (.cmd _ .del (_ :: k' :: _), .err m) => k' == k && m == "Cannot delete key (index)"
  | _ => false

/-- No event of the trace damages key `k`, of value `w` before. -/
def Spared (k : Bytes) : Option Bytes → List (NsEvent × Reply) → Prop
  | _, [] => True
  | w, x :: tr => damages k w x = false ∧ Spared k ((writeOf k x).getD w) tr

/-- Executions of a new user-key namespace with failing writes. -/
structure FaultRun (cfg : Option Mode) (u : Nat) (tr : List (NsEvent × Reply)) (br' : Branches) (s' : Store) :
    Prop where
  start : ∃ br0 br s, (∀ h, (br0 h).filter (fun e => e.ns == u) = []) ∧
    freshNs cfg br0 u = .ok br s ∧ s.mode = .user ∧ NsRun cfg u br s tr br' s'
  ev : ∀ x ∈ tr, FaultOK x.1
  len : tr.length ≤ maxEvents

/-- What CHECK answers for a stored value, EXISTS and LENGTH. -/
def existsReply : Option Bytes → Reply
  | some _ => .int 1
  | none => .int 0
def lengthReply : Option Bytes → Reply
  | some p => .int p.length
  | none => .nil
def checkReply : Option Bytes → Reply
  | some _ => .int 1
  | none => .nil

end Zdb
