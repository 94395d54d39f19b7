/-
What may be read after a power loss.
-/
import Verif.Model.Sync
import Verif.Spec.Bounds
import Verif.Spec.UserTrace
namespace Zdb

/-- The payload of the last acknowledged SET of `k`, deleted since or not. -/
def lastSet (k : Bytes) (tr : List (NsEvent × Reply)) : Option Bytes :=
  tr.foldl (fun a x => match writeOf k x with
    | some (some p) => some p
    | _ => a) none

/-- A command all writes of which succeed. -/
def NoFault : NsEvent → Prop
  | .cmd c _ _ => c.io.dhdr = none ∧ c.io.dpay = none ∧ c.io.iapp = none ∧ c.io.iflag = none ∧ c.io.iover = none
  | _ => True

/-- Executions of a user-key namespace created at time `t`, with its disk. -/
structure SyncRun (cfg : Option Mode) (cf : SyncConf) (u t : Nat) (tr : List (NsEvent × Reply)) (br' : Branches)
    (s' : Store) (D' : Disk) : Prop where
  hcfg : cfg = none ∨ cfg = some .user
  run : ∃ br0 br s, (∀ h, (br0 h).filter (fun e => e.ns == u) = []) ∧ freshNs cfg br0 u = .ok br s ∧
    DiskRun cfg cf u br s (Disk.fresh cf t .user) tr br' s' D'
  ev : ∀ x ∈ tr, EvOK x.1 ∧ NoFault x.1
  len : tr.length < maxEvents

/-- What a power loss may leave of key `k`: its value, or, if it was deleted, the payload it had before. -/
def MayKeep (k : Bytes) (tr : List (NsEvent × Reply)) (w : Option Bytes) : Prop :=
  w = lastWrite k tr ∨ (lastWrite k tr = none ∧ w = lastSet k tr)

/-! ### in the middle of a command -/

/-- The last system call is not the writing of an index item. -/
def NotTorn (pre : List Op) : Prop := ∀ n b, pre.getLast? ≠ some (.append .index n b)

/-- No file is created. -/
def NoCreate (ops : List Op) : Prop := ∀ k b, Op.create k b ∉ ops

/-! ### `--synctime` -/

/-- The time of a command. -/
def evTime : NsEvent → Option Nat
  | .cmd c _ _ => some c.now
  | _ => none

/-- SETs and reading commands. -/
def NoDel : NsEvent → Prop
  | .cmd _ d _ => d ≠ .del
  | .foreign => True
  | .reload => False

/-- The clock does not go back. -/
def Clock (tr : List (NsEvent × Reply)) : Prop :=
  tr.Pairwise fun x y => ∀ a b, evTime x.1 = some a → evTime y.1 = some b → a ≤ b

/-- The event is a SET that was acknowledged. -/
def Acked (x : NsEvent × Reply) : Prop := ∃ k p, writeOf k x = some (some p)

end Zdb
