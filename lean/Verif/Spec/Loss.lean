/-
What may be read of a user-key namespace whose data files were lost, cut or corrupted.
-/
import Verif.Model.Loss
import Verif.Spec.Bounds
import Verif.Spec.UserTrace
namespace Zdb

/-- Where the value of a key is: the payload of the last acknowledged SET, the current data file and its size just
    after that SET, and whether the record was left alone since. -/
structure Spot where
  payload : Bytes
  file : Nat
  stop : Nat
  whole : Bool

/-- The bytes of the record of key `k` in its file: 18 bytes of header, the key and the payload. -/
def Spot.bytes (k : Bytes) (w : Spot) (f : Bytes) : Bytes :=
  (f.take w.stop).drop (w.stop - (18 + k.length + w.payload.length))

/-- The spot of key `k` after an event. -/
def spotStep (k : Bytes) (a : Option Spot) (x : LossItem) : Option Spot :=
  match x.ev with
  | .ev e =>
    match writeOf k (e, x.reply) with
    | some (some p) => some ⟨p, x.file, x.size, true⟩
    | some none => none
    | none => a
  | .damage i old new =>
    a.map fun w => if i = w.file ∧ w.bytes k new ≠ w.bytes k old then { w with whole := false } else w

/-- The spot of key `k` after a trace. -/
def spotOf (k : Bytes) (tr : List LossItem) : Option Spot := tr.foldl (spotStep k) none

/-- Events covered. -/
def LossOK (x : LossItem) : Prop :=
  match x.ev with
  | .ev e => EvOK e
  | .damage .. => True

/-- The damage is the loss of the end of a file, or of all of it. -/
def IsCut (x : LossItem) : Prop :=
  match x.ev with
  | .ev _ => True
  | .damage _ old new => new <+: old

/-- Executions of a new user-key namespace whose data files may change. -/
structure LossRun (cfg : Option Mode) (u : Nat) (tr : List LossItem) (br' : Branches) (s' : Store) : Prop where
  hcfg : cfg = none ∨ cfg = some .user
  run : ∃ br0 br s, (∀ h, (br0 h).filter (fun e => e.ns == u) = []) ∧ freshNs cfg br0 u = .ok br s ∧
    LossSteps cfg u br s tr br' s'
  ev : ∀ x ∈ tr, LossOK x
  len : tr.length ≤ maxEvents

/-- `n` bytes of a file from position `a` on, if they are there. -/
def bytesAt (f : Bytes) (a n : Nat) : Option Bytes :=
  if a + n ≤ f.length then some ((f.drop a).take n) else none

/-- What GET answers when it finds these bytes. -/
def foundReply : Option Bytes → Reply
  | some b => .bulk b
  | none => .err "Internal Error"

end Zdb
