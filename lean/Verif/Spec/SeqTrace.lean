/-
Executions of a sequential namespace covered by the run theorems.
-/
import Verif.Model.Node
import Verif.Spec.SeqMap
import Verif.Spec.Bounds
namespace Zdb

/-- A command that starts new files finds items in the index file it leaves. -/
def CleanStep (s t : Store) : Prop := t.indexid = s.indexid ∨ 29 < fileLen s.ifiles s.indexid

/-- The executions `NsRun` in which every file that is left has items, and in which a reload finds
    items in the last index file (or there is only one file). -/
inductive CleanRun (cfg : Option Mode) (u : Nat) :
    Branches → Store → List (NsEvent × Reply) → Branches → Store → Prop where
  | nil (br : Branches) (s : Store) : CleanRun cfg u br s [] br s
  | cmd (c : Ctx) (d : DsCmd) (argv : List Bytes) {br br1 br2 : Branches} {s s1 s2 : Store} {r : Reply}
      {tr : List (NsEvent × Reply)} (hu : c.u = u) (h1 : dsCommand c br s d argv = (br1, s1, r))
      (hc : CleanStep s s1)
      (h2 : CleanRun cfg u br1 s1 tr br2 s2) : CleanRun cfg u br s ((.cmd c d argv, r) :: tr) br2 s2
  | foreign {br br1 br2 : Branches} {s s2 : Store} {tr : List (NsEvent × Reply)}
      (h1 : ∀ h, (br1 h).filter (fun e => e.ns == u) = (br h).filter (fun e => e.ns == u))
      (h2 : CleanRun cfg u br1 s tr br2 s2) : CleanRun cfg u br s ((.foreign, .nil) :: tr) br2 s2
  | reload {br br1 br2 : Branches} {s s1 s2 : Store} {tr : List (NsEvent × Reply)}
      (h1 : reloadNs cfg br u s = .ok br1 s1)
      (hc : s.indexid = 0 ∨ 29 < fileLen s.ifiles s.indexid)
      (h2 : CleanRun cfg u br1 s1 tr br2 s2) : CleanRun cfg u br s ((.reload, .ok) :: tr) br2 s2

/-- How a new sequential namespace starts: it is created by a process running in sequential mode, or by one in
    mixed mode, and switched to sequential mode before anything else. -/
def SeqStart (cfg : Option Mode) (u : Nat) (br : Branches) (s : Store) : Prop :=
  (cfg = some .seq ∧ ∃ br0, freshNs cfg br0 u = .ok br s) ∨
  (cfg = none ∧ ∃ br0 s0, freshNs cfg br0 u = .ok br s0 ∧ s = setMode s0 .seq)

/-- Executions of a new sequential namespace: it starts as in `SeqStart`, then the events of `tr` happen, at most
    `maxEvents` of them, each within the conditions of `EvOK`; no file is left empty and keys are near. -/
structure SeqRun (cfg : Option Mode) (u : Nat) (tr : List (NsEvent × Reply)) (br' : Branches) (s' : Store) : Prop where
  run : ∃ br s, SeqStart cfg u br s ∧ CleanRun cfg u br s tr br' s'
  ev : ∀ x ∈ tr, EvOK x.1
  near : NearRun [] (tr.map (·.1))
  len : tr.length ≤ maxEvents

/-- What a request and its reply say about id `k`: `some (some p)` if it is a SET acknowledged with this
    id, `some none` if it is an acknowledged DEL, `none` otherwise. -/
def seqWriteOf (k : Bytes) : NsEvent × Reply → Option (Option Bytes)
  | (.cmd _ .set (_ :: _ :: p :: _), .bulk id) => if id = k then some (some p) else none
  | (.cmd _ .del (_ :: k' :: _), .simple _) => if k' = k then some none else none
  | _ => none

/-- The payload of the last SET acknowledged with id `k` not followed by an acknowledged DEL, if any. -/
def lastSeqWrite (k : Bytes) (tr : List (NsEvent × Reply)) : Option Bytes :=
  tr.foldl (fun a x => (seqWriteOf k x).getD a) none

/-- The id returned by an acknowledged SET with an empty key. -/
def insertedId : NsEvent × Reply → Option Bytes
  | (.cmd _ .set (_ :: [] :: _), .bulk id) => some id
  | _ => none

/-- Number of acknowledged SETs. -/
def ackedSets (tr : List (NsEvent × Reply)) : Nat :=
  (tr.filter (fun x => match x with
    | (.cmd _ .set _, .bulk _) => true
    | _ => false)).length

end Zdb
