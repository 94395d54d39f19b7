/-
Executions of a sequential namespace during which data files are lost, cut or corrupted.
-/
import Verif.Model.Loss
import Verif.Spec.SeqTrace
namespace Zdb

/-- Executions as in `CleanRun`, between which any data file but the current one may get any contents (see `LossEvent`). -/
inductive SeqLossSteps (cfg : Option Mode) (u : Nat) :
    Branches → Store → List (LossEvent × Reply) → Branches → Store → Prop where
  | nil (br : Branches) (s : Store) : SeqLossSteps cfg u br s [] br s
  | cmd (c : Ctx) (d : DsCmd) (argv : List Bytes) {br br1 br2 : Branches} {s s1 s2 : Store} {r : Reply}
      {tr : List (LossEvent × Reply)} (hu : c.u = u) (h1 : dsCommand c br s d argv = (br1, s1, r)) (hc : CleanStep s s1)
      (h2 : SeqLossSteps cfg u br1 s1 tr br2 s2) : SeqLossSteps cfg u br s ((.ev (.cmd c d argv), r) :: tr) br2 s2
  | foreign {br br1 br2 : Branches} {s s2 : Store} {tr : List (LossEvent × Reply)}
      (h1 : ∀ h, (br1 h).filter (fun e => e.ns == u) = (br h).filter (fun e => e.ns == u))
      (h2 : SeqLossSteps cfg u br1 s tr br2 s2) : SeqLossSteps cfg u br s ((.ev .foreign, .nil) :: tr) br2 s2
  | reload {br br1 br2 : Branches} {s s1 s2 : Store} {tr : List (LossEvent × Reply)}
      (h1 : reloadNs cfg br u s = .ok br1 s1) (hc : s.indexid = 0 ∨ 29 < fileLen s.ifiles s.indexid)
      (h2 : SeqLossSteps cfg u br1 s1 tr br2 s2) : SeqLossSteps cfg u br s ((.ev .reload, .ok) :: tr) br2 s2
  | damage (i : Nat) (old new : Bytes) {br br2 : Branches} {s s2 : Store} {tr : List (LossEvent × Reply)}
      (hi : i < s.dataid) (ho : s.dfiles[i]? = some old) (h2 : SeqLossSteps cfg u br (s.damaged i new) tr br2 s2) :
      SeqLossSteps cfg u br s ((.damage i old new, .nil) :: tr) br2 s2

/-- The events the process takes part in. -/
def evsOf : List (LossEvent × Reply) → List NsEvent
  | [] => []
  | (.ev e, _) :: tr => e :: evsOf tr
  | (.damage .., _) :: tr => evsOf tr

/-- A SET of an id with a value is skipped if and only if the value is set again. -/
def SetAsTold (m : Slots) (e : NsEvent) (r : Reply) : Prop :=
  match e with
  | .cmd _ .set (_ :: k :: p :: _) =>
    ∀ v, m.get k = some v → (r = .nil → v.payload = p) ∧
      (v.payload = p → (∀ b, r ≠ .bulk b) ∧ r ≠ .err "Cannot write data right now" ∧ r ≠ .err "Cannot write index right now")
  | _ => True

/-- All SETs are skipped as they would be on undamaged files. -/
def AsTold (m : Slots) : List (LossEvent × Reply) → Prop
  | [] => True
  | (.ev e, r) :: tr => SetAsTold m e r ∧ AsTold (specSeqEvent m e).1 tr
  | (.damage .., _) :: tr => AsTold m tr

/-- Commands that answer what is in data files. -/
def DsCmd.readsData : DsCmd → Bool
  | .get | .mget | .check | .data | .history | .scan | .rscan | .kscan | .keycur | .index => true
  | _ => false

/-- The replies to commands that do not read data files are those of the slots. -/
def AgreesButData (m : Slots) : List (LossEvent × Reply) → Prop
  | [] => True
  | (.ev e, r) :: tr =>
    (∀ c d argv, e = .cmd c d argv → d.readsData = false → ∀ r', (specSeqEvent m e).2 = some r' → r = r') ∧
      AgreesButData (specSeqEvent m e).1 tr
  | (.damage .., _) :: tr => AgreesButData m tr

/-- Executions of a new sequential namespace whose data files may change. -/
structure SeqLossRun (cfg : Option Mode) (u : Nat) (tr : List (LossEvent × Reply)) (br' : Branches) (s' : Store) : Prop where
  run : ∃ br s, SeqStart cfg u br s ∧ SeqLossSteps cfg u br s tr br' s'
  ev : ∀ e ∈ evsOf tr, EvOK e
  near : NearRun [] (evsOf tr)
  told : AsTold [] tr
  len : (evsOf tr).length ≤ maxEvents

end Zdb
