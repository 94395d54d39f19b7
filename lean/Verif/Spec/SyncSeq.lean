/-
Executions of a sequential namespace with its disk, in which ids are only added.
-/
import Verif.Spec.Sync
import Verif.Spec.SeqTrace
namespace Zdb

/-- The executions `CleanRun` with what becomes of the files, as in `DiskRun`. -/
inductive CleanDisk (cfg : Option Mode) (cf : SyncConf) (u : Nat) :
    Branches → Store → Disk → List (NsEvent × Reply) → Branches → Store → Disk → Prop where
  | nil (br : Branches) (s : Store) (D : Disk) : CleanDisk cfg cf u br s D [] br s D
  | cmd (c : Ctx) (d : DsCmd) (argv : List Bytes) {br br1 br2 : Branches} {s s1 s2 : Store} {D D2 : Disk}
      {r : Reply} {tr : List (NsEvent × Reply)} (hu : c.u = u) (h1 : dsCommand c br s d argv = (br1, s1, r))
      (hc : CleanStep s s1)
      (h2 : CleanDisk cfg cf u br1 s1 (runOps cf c.now D (dsOps c br s d argv)) tr br2 s2 D2) :
      CleanDisk cfg cf u br s D ((.cmd c d argv, r) :: tr) br2 s2 D2
  | foreign {br br1 br2 : Branches} {s s2 : Store} {D D2 : Disk} {tr : List (NsEvent × Reply)}
      (h1 : ∀ h, (br1 h).filter (fun e => e.ns == u) = (br h).filter (fun e => e.ns == u))
      (h2 : CleanDisk cfg cf u br1 s D tr br2 s2 D2) :
      CleanDisk cfg cf u br s D ((.foreign, .nil) :: tr) br2 s2 D2
  | reload (t : Nat) {br br1 br2 : Branches} {s s1 s2 : Store} {D D2 : Disk} {tr : List (NsEvent × Reply)}
      (h1 : reloadNs cfg br u s = .ok br1 s1)
      (hc : s.indexid = 0 ∨ 29 < fileLen s.ifiles s.indexid)
      (h2 : CleanDisk cfg cf u br1 s1 (runOps cf t { D with ilast := 0, dlast := 0 } (loadOps s.ifiles s.dfiles)) tr
        br2 s2 D2) :
      CleanDisk cfg cf u br s D ((.reload, .ok) :: tr) br2 s2 D2

/-- No DEL, and a SET asks for a new id. -/
def OnlyNew : NsEvent → Prop
  | .cmd _ d argv => d ≠ .del ∧ (d = .set → ∀ k, argv[1]? = some k → k = [])
  | _ => True

/-- Executions of a sequential namespace created at time `t` by a process in sequential mode, with its disk. -/
structure SeqSyncRun (cf : SyncConf) (u t : Nat) (tr : List (NsEvent × Reply)) (br' : Branches) (s' : Store)
    (D' : Disk) : Prop where
  run : ∃ br0 br s, freshNs (some .seq) br0 u = .ok br s ∧
    CleanDisk (some .seq) cf u br s (Disk.fresh cf t .seq) tr br' s' D'
  ev : ∀ x ∈ tr, EvOK x.1 ∧ NoFault x.1 ∧ OnlyNew x.1
  near : NearRun [] (tr.map (·.1))
  len : tr.length < maxEvents

end Zdb
