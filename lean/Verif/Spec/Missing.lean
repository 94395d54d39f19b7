/-
Data files that are taken away once they were copied, and brought back when they are asked for.
-/
import Verif.Model.Missing
import Verif.Spec.Backup
namespace Zdb.Missing

open Zdb.Backup (Waited Call Copies)

/-- A script which brings back the copy of the file it is asked for, and fails if it has none. -/
def bring (b : Copies) : Script := fun i =>
  match b.dat i with
  | some f => ⟨.exited 0, some f⟩
  | none => ⟨.exited 1, none⟩

/-- A script which brings back the copy, or does nothing, as it pleases, but then ends with a code that says so. -/
def Honest (b : Copies) (sc : Script) : Prop :=
  ∀ i, sc i = bring b i ∨ ∃ code, code % 256 ≠ 0 ∧ sc i = ⟨.exited code, none⟩

/-- What happens: something of those of a copy kept by hooks; or data file `i`, which is not the current one and was
    copied, is taken away. -/
inductive Event where
  | ev (e : Backup.Event)
  | take (i : Nat)

/-- The same, when nothing is taken away. -/
def Event.kept : Event → Backup.Event
  | .ev e => e
  | .take _ => .foreign

/-- Executions, with the directory and the copies. -/
inductive Run (cfg : Option Mode) (ok : Store → Store → NsEvent → Prop) (u : Nat) :
    Branches → Store → Dir → Copies → (Nat → Prop) → List (Event × Reply) →
    Branches → Store → Dir → Copies → (Nat → Prop) → Prop where
  | nil (br : Branches) (s : Store) (dir : Dir) (b : Copies) (m : Nat → Prop) :
      Run cfg ok u br s dir b m [] br s dir b m
  | cmd (c : Ctx) (d : DsCmd) (argv : List Bytes) (w : Waited) (part : List Nat) {br br1 br2 : Branches}
      {s s1 s2 : Store} {dir dir1 dir2 : Dir} {r : Reply} {L : List Call} {b b2 : Copies} {m m2 : Nat → Prop}
      {tr : List (Event × Reply)}
      (hu : c.u = u) (h1 : command (bring b) w c br s dir d argv = (((br1, s1, r), L), dir1))
      (hc : ok s s1 (.cmd c d argv))
      (h2 : Run cfg ok u br1 s1 dir1 (L.foldl (Copies.hear w part) b)
        (fun i => m i ∨ (L ≠ [] ∧ ¬ w.done ∧ i = s.indexid)) tr br2 s2 dir2 b2 m2) :
      Run cfg ok u br s dir b m ((.ev (.cmd c d argv w part), r) :: tr) br2 s2 dir2 b2 m2
  | foreign {br br1 br2 : Branches} {s s2 : Store} {dir dir2 : Dir} {b b2 : Copies} {m m2 : Nat → Prop}
      {tr : List (Event × Reply)}
      (h1 : ∀ h, (br1 h).filter (fun e => e.ns == u) = (br h).filter (fun e => e.ns == u))
      (hc : ok s s .foreign)
      (h2 : Run cfg ok u br1 s dir b m tr br2 s2 dir2 b2 m2) :
      Run cfg ok u br s dir b m ((.ev .foreign, .nil) :: tr) br2 s2 dir2 b2 m2
  | late (i : Nat) {br br2 : Branches} {s s2 : Store} {dir dir2 : Dir} {b b2 : Copies} {m m2 : Nat → Prop}
      {tr : List (Event × Reply)}
      (hc : ok s s .foreign)
      (h2 : Run cfg ok u br s dir (b.late (onDisk s dir) i) m tr br2 s2 dir2 b2 m2) :
      Run cfg ok u br s dir b m ((.ev (.late i), .nil) :: tr) br2 s2 dir2 b2 m2
  | restart {br br1 br2 : Branches} {s s1 s2 : Store} {dir dir2 : Dir} {b b2 : Copies} {m m2 : Nat → Prop}
      {tr : List (Event × Reply)}
      (h1 : reload cfg br u s dir = .ok br1 s1) (hc : ok s s1 .reload)
      (h2 : Run cfg ok u br1 s1 dir ((Backup.close s).foldl (Copies.hear (.exited 0) []) b) m tr br2 s2 dir2 b2 m2) :
      Run cfg ok u br s dir b m ((.ev .restart, .ok) :: tr) br2 s2 dir2 b2 m2
  | take (i : Nat) {br br2 : Branches} {s s2 : Store} {dir dir2 : Dir} {b b2 : Copies} {m m2 : Nat → Prop}
      {tr : List (Event × Reply)}
      (hi : i < s.dataid) (ht : i ∉ b.todo) (hc : ok s s .foreign)
      (h2 : Run cfg ok u br s (fun j => if j = i then none else dir j) b m tr br2 s2 dir2 b2 m2) :
      Run cfg ok u br s dir b m ((.take i, .nil) :: tr) br2 s2 dir2 b2 m2

/-- The trace without the taking away. -/
def kept (tr : List (Event × Reply)) : List (Backup.Event × Reply) := tr.map (fun x => (x.1.kept, x.2))

/-- Executions of a new user-key namespace, without any copy at the start. -/
structure UserTaken (cfg : Option Mode) (u : Nat) (tr : List (Event × Reply)) (br' : Branches) (s' : Store)
    (dir : Dir) (b : Copies) (m : Nat → Prop) : Prop where
  hcfg : cfg = none ∨ cfg = some .user
  run : ∃ br0 br s, (∀ h, (br0 h).filter (fun e => e.ns == u) = []) ∧ freshNs cfg br0 u = .ok br s ∧
    Run cfg AnyEv u br s (fun _ => none) .none (fun _ => False) tr br' s' dir b m
  ev : ∀ x ∈ kept tr, EvOK x.1.ns
  len : tr.length ≤ maxEvents

/-- The same for a new sequential namespace. -/
structure SeqTaken (cfg : Option Mode) (u : Nat) (tr : List (Event × Reply)) (br' : Branches) (s' : Store)
    (dir : Dir) (b : Copies) (m : Nat → Prop) : Prop where
  run : ∃ br s, SeqStart cfg u br s ∧
    Run cfg CleanEv u br s (fun _ => none) .none (fun _ => False) tr br' s' dir b m
  ev : ∀ x ∈ kept tr, EvOK x.1.ns
  near : NearRun [] ((kept tr).map (·.1.ns))
  len : tr.length ≤ maxEvents

/-- The replies that may be given (second) instead of the right one (first) when a file cannot be had. -/
def Excused : DsCmd → Reply → Reply → Prop
  | .get, r, r' => r' = r ∨ r' = .err "Internal Error"
  | .check, r, r' => r' = r ∨ r' = .int (-1)
  | .data, r, r' => r' = r ∨ r' = .err "Invalid Request"
  | .mget, r, r' => r' = r ∨ ∃ l l', r = .arr l ∧ r' = .arr l' ∧ l'.length = l.length ∧
      ∀ i : Nat, l'[i]? = l[i]? ∨ l'[i]? = some (.err "Internal Error")
  | _, r, r' => r' = r

end Zdb.Missing
