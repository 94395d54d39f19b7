/-
Which index files were modified since the last reset.
-/
import Verif.Spec.SeqTrace
import Verif.Model.Scan
namespace Zdb

/-- Index file `i` was changed between `s` and `t` otherwise than by adding bytes at its end: what it held is not a
    prefix of what it holds. -/
def Modified (s t : Store) (i : Nat) : Prop :=
  ∃ f f', s.ifiles[i]? = some f ∧ t.ifiles[i]? = some f' ∧ ¬ f <+: f'

/-- A request that asks for the list to be emptied, and is granted. -/
def IsReset : DsCmd → Reply → Prop
  | .index, .simple _ => True
  | _, _ => False

/-- The conditions `CleanRun` puts on each step of a sequential namespace. -/
def CleanEv (s t : Store) : NsEvent → Prop
  | .cmd _ _ _ => CleanStep s t
  | .foreign => True
  | .reload => s.indexid = 0 ∨ 29 < fileLen s.ifiles s.indexid

/-- No condition on the steps. -/
def AnyEv (_ _ : Store) (_ : NsEvent) : Prop := True

/-- The executions of `NsRun` whose steps meet `ok`, with the set of index files modified by a command since the
    last reset, before (`M`) and after.  Loading the namespace again starts with an empty set. -/
inductive ModRun (cfg : Option Mode) (ok : Store → Store → NsEvent → Prop) (u : Nat) :
    Branches → Store → (Nat → Prop) → List (NsEvent × Reply) → Branches → Store → (Nat → Prop) → Prop where
  | nil (br : Branches) (s : Store) (M : Nat → Prop) : ModRun cfg ok u br s M [] br s M
  | cmd (c : Ctx) (d : DsCmd) (argv : List Bytes) {br br1 br2 : Branches} {s s1 s2 : Store} {r : Reply}
      {M M2 : Nat → Prop} {tr : List (NsEvent × Reply)} (hu : c.u = u)
      (h1 : dsCommand c br s d argv = (br1, s1, r)) (hc : ok s s1 (.cmd c d argv))
      (h2 : ModRun cfg ok u br1 s1 (fun i => ¬ IsReset d r ∧ (M i ∨ Modified s s1 i)) tr br2 s2 M2) :
      ModRun cfg ok u br s M ((.cmd c d argv, r) :: tr) br2 s2 M2
  | foreign {br br1 br2 : Branches} {s s2 : Store} {M M2 : Nat → Prop} {tr : List (NsEvent × Reply)}
      (h1 : ∀ h, (br1 h).filter (fun e => e.ns == u) = (br h).filter (fun e => e.ns == u))
      (hc : ok s s .foreign)
      (h2 : ModRun cfg ok u br1 s M tr br2 s2 M2) : ModRun cfg ok u br s M ((.foreign, .nil) :: tr) br2 s2 M2
  | reload {br br1 br2 : Branches} {s s1 s2 : Store} {M M2 : Nat → Prop} {tr : List (NsEvent × Reply)}
      (h1 : reloadNs cfg br u s = .ok br1 s1) (hc : ok s s1 .reload)
      (h2 : ModRun cfg ok u br1 s1 (fun _ => False) tr br2 s2 M2) :
      ModRun cfg ok u br s M ((.reload, .ok) :: tr) br2 s2 M2

/-- Executions of a new user-key namespace, with the index files modified since the last reset. -/
structure UserMods (cfg : Option Mode) (u : Nat) (tr : List (NsEvent × Reply)) (br' : Branches) (s' : Store)
    (M : Nat → Prop) : Prop where
  hcfg : cfg = none ∨ cfg = some .user
  run : ∃ br0 br s, (∀ h, (br0 h).filter (fun e => e.ns == u) = []) ∧ freshNs cfg br0 u = .ok br s ∧
    ModRun cfg AnyEv u br s (fun _ => False) tr br' s' M
  ev : ∀ x ∈ tr, EvOK x.1
  len : tr.length ≤ maxEvents

/-- Executions of a new sequential namespace, as in `SeqRun`, with the index files modified since the last reset. -/
structure SeqMods (cfg : Option Mode) (u : Nat) (tr : List (NsEvent × Reply)) (br' : Branches) (s' : Store)
    (M : Nat → Prop) : Prop where
  run : ∃ br s, SeqStart cfg u br s ∧ ModRun cfg CleanEv u br s (fun _ => False) tr br' s' M
  ev : ∀ x ∈ tr, EvOK x.1
  near : NearRun [] (tr.map (·.1))
  len : tr.length ≤ maxEvents

/-- The answer to INDEX DIRTY that lists exactly the files of `M`, in increasing order. -/
def Lists (r : Reply) (M : Nat → Prop) : Prop :=
  ∃ L : List Nat, r = .arr (L.map (fun (i : Nat) => .int i)) ∧ L.Pairwise (· < ·) ∧ ∀ i, i ∈ L ↔ M i

/-- The text printed for INDEX DIRTY, zdbd/commands_system.c:219-224: `*<count>\r\n` then `:<n>\r\n` for each
    file. -/
def dirtyText (L : List Nat) : Bytes :=
  42 :: decBytes L.length ++ [13, 10] ++ L.flatMap (fun n => 58 :: decBytes n ++ [13, 10])

/-- The size of the buffer it is printed into with a final NUL, zdbd/commands_system.c:213. -/
def dirtyBuffer (L : List Nat) : Nat := L.length * 10 + 32

end Zdb
