/-
A copy of the files of a namespace kept by a script which is called as hook.
-/
import Verif.Model.Backup
import Verif.Spec.Dirty
namespace Zdb.Backup

/-- The copies of index files and data files, and the data files which the script was told to copy and did not copy
    yet. -/
structure Copies where
  idx : Nat → Option Bytes
  dat : Nat → Option Bytes
  todo : List Nat

/-- No copy. -/
def Copies.none : Copies := ⟨fun _ => .none, fun _ => .none, []⟩

/-- The files numbered in `L` are copied. -/
def copied (L : List Nat) (disk : List Bytes) (old : Nat → Option Bytes) : Nat → Option Bytes :=
  fun i => if i ∈ L then disk[i]? else old i

/-- The script ended with code 0. -/
def Waited.done : Waited → Prop
  | .exited code => code % 256 = 0
  | _ => False

instance (w : Waited) : Decidable w.done := by cases w <;> unfold Waited.done <;> infer_instance

/-- What the script does.  For `jump-index` it copies the closed file and those of the list, and ends with code 0; or
    it fails after having copied the files of `part`, and ends with another code, or is killed.  For `jump-data`,
    for which the server does not wait, it will copy the closed file some time.  For `namespace-closing` it copies
    both files and those of the list. -/
def Copies.hear (w : Waited) (part : List Nat) (b : Copies) (c : Call) : Copies :=
  match c.hook with
  | .jumpIndex closed _ dirty => { b with idx := copied (if w.done then closed :: dirty else part) c.ifiles b.idx }
  | .jumpData closed _ => { b with todo := closed :: b.todo }
  | .closing i d dirty => { b with idx := copied (i :: dirty) c.ifiles b.idx, dat := copied [d] c.dfiles b.dat }

/-- The script copies data file `i`, if it was told to. -/
def Copies.late (b : Copies) (disk : List Bytes) (i : Nat) : Copies :=
  if i ∈ b.todo then { b with dat := copied [i] disk b.dat, todo := b.todo.filter (· ≠ i) } else b

/-- What happens: a request, with what the script does if it is called; something that does not concern the
    namespace; a data file is copied; the server stops and starts again. -/
inductive Event where
  | cmd (c : Ctx) (d : DsCmd) (argv : List Bytes) (w : Waited) (part : List Nat)
  | foreign
  | late (i : Nat)
  | restart

/-- The event seen by the namespace. -/
def Event.ns : Event → NsEvent
  | .cmd c d argv _ _ => .cmd c d argv
  | .foreign => .foreign
  | .late _ => .foreign
  | .restart => .reload

/-- Executions, with the copies, and the files that were closed while the script failed, before (`b`, `m`) and
    after. -/
inductive Run (cfg : Option Mode) (ok : Store → Store → NsEvent → Prop) (u : Nat) :
    Branches → Store → Copies → (Nat → Prop) → List (Event × Reply) → Branches → Store → Copies → (Nat → Prop) →
    Prop where
  | nil (br : Branches) (s : Store) (b : Copies) (m : Nat → Prop) : Run cfg ok u br s b m [] br s b m
  | cmd (c : Ctx) (d : DsCmd) (argv : List Bytes) (w : Waited) (part : List Nat) {br br1 br2 : Branches}
      {s s1 s2 : Store} {r : Reply} {L : List Call} {b b2 : Copies} {m m2 : Nat → Prop} {tr : List (Event × Reply)}
      (hu : c.u = u) (h1 : command w c br s d argv = ((br1, s1, r), L)) (hc : ok s s1 (.cmd c d argv))
      (h2 : Run cfg ok u br1 s1 (L.foldl (Copies.hear w part) b)
        (fun i => m i ∨ (L ≠ [] ∧ ¬ w.done ∧ i = s.indexid)) tr br2 s2 b2 m2) :
      Run cfg ok u br s b m ((.cmd c d argv w part, r) :: tr) br2 s2 b2 m2
  | foreign {br br1 br2 : Branches} {s s2 : Store} {b b2 : Copies} {m m2 : Nat → Prop} {tr : List (Event × Reply)}
      (h1 : ∀ h, (br1 h).filter (fun e => e.ns == u) = (br h).filter (fun e => e.ns == u))
      (hc : ok s s .foreign)
      (h2 : Run cfg ok u br1 s b m tr br2 s2 b2 m2) : Run cfg ok u br s b m ((.foreign, .nil) :: tr) br2 s2 b2 m2
  | late (i : Nat) {br br2 : Branches} {s s2 : Store} {b b2 : Copies} {m m2 : Nat → Prop} {tr : List (Event × Reply)}
      (hc : ok s s .foreign)
      (h2 : Run cfg ok u br s (b.late s.dfiles i) m tr br2 s2 b2 m2) :
      Run cfg ok u br s b m ((.late i, .nil) :: tr) br2 s2 b2 m2
  | restart {br br1 br2 : Branches} {s s1 s2 : Store} {b b2 : Copies} {m m2 : Nat → Prop} {tr : List (Event × Reply)}
      (h1 : reloadNs cfg br u s = .ok br1 s1) (hc : ok s s1 .reload)
      (h2 : Run cfg ok u br1 s1 ((close s).foldl (Copies.hear (.exited 0) []) b) m tr br2 s2 b2 m2) :
      Run cfg ok u br s b m ((.restart, .ok) :: tr) br2 s2 b2 m2

/-- Nobody empties the list by hand, and the script always ends by itself. -/
def Sound : Event × Reply → Prop
  | (.cmd _ d _ w _, r) => ¬ IsReset d r ∧ ∃ code, w = .exited code
  | _ => True

/-- Executions of a new user-key namespace, without any copy at the start. -/
structure UserCopies (cfg : Option Mode) (u : Nat) (tr : List (Event × Reply)) (br' : Branches) (s' : Store)
    (b : Copies) (m : Nat → Prop) : Prop where
  hcfg : cfg = none ∨ cfg = some .user
  run : ∃ br0 br s, (∀ h, (br0 h).filter (fun e => e.ns == u) = []) ∧ freshNs cfg br0 u = .ok br s ∧
    Run cfg AnyEv u br s .none (fun _ => False) tr br' s' b m
  ev : ∀ x ∈ tr, EvOK x.1.ns
  len : tr.length ≤ maxEvents

/-- The same for a new sequential namespace. -/
structure SeqCopies (cfg : Option Mode) (u : Nat) (tr : List (Event × Reply)) (br' : Branches) (s' : Store)
    (b : Copies) (m : Nat → Prop) : Prop where
  run : ∃ br s, SeqStart cfg u br s ∧ Run cfg CleanEv u br s .none (fun _ => False) tr br' s' b m
  ev : ∀ x ∈ tr, EvOK x.1.ns
  near : NearRun [] (tr.map (·.1.ns))
  len : tr.length ≤ maxEvents

/-- The copies are right: a closed index file is equal to its copy, unless it is in the list that the script will be
    given next, or was closed while the script failed; a closed data file is equal to its copy, unless the copying is
    still to be done. -/
structure Faithful (s : Store) (b : Copies) (m : Nat → Prop) : Prop where
  idx : ∀ i, i < s.indexid → ¬ m i → b.idx i = s.ifiles[i]? ∨ i ∈ dirtyList s.dirty
  dat : ∀ i, i < s.dataid → b.dat i = s.dfiles[i]? ∨ i ∈ b.todo

end Zdb.Backup
