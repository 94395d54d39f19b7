/-
The table of keys as a plain list.
-/
import Verif.Model.Table
namespace Zdb.Table

/-- What is done with the table. -/
inductive Op where
  | find (u : Nat) (id : Bytes)
  /-- a new entry, for which the allocator gives address `a` -/
  | insert (a : Nat) (e : Entry)
  /-- fields of the entry of a key are changed through the pointer -/
  | update (u : Nat) (id : Bytes) (f : Entry → Entry)
  | delete (u : Nat) (id : Bytes)
  | clean (u : Nat)

/-- The program: the table after an operation, and the entry that was found. -/
def Op.run (fuel : Nat) (m : Mem) : Op → Res (Mem × Option Entry)
  | .find u id => (lookup fuel m u id).bind fun
    | none => .ok (m, none)
    | some a =>
      match m.cells a with
      | none => .ub
      | some c => .ok (m, some c.entry)
  | .insert a e => (Table.insert m a e).bind fun m => .ok (m, none)
  | .update u id f => (lookup fuel m u id).bind fun
    | none => .ok (m, none)
    | some a =>
      match m.cells a with
      | none => .ub
      | some c => .ok (m.put a (some { c with entry := f c.entry }), some c.entry)
  | .delete u id => (lookup fuel m u id).bind fun
    | none => .ok (m, none)
    | some a =>
      match m.cells a with
      | none => .ub
      | some c => (deleteMemory fuel m a).bind fun x => .ok (x.1, some c.entry)
  | .clean u => (Table.clean fuel m u).bind fun m => .ok (m, none)

/-- The operation ends, without an invalid access, in this state. -/
def Does (m : Mem) (o : Op) (m' : Mem) (out : Option Entry) : Prop := ∃ n, ∀ fuel, n ≤ fuel → o.run fuel m = .ok (m', out)

/-- The allocator gives an address that is not in use; the fields changed are not the key and the namespace. -/
def Op.Allowed (m : Mem) : Op → Prop
  | .insert a _ => m.cells a = none
  | .update _ _ f => ∀ e, (f e).ns = e.ns ∧ (f e).id = e.id
  | _ => True

/-- A sequence of operations. -/
inductive Ran : List (Op × Option Entry) → Mem → Prop where
  | nil : Ran [] .init
  | snoc {tr : List (Op × Option Entry)} {m m' : Mem} {o : Op} {out : Option Entry} :
      Ran tr m → o.Allowed m → Does m o m' out → Ran (tr ++ [(o, out)]) m'

/-- The entry of this namespace and key. -/
def Hit (u : Nat) (id : Bytes) (e : Entry) : Bool := decide (e.ns = u ∧ e.id = id)

/-- The first entry of the list that satisfies `p` is changed. -/
def changeFirst (p : Entry → Bool) (f : Entry → Entry) : List Entry → List Entry
  | [] => []
  | e :: l => if p e then f e :: l else e :: changeFirst p f l

/-- The specification: a list of entries, oldest first. -/
def Op.spec (L : List Entry) : Op → List Entry × Option Entry
  | .find u id => (L, L.find? (Hit u id))
  | .insert _ e => (L ++ [e], none)
  | .update u id f => (changeFirst (Hit u id) f L, L.find? (Hit u id))
  | .delete u id => (L.eraseP (Hit u id), L.find? (Hit u id))
  | .clean u => (L.filter (fun e => decide (e.ns ≠ u)), none)

/-- The list after a sequence of operations. -/
def specList (L : List Entry) : List (Op × Option Entry) → List Entry
  | [] => L
  | x :: tr => specList (x.1.spec L).1 tr

/-- What was found at each step is what the list says. -/
def SpecAgrees (L : List Entry) : List (Op × Option Entry) → Prop
  | [] => True
  | x :: tr => x.2 = (x.1.spec L).2 ∧ SpecAgrees (x.1.spec L).1 tr

/-- The memory contains exactly these entries, each one once. -/
def Holds (m : Mem) (L : List Entry) : Prop :=
  ∃ as : List Nat, as.Nodup ∧ (∀ a, m.cells a ≠ none ↔ a ∈ as) ∧ (as.map (fun a => (m.cells a).map (·.entry))).Perm (L.map some)

/-- The entries met when the pointers are followed. -/
def walk (m : Mem) : Nat → Option Nat → Res (List Entry)
  | 0, _ => .loops
  | _ + 1, none => .ok []
  | fuel + 1, some a =>
    match m.cells a with
    | none => .ub
    | some c => (walk m fuel c.next).bind fun l => .ok (c.entry :: l)

/-- The list of a branch of the memory, which its counter counts: empty if the branch is not allocated. -/
def Chain (m : Mem) (h : Nat) (l : List Entry) : Prop :=
  match m.branches h with
  | none => l = []
  | some b => b.length = l.length ∧ ∃ n, ∀ fuel, n ≤ fuel → walk m fuel b.list = .ok l

/-- The same operation in the model used by all the other theorems (`Verif/Model/Store.lean`). -/
def Op.store (br : Branches) : Op → Branches
  | .find _ _ => br
  | .insert _ e => brAppend br e
  | .update u id f => match brGet br u id with
    | none => br
    | some e => brUpdate br u id (f e)
  | .delete u id => brRemove br u id
  | .clean u => brClean br u

/-- What is found by this model. -/
def Op.found (br : Branches) : Op → Option Entry
  | .find u id | .update u id _ | .delete u id => brGet br u id
  | _ => none

end Zdb.Table
