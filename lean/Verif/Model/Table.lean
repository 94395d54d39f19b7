/-
The table of keys as it is in memory: linked lists of allocated entries.  libzdb/index_branch.c, and its callers in
libzdb/index.c, index_set.c and namespace.c.
-/
import Verif.Model.Store
namespace Zdb.Table

/-- The result of a piece of code: `ub` is an access through a null or dangling pointer, `loops` that it has not ended after the
    number of turns given. -/
inductive Res (α : Type) where
  | ok (a : α)
  | ub
  | loops

def Res.bind {α β : Type} (r : Res α) (f : α → Res β) : Res β :=
  match r with
  | .ok a => f a
  | .ub => .ub
  | .loops => .loops

/-- An allocated `index_entry_t` (libzdb/index.h:77-102): its fields and `next` (`none`: NULL). -/
structure Cell where
  entry : Entry
  next : Option Nat

/-- `index_branch_t`, libzdb/index.h:110-115.  The counter is not limited to 64 bits. -/
structure Branch where
  length : Int
  list : Option Nat
  last : Option Nat

/-- The heap, as far as the table is concerned: the entries by address (`none`: not allocated, or freed), and the array of
    branches (`none`: NULL). -/
structure Mem where
  cells : Nat → Option Cell
  branches : Nat → Option Branch

/-- `buckets_branches`, libzdb/index_branch.c:27. -/
def buckets : Nat := 2 ^ 24

/-- After `index_buckets_init`, libzdb/index_branch.c:45-47. -/
def Mem.init : Mem := ⟨fun _ => none, fun _ => none⟩

/-- `*a = c` -/
def Mem.put (m : Mem) (a : Nat) (c : Option Cell) : Mem := { m with cells := fun x => if x = a then c else m.cells x }

/-- `branches[h] = b` or a change of its fields -/
def Mem.setBranch (m : Mem) (h : Nat) (b : Option Branch) : Mem := { m with branches := fun x => if x = h then b else m.branches x }

/-- `a->next = p` -/
def Mem.setNext (m : Mem) (a : Nat) (p : Option Nat) : Res Mem :=
  match m.cells a with
  | none => .ub
  | some c => .ok (m.put a (some { c with next := p }))

/-- `free(a)`, a second time is undefined as well. -/
def Mem.free (m : Mem) (a : Nat) : Res Mem :=
  match m.cells a with
  | none => .ub
  | some _ => .ok (m.put a none)

/-- The loop of `index_entry_get`, libzdb/index.c:434-442. -/
def find (m : Mem) (p : Entry → Bool) : Nat → Option Nat → Res (Option Nat)
  | 0, _ => .loops
  | _ + 1, none => .ok none
  | fuel + 1, some a =>
    match m.cells a with
    | none => .ub
    | some c => if p c.entry then .ok (some a) else find m p fuel c.next

/-- `index_entry_get`, libzdb/index.c:424-445. -/
def lookup (fuel : Nat) (m : Mem) (u : Nat) (id : Bytes) : Res (Option Nat) :=
  match m.branches (keyHash id) with
  | none => .ok none
  | some b => find m (Entry.is u id) fuel b.list

/-- `index_branch_append`, libzdb/index_branch.c:105-127, with `index_branch_get_allocate` (lines 92-98) and `index_branch_init`
    (lines 49-60). -/
def append (m : Mem) (h a : Nat) : Res Mem :=
  let b := (m.branches h).getD ⟨0, none, none⟩
  let b1 : Branch := { b with length := b.length + 1, list := if b.list = none then some a else b.list }
  let m1 : Res Mem := match b.last with
    | none => .ok m
    | some l => m.setNext l (some a)
  m1.bind fun m1 => (m1.setNext a none).bind fun m2 => .ok (m2.setBranch h (some { b1 with last := some a }))

/-- `index_insert_memory_handler_memkey`, libzdb/index_set.c:171-213: `calloc` gives address `a`. -/
def insert (m : Mem) (a : Nat) (e : Entry) : Res Mem := append (m.put a (some ⟨e, none⟩)) (keyHash e.id) a

/-- `index_branch_remove`, libzdb/index_branch.c:135-153.  The entry is taken as read even when no branch of the code reads it. -/
def remove (m : Mem) (h : Nat) (b : Branch) (a : Nat) (prev : Option Nat) : Res Mem :=
  match m.cells a with
  | none => .ub
  | some c =>
    let m1 : Res Mem := match prev with
      | none => .ok m
      | some p => m.setNext p c.next
    m1.bind fun m1 => .ok (m1.setBranch h (some
      { length := b.length - 1, list := if b.list = some a then c.next else b.list, last := if b.last = some a then prev else b.last }))

/-- The loop of `index_branch_get_previous`, libzdb/index_branch.c:158-174: `it` is `iterator`. -/
def getPrevious (m : Mem) (a : Nat) : Nat → Option Nat → Option Nat → Res (Option Nat)
  | 0, _, _ => .loops
  | _ + 1, _, none => .ok (some a)
  | fuel + 1, prev, some x =>
    if x = a then .ok prev
    else
      match m.cells x with
      | none => .ub
      | some c => getPrevious m a fuel (some x) c.next

/-- `index_entry_delete_memory`, libzdb/index.c:505-534, without the statistics.  False: it returned 1. -/
def deleteMemory (fuel : Nat) (m : Mem) (a : Nat) : Res (Mem × Bool) :=
  match m.cells a with
  | none => .ub
  | some c =>
    let h := keyHash c.entry.id
    match m.branches h with
    | none => .ub
    | some b =>
      (getPrevious m a fuel none b.list).bind fun prev =>
        if prev = some a then .ok (m, false)
        else (remove m h b a prev).bind fun m1 => (m1.free a).bind fun m2 => .ok (m2, true)

/-- `index_clean_namespace_branch`, libzdb/index.c:715-745, from `entry`. -/
def cleanBranch (u h : Nat) : Nat → Mem → Option Nat → Option Nat → Res Mem
  | 0, _, _, _ => .loops
  | _ + 1, m, _, none => .ok m
  | fuel + 1, m, prev, some a =>
    match m.cells a with
    | none => .ub
    | some c =>
      if c.entry.ns ≠ u then cleanBranch u h fuel m (some a) c.next
      else
        match m.branches h with
        | none => .ub
        | some b => (remove m h b a prev).bind fun m1 => (m1.free a).bind fun m2 => cleanBranch u h fuel m2 prev c.next

/-- One turn of the loop of `index_clean_namespace`, libzdb/index.c:761-766. -/
def cleanOne (fuel u : Nat) (m : Mem) (h : Nat) : Res Mem :=
  match m.branches h with
  | none => .ok m
  | some b => cleanBranch u h fuel m none b.list

/-- The same step for a list of branches, in order. -/
def forBranches (step : Mem → Nat → Res Mem) (m : Mem) (hs : List Nat) : Res Mem := hs.foldl (fun r h => r.bind (fun m => step m h)) (.ok m)

/-- `index_clean_namespace`, libzdb/index.c:752-771. -/
def clean (fuel : Nat) (m : Mem) (u : Nat) : Res Mem := forBranches (cleanOne fuel u) m (List.range buckets)

/-- The loop of `index_branch_free`, libzdb/index_branch.c:72-75. -/
def freeList : Nat → Mem → Option Nat → Res Mem
  | 0, _, _ => .loops
  | _ + 1, m, none => .ok m
  | fuel + 1, m, some a =>
    match m.cells a with
    | none => .ub
    | some c => (m.free a).bind fun m => freeList fuel m c.next

/-- `index_branch_free`, libzdb/index_branch.c:62-79.  The freed branch is taken as NULL; its slot in the array is not read again. -/
def branchFree (fuel : Nat) (m : Mem) (h : Nat) : Res Mem :=
  match m.branches h with
  | none => .ok m
  | some b => (freeList fuel m b.list).bind fun m => .ok (m.setBranch h none)

/-- `namespaces_destroy`, libzdb/namespace.c:508-520, as far as the table is concerned.  `nsroot->branches` is not NULL except in a server
    limited to sequential mode.  The array is taken from the index of the default namespace, in which it is NULL
    if this namespace is sequential (`index_rehash`, libzdb/index_loader.c:557-570): then `branches[0]` is read through NULL. -/
def destroy (fuel : Nat) (m : Mem) (default : Mode) : Res Mem :=
  match default with
  | .user => forBranches (branchFree fuel) m (List.range buckets)
  | .seq => .ub

end Zdb.Table
