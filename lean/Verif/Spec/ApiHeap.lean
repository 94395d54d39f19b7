/-
Which blocks of memory a program that uses the library should have.
-/
import Verif.Model.ApiHeap
import Verif.Spec.Heap
namespace Zdb.Heap

/-- The blocks of a reply. -/
def ApiRep.blocks : ApiRep → List Nat
  | .plain n => [n]
  | .error n t => [n, t]
  | .buffer n o b => [n, o, b]
  | .entry n o k p => [n, o, k, p]

/-- The blocks of the library and of the replies not given back. -/
def libBlocks (s : Srv) (rs : List ApiRep) : List Nat := s.blocks ++ rs.flatMap ApiRep.blocks

/-- A program that opens the library and uses it. The library is opened as the server opens it (`start`): the list of
    clients is one block a program without the server does not have. -/
def useLib (as : List ApiAct) : Prog (Srv × List ApiRep) := do
  let s ← start
  runActs as s []

/-- The same to its end: what it still has of replies it gives back, and closes the library (`zdb_close`,
    `namespaces_destroy`). -/
def lifeLib (as : List ApiAct) : Prog Unit := do
  let s ← start
  let (s, rs) ← runActs as s []
  each apiFree rs
  stop s

end Zdb.Heap
