/-
Which blocks of memory the hooks should have.
-/
import Verif.Model.HookHeap
import Verif.Spec.Heap
namespace Zdb.Heap

/-- The blocks of a hook. -/
def Hook.blocks (h : Hook) : List Nat := h.self :: h.argv :: h.args

/-- The blocks of a slot. -/
def slotBlocks : Option Hook → List Nat
  | none => []
  | some h => h.blocks

/-- The blocks of the list of hooks. -/
def HookList.blocks (H : HookList) : List Nat := H.list :: H.slots.flatMap slotBlocks

/-- The hooks from the start of the process. -/
def hooksServe (es : List HookEv) : Prog HookList := do
  let H ← hookInit
  runHooks es H

/-- The hooks from the start of the process to its end. -/
def hooksLife (es : List HookEv) : Prog Unit := do
  let H ← hookInit
  let H ← runHooks es H
  hooksDestroy H

end Zdb.Heap
