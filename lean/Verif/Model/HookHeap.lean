/-
The memory of the hooks (libzdb/hook.c): the list of hooks, each with its array of arguments.
-/
import Verif.Model.Heap
namespace Zdb.Heap

/-- `hook_t`: the object, `argv`, the arguments that are not NULL, and whether the program is known to have ended
    (`finished`). -/
structure Hook where
  self : Nat
  argv : Nat
  args : List Nat
  over : Bool

/-- `zdb_hooks_t`: the array and its slots. -/
structure HookList where
  list : Nat
  slots : List (Option Hook)

/-- `hook_initialize`, libzdb/hook.c:22-32. -/
def hookInit : Prog HookList := do
  let l ← malloc
  pure ⟨l, List.replicate 8 none⟩

/-- `hook_free`, libzdb/hook.c:12-20. -/
def hookFree (h : Hook) : Prog Unit := do
  useb h.self
  useb h.argv
  each freeb h.args
  freeb h.argv
  freeb h.self

/-- `n` times `strdup`. -/
def strdups : Nat → Prog (List Nat)
  | 0 => pure []
  | n + 1 => do
    let b ← malloc
    let bs ← strdups n
    pure (b :: bs)

/-- A hook goes to the first empty slot, libzdb/hook.c:49-55. -/
def place (h : Hook) : List (Option Hook) → Option (List (Option Hook))
  | [] => none
  | none :: l => some (some h :: l)
  | some g :: l => (place h l).map (some g :: ·)

/-- `hooks_append_hook`, libzdb/hook.c:46-74: without an empty slot the list is made twice as long. -/
def appendHook (H : HookList) (h : Hook) : Prog HookList := do
  useb H.list
  match place h H.slots with
  | some sl => pure { H with slots := sl }
  | none => do
    let l ← realloc H.list
    useb l
    pure ⟨l, H.slots ++ some h :: List.replicate (H.slots.length - 1) none⟩

/-- `hook_new` with `hook_append` for each of `n` arguments, libzdb/hook.c:76-117, and `hook_execute` (libzdb/hook.c:119-144)
    or `hook_execute_wait` (libzdb/hook.c:146-166). The arguments are copied after the hook is in the list; here before. -/
def hookRun (H : HookList) (n : Nat) (wait : Bool) : Prog HookList := do
  let self ← malloc
  let argv ← malloc
  useb self
  useb argv
  let args ← strdups (n + 2)
  useb self
  appendHook H ⟨self, argv, args, wait⟩

/-- `hook_expired_cleanup`, libzdb/hook.c:168-193. -/
def expire : List (Option Hook) → Prog (List (Option Hook))
  | [] => pure []
  | none :: l => do
    let l ← expire l
    pure (none :: l)
  | some h :: l => do
    useb h.self
    let old ← ask
    if h.over && old ≠ 0 then do
      hookFree h
      let l ← expire l
      pure (none :: l)
    else do
      let l ← expire l
      pure (some h :: l)

/-- The search for the hook of a program that has ended, libzdb/hook.c:224-235: an empty slot on the way is followed. -/
def ended : List (Option Hook) → Prog (List (Option Hook))
  | [] => pure []
  | none :: _ => do
    hazard .hooks
    use none
    .die
  | some h :: l => do
    useb h.self
    let same ← ask
    if same ≠ 0 && !h.over then pure (some { h with over := true } :: l) else do
      let l ← ended l
      pure (some h :: l)

/-- `n` programs have ended. -/
def endeds : Nat → List (Option Hook) → Prog (List (Option Hook))
  | 0, l => pure l
  | n + 1, l => do
    let l ← ended l
    endeds n l

/-- `libzdb_hooks_cleanup`, libzdb/hook.c:195-238. -/
def hooksCleanup (H : HookList) : Prog HookList := do
  let pending ← ask
  useb H.list
  if pending = 0 then do
    let sl ← expire H.slots
    pure { H with slots := sl }
  else do
    let n ← ask
    let sl ← endeds n H.slots
    pure { H with slots := sl }

/-- What happens to the hooks: one is run, or the idle loop looks at them. -/
inductive HookEv where
  | run (args : Nat) (wait : Bool)
  | idle

/-- One event. -/
def HookEv.prog (e : HookEv) (H : HookList) : Prog HookList :=
  match e with
  | .run n w => hookRun H n w
  | .idle => hooksCleanup H

/-- Events one after the other. -/
def runHooks : List HookEv → HookList → Prog HookList
  | [], H => pure H
  | e :: es, H => do
    let H ← e.prog H
    runHooks es H

/-- One slot of `hook_destroy`. -/
def slotFree : Option Hook → Prog Unit
  | none => pure ()
  | some h => hookFree h

/-- `hook_destroy`, libzdb/hook.c:34-43. -/
def hooksDestroy (H : HookList) : Prog Unit := do
  useb H.list
  each slotFree H.slots
  freeb H.list

end Zdb.Heap
