/-
The table of hooks: external programs started by the server on events.
-/
import Verif.Model.Scan
namespace Zdb

/-- `hook_t`, libzdb/hook.h:9-20.  `kind` is `argv[1]`, `args` the arguments appended after it (the first is the
    identity of the instance).  `finished = 0` means not finished. -/
structure Hook where
  kind : Bytes
  args : List Bytes
  pid : Nat
  created : Nat
  finished : Nat
  status : Nat
deriving DecidableEq

/-- `zdb_hooks_t`, libzdb/hook.h:22-27, with the counter `childwait` of libzdb/libzdb.h:62 (32 bits); a slot holding
    NULL is `none`. -/
structure Hooks where
  slots : List (Option Hook)
  active : Nat
  childwait : Nat

/-- `hook_initialize`, libzdb/hook.c:22-32. -/
def hookInit : Hooks := { slots := List.replicate 8 none, active := 0, childwait := 0 }

/-- The search of an empty slot, libzdb/hook.c:49-55; `none` if there is none. -/
def hookPlace (h : Hook) : List (Option Hook) → Option (List (Option Hook))
  | [] => none
  | none :: l => some (some h :: l)
  | some x :: l => (hookPlace h l).map (some x :: ·)

/-- `hooks_append_hook`, libzdb/hook.c:46-74: the first empty slot, or the list is doubled.  Allocation succeeds. -/
def hooksAppend (t : Hooks) (h : Hook) : Hooks :=
  match hookPlace h t.slots with
  | some l => { t with slots := l, active := t.active + 1 }
  | none => { t with slots := t.slots ++ some h :: List.replicate (t.slots.length - 1) none, active := t.active + 1 }

/-- `hook_new`, `hook_append` and `hook_execute`, libzdb/hook.c:76-146: `fork` is the process started at the time `now`, `none`
    if the fork failed.  Nothing else uses the table between these calls, so they are one step. -/
def hookStart (t : Hooks) (kind : Bytes) (args : List Bytes) (now : Nat) (fork : Option Nat) : Hooks :=
  let t1 := hooksAppend t { kind, args, pid := fork.getD 0, created := now, finished := 0, status := 0 }
  match fork with
  | some _ => { t1 with childwait := (t1.childwait + 1) % 2 ^ 32 }
  | none => t1

/-- `WEXITSTATUS`. -/
def wexit (st : Nat) : Nat := st / 256 % 256

/-- The same followed by a wait, `hook_execute_wait`, libzdb/hook.c:148-166: `st` is what `waitpid` gave, at the time `fin`.
    The hook is written in its slot only at the end of the wait; nothing reads the table before.  The counter is
    decremented even if the fork failed. -/
def hookStartWait (t : Hooks) (kind : Bytes) (args : List Bytes) (now : Nat) (fork : Option Nat) (fin st : Nat) : Hooks :=
  let t1 := hooksAppend t { kind, args, pid := fork.getD 0, created := now, finished := fin, status := wexit st }
  match fork with
  | some _ => { t1 with childwait := ((t1.childwait + 1) % 2 ^ 32 + 2 ^ 32 - 1) % 2 ^ 32 }
  | none => { t1 with childwait := (t1.childwait + 2 ^ 32 - 1) % 2 ^ 32 }

/-- `hook_expired_cleanup`, libzdb/hook.c:168-194. -/
def hookExpired (now : Nat) (t : Hooks) : Hooks :=
  { t with
    slots := t.slots.map (fun x => x.bind (fun h => if h.finished ≠ 0 ∧ h.finished + 300 < now then none else some h))
    active := t.active -
      (t.slots.filterMap id).countP (fun h => decide (h.finished ≠ 0 ∧ h.finished + 300 < now)) }

/-- The search of the hook of a terminated process, libzdb/hook.c:228-237; `none` is the dereference of a NULL slot. -/
def hookMatch (pid now st : Nat) : List (Option Hook) → Option (List (Option Hook))
  | [] => some []
  | none :: _ => none
  | some h :: l =>
    if h.pid = pid ∧ h.finished = 0 then some (some { h with finished := now, status := wexit st } :: l)
    else (hookMatch pid now st l).map (some h :: ·)

/-- The loop of `libzdb_hooks_cleanup`, libzdb/hook.c:220-239, over the processes and states given by `waitpid`, all at the
    time `now`.  Without WUNTRACED a process given is terminated. -/
def hookReap (now : Nat) : List (Nat × Nat) → Hooks → Option Hooks
  | [], t => some t
  | (pid, st) :: done, t =>
    match hookMatch pid now st t.slots with
    | none => none
    | some l => hookReap now done { t with slots := l, childwait := (t.childwait + 2 ^ 32 - 1) % 2 ^ 32 }

/-- `libzdb_hooks_cleanup`, libzdb/hook.c:196-240, with a hook program set; `done` is what the calls to `waitpid` give. -/
def hooksCleanup (now : Nat) (done : List (Nat × Nat)) (t : Hooks) : Option Hooks :=
  if t.childwait = 0 then
    if t.active = 0 then some t else some (hookExpired now t)
  else hookReap now done t

/-! ### the processes -/

/-- The table and the children of the server: those not waited for yet, with their state once they have terminated. -/
structure HookSys where
  tab : Hooks
  kids : List (Nat × Option Nat)

/-- What happens: the server starts a hook, starts one and waits for it, a child terminates, the periodic cleanup
    (zdbd/redis.c:1122-1123). In `wait`, if the fork failed, `waitpid(0)` waits for any child: `got` is the one it gave, if any. -/
inductive HookEv where
  | start (kind : Bytes) (args : List Bytes) (now : Nat) (fork : Option Nat)
  | wait (kind : Bytes) (args : List Bytes) (now : Nat) (fork : Option Nat) (fin st : Nat) (got : Option Nat)
  | exit (pid st : Nat)
  | clean (now : Nat) (done : List (Nat × Nat))

def zombies (kids : List (Nat × Option Nat)) : List (Nat × Nat) :=
  kids.filterMap (fun k => k.2.map (fun st => (k.1, st)))

/-- One event; `none` is undefined behaviour. -/
def hookStep (y : HookSys) : HookEv → Option HookSys
  | .start kind args now fork =>
    some { tab := hookStart y.tab kind args now fork
           kids := match fork with
             | some p => y.kids ++ [(p, none)]
             | none => y.kids }
  | .wait kind args now fork fin st got =>
    some { tab := hookStartWait y.tab kind args now fork fin st
           kids := match fork, got with
             | none, some p => y.kids.filter (fun k => k.1 != p)
             | _, _ => y.kids }
  | .exit pid st =>
    some { y with kids := y.kids.map (fun k => if k.1 = pid then (k.1, some st) else k) }
  | .clean now done =>
    match hooksCleanup now done y.tab with
    | none => none
    | some t => some { tab := t
                       kids := if y.tab.childwait = 0 then y.kids else y.kids.filter (fun k => k.2.isNone) }

def hookRun : HookSys → List HookEv → Option HookSys
  | y, [] => some y
  | y, e :: es => (hookStep y e).bind (fun y' => hookRun y' es)

/-! ### HOOKS -/

/-- The text printed for a string, `$<length>\r\n<bytes>\r\n`. -/
def bulkText (b : Bytes) : Bytes := 36 :: decBytes b.length ++ [13, 10] ++ b ++ [13, 10]

/-- The text printed for one hook, zdbd/commands_system.c:144-175.  The numbers are printed as unsigned. -/
def hookText (h : Hook) : Bytes :=
  [42, 54, 13, 10] ++ bulkText h.kind ++ (42 :: decBytes (h.args.length - 1) ++ [13, 10]) ++
    (h.args.drop 1).flatMap bulkText ++ (58 :: decBytes h.pid ++ [13, 10]) ++ (58 :: decBytes h.created ++ [13, 10]) ++
    (58 :: decBytes h.finished ++ [13, 10]) ++ (58 :: decBytes h.status ++ [13, 10])

/-- The text of the answer to HOOKS, `command_hooks`, zdbd/commands_system.c:125-180. -/
def hooksText (t : Hooks) : Bytes :=
  42 :: decBytes t.active ++ [13, 10] ++ (t.slots.filterMap id).flatMap hookText

/-- The size of the buffer it is printed into with a final NUL, zdbd/commands_system.c:135. -/
def hooksBuffer (t : Hooks) : Nat := (t.active + 1) * 1024

end Zdb
