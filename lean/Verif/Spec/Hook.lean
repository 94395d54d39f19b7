/-
C39, C54: the hooks as a list of jobs, without table, slots or search.
-/
import Verif.Model.Hook
namespace Zdb

/-- A job: a hook which was started, `pid = 0` if the process could not be created.  `ended` is the state with which its
    process terminated, `seen` the time at which the server took notice of it. -/
structure Job where
  kind : Bytes
  args : List Bytes
  pid : Nat
  created : Nat
  ended : Option Nat
  seen : Option Nat

/-- Its process was created and the server has not noticed its end yet. -/
def Job.live (j : Job) : Bool := j.pid != 0 && j.seen.isNone

/-- What is shown of it. -/
def Job.line (j : Job) : Hook :=
  { kind := j.kind, args := j.args, pid := j.pid, created := j.created, finished := j.seen.getD 0
    status := if j.seen.isSome then wexit (j.ended.getD 0) else 0 }

/-- Its end was not noticed more than 300 seconds before `now`. -/
def Job.keep (now : Nat) (j : Job) : Bool :=
  match j.seen with
  | none => true
  | some t => decide (now ≤ t + 300)

/-- One event on the list of jobs.  A cleanup notices all the processes that have terminated; if all were noticed before, it
    drops the jobs noticed more than 300 seconds ago. -/
def jobStep (J : List Job) : HookEv → List Job
  | .start kind args now fork => J ++ [⟨kind, args, fork.getD 0, now, none, none⟩]
  | .wait kind args now fork fin st _ => J ++ [⟨kind, args, fork.getD 0, now, some st, some fin⟩]
  | .exit pid st => J.map (fun j => if j.pid = pid ∧ j.ended = none then { j with ended := some st } else j)
  | .clean now _ =>
    if J.any Job.live then J.map (fun j => if j.live ∧ j.ended.isSome then { j with seen := some now } else j)
    else J.filter (Job.keep now)

def jobRun : List Job → List HookEv → List Job
  | J, [] => J
  | J, e :: es => jobRun (jobStep J e) es

/-- What the operating system does: a new process has a number which no child has, the terminated children are given, in
    any order, by `waitpid`.  The clock is not at zero. -/
def HookGuard (y : HookSys) : HookEv → Prop
  | .start _ _ _ fork => ∀ p, fork = some p → 0 < p ∧ p ≤ 2 ^ 22 ∧ p ∉ y.kids.map (·.1)
  | .wait _ _ _ fork fin st got =>
    0 < fin ∧ (∀ p, fork = some p → 0 < p ∧ p ≤ 2 ^ 22 ∧ p ∉ y.kids.map (·.1)) ∧
      (fork = none → (got = none ∧ y.kids = []) ∨ ∃ p, got = some p ∧ (p, some st) ∈ y.kids)
  | .exit pid _ => (pid, none) ∈ y.kids
  | .clean now done => 0 < now ∧ done.Perm (zombies y.kids)

/-- The executions: `HookGuard` holds at every event. -/
def HookOK : HookSys → List HookEv → Prop
  | _, [] => True
  | y, e :: es => HookGuard y e ∧ ∀ y', hookStep y e = some y' → HookOK y' es

/-- The process of a hook that the server waits for was created. -/
def HookEv.forked : HookEv → Prop
  | .wait _ _ _ fork _ _ _ => fork.isSome
  | _ => True

/-- The server at its start. -/
def hookSys0 : HookSys := { tab := hookInit, kids := [] }

end Zdb
