/-
What a client that waits for a command (WAIT) should be sent.
-/
import Verif.Spec.NodeView
namespace Zdb

/-- What one client is sent. -/
def sentTo (j : Nat) (sent : List (Nat × Msg)) : List Msg := sent.filterMap (fun x => if x.1 = j then some x.2 else none)

/-- The number of the command that a request runs.  A client whose namespace was removed runs nothing, but counts as
    running its last command again. -/
def ran (n : Node) (fd : Nat) (e : Env) (argv : List Bytes) : Option Nat :=
  match getClient n fd with
  | none => none
  | some c =>
    match popOwner e c argv with
    | none => none
    | some (_, argv) => if c.ns = none then c.executed else lookupCmd (argv.headD [])

/-- The namespace of a client. -/
def nsOf (n : Node) (fd : Nat) : Option Nat := (getClient n fd).bind (·.ns)

/-- The number of the wildcard `*`. -/
def anyCmd : Nat := 0

/-- What wakes client `j` up, which waits for `w`: the event happens in `n` and leads to `n'`. -/
def wakeup (n n' : Node) (j : Nat) (w : Watch) : Event → Option Msg
  | .request fd e argv =>
    match ran n fd e argv with
    | some i => if nsOf n' j = nsOf n' fd ∧ (w.cmd = i ∨ w.cmd = anyCmd) then some (.notice (cmdName i)) else none
    | none => none
  | .tick us => if deltaMs w.since us > w.timeout then some (.reply (.err "Timeout")) else none
  | _ => none

/-- The event is not a request of client `j`, nor its connection or disconnection, nor a restart. -/
def NotBy (j : Nat) : Event → Prop
  | .request fd _ _ => fd ≠ j
  | .connect fd => fd ≠ j
  | .disconnect fd => fd ≠ j
  | .restart _ => False
  | _ => True

/-- Client `j` is connected, is not a mirror, and waits as said. -/
def Waits (n : Node) (j : Nat) (w : Option Watch) : Prop :=
  ∃ k, getClient n j = some k ∧ k.mirror = false ∧ k.watching = w

/-- The first thing that wakes client `j` up in an execution. -/
inductive FirstWake (S : Settings) (j : Nat) (w : Watch) : Node → List (Event × List (Nat × Msg)) → Option Msg → Prop where
  | nil (n : Node) : FirstWake S j w n [] none
  | now {n n1 : Node} {ev : Event} {sent : List (Nat × Msg)} {st : Status} {l : List (Event × List (Nat × Msg))} {m : Msg}
      (hs : nodeStep S n ev = .ok n1 sent st) (h : wakeup n n1 j w ev = some m) : FirstWake S j w n ((ev, sent) :: l) (some m)
  | later {n n1 : Node} {ev : Event} {sent : List (Nat × Msg)} {st : Status} {l : List (Event × List (Nat × Msg))} {m : Option Msg}
      (hs : nodeStep S n ev = .ok n1 sent st) (h : wakeup n n1 j w ev = none) (h' : FirstWake S j w n1 l m) :
      FirstWake S j w n ((ev, sent) :: l) m

end Zdb
