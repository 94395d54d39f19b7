/-
Which message answers which request.
-/
import Verif.Spec.Server
import Verif.Spec.Waiting
namespace Zdb.Server

/-- A letter without its case. -/
def fold (b : UInt8) : UInt8 := if 65 ≤ b ∧ b ≤ 90 then b + 32 else b

/-- The first word of a request calls a command: it is, case aside, the beginning of the name of the command, or the name
    followed by a NUL and anything. -/
def Calls (word name : Bytes) : Prop :=
  word.map fold <+: name.map fold ++ [0] ∨ name.map fold ++ [0] <+: word.map fold

/-- `WAIT` -/
def wordWait : Bytes := [87, 65, 73, 84]
/-- `MIRROR` -/
def wordMirror : Bytes := [77, 73, 82, 82, 79, 82]
/-- `MASTER` -/
def wordMaster : Bytes := [77, 65, 83, 84, 69, 82]

/-- The request does not call the given command. -/
def Without (name : Bytes) (argv : List Bytes) : Prop := ∀ word ∈ argv.head?, ¬ Calls word name

/-- A request which is none of WAIT, MIRROR, MASTER. -/
def Ordinary (argv : List Bytes) : Prop := Without wordWait argv ∧ Without wordMirror argv ∧ Without wordMaster argv

/-- The event is a request of `fd`. -/
def Asks (fd : Nat) : Event → Prop
  | .request f _ _ => f = fd
  | _ => False

/-- Each request of `fd` is answered by one message, sent while it runs, and `fd` is sent nothing else. -/
def Answered (fd : Nat) (l : List (Event × List (Nat × Msg))) : Prop :=
  ∀ x ∈ l, (Asks fd x.1 → ∃ m, sentTo fd x.2 = [m]) ∧ (¬ Asks fd x.1 → sentTo fd x.2 = [])

/-- The requests of `fd` that were answered by one message while they ran, with this message. -/
def answers (fd : Nat) (l : List (Event × List (Nat × Msg))) : List (List Bytes × Msg) :=
  l.filterMap (fun x => match x.1, sentTo fd x.2 with
    | .request f _ argv, [m] => if f = fd then some (argv, m) else none
    | _, _ => none)

end Zdb.Server
