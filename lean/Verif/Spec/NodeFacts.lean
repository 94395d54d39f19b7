/-
Words used in the statements about the node.
-/
import Verif.Lemmas.NodeLife
namespace Zdb

/-- States the node can be in: after a first start and any events. -/
def Reachable (S : Settings) (n : Node) : Prop := ∃ n0 l, Started S n0 ∧ NodeRun S n0 l n

/-- Files, settings and in-memory tables of all namespaces are the same. -/
def SameNode (n n' : Node) : Prop := n'.slots = n.slots ∧ n'.br = n.br ∧ n'.effective = n.effective

/-- The client received an error as answer. -/
def GotError (fd : Nat) (sent : List (Nat × Msg)) : Prop := ∃ s, sent.head? = some (fd, .reply (.err s))

/-- The client received `+OK` as answer. -/
def GotOk (fd : Nat) (sent : List (Nat × Msg)) : Prop := sent.head? = some (fd, .reply .ok)

/-- Nothing about the client changed but the number of its last command. -/
def SameClient (n n' : Node) (fd : Nat) : Prop :=
  ∃ c c', getClient n fd = some c ∧ getClient n' fd = some c' ∧ { c' with executed := c.executed } = c

/-- A request was refused: an error is sent, namespaces and client are as before. -/
def Refused (n n' : Node) (fd : Nat) (sent : List (Nat × Msg)) : Prop :=
  GotError fd sent ∧ SameNode n n' ∧ SameClient n n' fd

/-- A namespace of that name exists. -/
def HasName (n : Node) (name : Bytes) : Prop := ∃ r, some r ∈ n.slots ∧ r.conf.name = name

/-- The client `fd` stays the same connection during an event. -/
def Stays (fd : Nat) : Event → Prop
  | .connect fd' | .disconnect fd' => fd' ≠ fd
  | .restart _ => False
  | _ => True

end Zdb
