/-
What clients have stored, as told by the requests and the replies alone.
-/
import Verif.Spec.Answers
namespace Zdb.Server

/-- The reply to the client who asked. -/
def replyTo (fd : Nat) (sent : List (Nat × Msg)) : Reply :=
  match sentTo fd sent with
  | [.reply r] => r
  | _ => .nil

/-- The command which the first word of a request calls (C30). -/
def commandOf (argv : List Bytes) : Option Handler :=
  (argv.head?.bind lookupCmd).bind (fun i => (handlers[i]?).map (·.2))

/-- What an observer of all connections knows: the namespace each client has selected, and what a key of one namespace
    contains. -/
structure Seen where
  place : Nat → Bytes
  value : Option Bytes

/-- What it knows after one more event.  A connection begins in the default namespace; an accepted SELECT moves the client.  An
    accepted SET or DEL of key `k` by a client in namespace `name` changes the contents; an accepted NSNEW of `name` empties
    the namespace.  Names end at a NUL. -/
def Seen.next (name k : Bytes) (s : Seen) (x : Event × List (Nat × Msg)) : Seen :=
  match x.1 with
  | .connect fd => { s with place := fun f => if f = fd then nameDefault else s.place f }
  | .request fd _ argv =>
    match commandOf argv, argv, replyTo fd x.2 with
    | some .select, _ :: a :: _, .simple _ => { s with place := fun f => if f = fd then cstr a else s.place f }
    | some .nsnew, _ :: a :: _, .simple _ => if cstr a = name then { s with value := none } else s
    | some (.ds .set), _ :: k' :: p :: _, .bulk _ => if s.place fd = name ∧ k' = k then { s with value := some p } else s
    | some (.ds .del), _ :: k' :: _, .simple _ => if s.place fd = name ∧ k' = k then { s with value := none } else s
    | _, _, _ => s
  | _ => s

/-- What it knows after some events. -/
def seen (name k : Bytes) (l : List (Event × List (Nat × Msg))) : Seen :=
  l.foldl (Seen.next name k) { place := fun _ => nameDefault, value := none }

/-- The namespace a client has selected. -/
def placeOf (fd : Nat) (l : List (Event × List (Nat × Msg))) : Bytes := (seen [] [] l).place fd

/-- The contents of a key of a namespace: the payload of the last SET accepted there, from any client, since the namespace was
    made, if no DEL was accepted since. -/
def stored (name k : Bytes) (l : List (Event × List (Nat × Msg))) : Option Bytes := (seen name k l).value

/-- At each event of a log: index writes succeed, arguments have at most 8 MiB, quotas are below 2^63. -/
def AllFair (S : Settings) (n0 : Node) (l : List (Event × List (Nat × Msg))) : Prop :=
  ∀ n1 l1 ev sent l2, l = l1 ++ (ev, sent) :: l2 → NodeRun S n0 l1 n1 → ∀ u, Fair n1 u ev

/-- No request calls MASTER. -/
def NoMaster (l : List (Event × List (Nat × Msg))) : Prop :=
  ∀ fd e argv sent, (Event.request fd e argv, sent) ∈ l → Without wordMaster argv

/-- No request of the log calls the command. -/
def Never (h : Handler) (l : List (Event × List (Nat × Msg))) : Prop :=
  ∀ fd e argv sent, (Event.request fd e argv, sent) ∈ l → commandOf argv ≠ some h

/-- What a client is told by a GET of `k`: the contents, or nothing. -/
def told (v : Option Bytes) : Wire.Value :=
  match v with
  | some p => .bulk p
  | none => .nil

end Zdb.Server
