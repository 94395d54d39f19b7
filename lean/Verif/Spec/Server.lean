/-
What a client of the daemon may expect: stated on the events of the node, the bytes the client has sent and those it has
received.
-/
import Verif.Model.Server
import Verif.Spec.Wire
import Verif.Spec.Reply
import Verif.Spec.NodeView
namespace Zdb.Server

open Zdb.Wire

/-- The event is a new connection on `fd`. -/
def isConnect (fd : Nat) : Event → Bool
  | .connect f => f == fd
  | _ => false

/-- The part of a log after the last connection on `fd`. -/
def since (fd : Nat) (l : List (Event × List (Nat × Msg))) : List (Event × List (Nat × Msg)) :=
  l.foldl (fun acc x => if isConnect fd x.1 then [] else acc ++ [x]) []

/-- The requests of `fd`. -/
def askedBy (fd : Nat) (l : List (Event × List (Nat × Msg))) : List (List Bytes) :=
  l.filterMap (fun x => match x.1 with
    | .request f _ argv => if f = fd then some argv else none
    | _ => none)

/-- The messages sent to `fd`. -/
def toldTo (fd : Nat) (l : List (Event × List (Nat × Msg))) : List Msg :=
  l.flatMap (fun x => x.2.filterMap (fun y => if y.1 = fd then some y.2 else none))

/-- The value `v` is what the message `m` says. -/
def Means : Msg → Value → Prop
  | .reply r, v => valueOf r = some v
  | .stream _ l, v => ∃ vs, valueOf.values l = some vs ∧ v = .array vs
  | .nsinfo _, v => ∃ text, v = .bulk text
  | .server, v => ∃ text, v = .bulk text
  | .challenge nonce, v => v = .simple nonce
  | .notice cmd, v => v = .simple cmd
  | .mirrored, v => ∃ now name owner argv, v = mirrorValue now name owner argv

/-- The values are what the messages say, one for each. -/
def Says (ms : List Msg) (vs : List Value) : Prop :=
  ms.length = vs.length ∧ ∀ (i : Nat) (m : Msg) (v : Value), ms[i]? = some m → vs[i]? = some v → Means m v

/-- The conditions of `NodeRun` on every event of a log, and challenges are on one line (`zdb_challenge`, libzdb/security.c:13-33,
    makes 16 hexadecimal digits). -/
def Guarded (S : Settings) (n0 : Node) (l : List (Event × List (Nat × Msg))) : Prop :=
  ∀ n1 l1 ev sent l2, l = l1 ++ (ev, sent) :: l2 → NodeRun S n0 l1 n1 →
    Guard S n1 ev ∧ ∀ fd e argv, ev = .request fd e argv → ∀ x ∈ e.nonce, x ≠ 13 ∧ x ≠ 10

/-- Each `send` takes bytes or asks to wait. -/
def Sends.Sound (a : Sends) : Prop := Out.Sound a.last ∧ ∀ x ∈ a.cuts, Out.Sound x.2

/-- Sockets take bytes or ask to wait. -/
def Ev.Sound : Ev → Prop
  | .recv _ _ _ ans => ∀ i, (ans i).Sound
  | .writable _ as => Out.Sound as
  | .tick _ ans => ∀ i, (ans i).Sound
  | _ => True

end Zdb.Server
