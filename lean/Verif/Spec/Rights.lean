/-
Words used in the statements about passwords and rights.
-/
import Verif.Spec.NodeFacts
namespace Zdb

/-- What the answer to an event says about the challenge a client holds: the last one sent to this connection. -/
def challengeOf (fd : Nat) (a : Option Bytes) : Event × List (Nat × Msg) → Option Bytes
  | (.connect fd', _) => if fd' = fd then none else a
  | (.disconnect fd', _) => if fd' = fd then none else a
  | (.restart _, _) => none
  | (.request fd' _ _, sent) =>
    if fd' = fd then
      match sent with
      | (_, .challenge x) :: _ => some x
      | _ => a
    else a
  | _ => a

/-- The last challenge sent to the connection `fd`. -/
def lastChallenge (fd : Nat) (l : List (Event × List (Nat × Msg))) : Option Bytes := l.foldl (challengeOf fd) none

/-- A password and the proof that it is known: the password itself, or the digest of a challenge and the password. -/
inductive Proof (S : Settings) (pwd : Bytes) (challenge : Option Bytes) : List Bytes → Prop where
  | plain : Proof S pwd challenge [pwd]
  | digest (w nonce : Bytes) (h : challenge = some nonce) : Proof S pwd challenge [w, S.hash nonce pwd]

/-- The handler a request runs, and its arguments. -/
def Asks (n : Node) (fd : Nat) (e : Env) (argv : List Bytes) (h : Handler) (args : List Bytes) : Prop :=
  ∃ p, pick n fd e argv = some p ∧ p.h = h ∧ p.argv.tail = args

/-- Rights of a client: administrator, namespace, writable. -/
def rights (n : Node) (fd : Nat) : Option (Bool × Option Nat × Bool) := (getClient n fd).map (fun c => (c.admin, c.ns, c.writable))

end Zdb
