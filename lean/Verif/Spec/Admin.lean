/-
C84: another password of administrators, and what must not happen for it to stay unknown.
-/
import Verif.Spec.Secret
namespace Zdb

/-- Started with `--admin q` instead. -/
def readmin (q : Bytes) (S : Settings) : Settings := { S with adminpwd := some q }

/-- AUTH with these words gives the password `x`, in clear or as the digest of the challenge of the client. -/
def GivesAdmin (S : Settings) (c : Client) (x : Bytes) : List Bytes → Prop
  | [_, g] => cstr g = x
  | [_, _, h] => ∃ k, c.nonce = some k ∧ cstr h = S.hash k x
  | _ => False

/-- No client gives the password of administrators, nor `q`. -/
def Unadmin (S : Settings) (q : Bytes) (n : Node) : Event → Prop
  | .request fd e argv => ∀ p, pick n fd e argv = some p → p.h = .auth →
      ∀ x, (x = q ∨ S.adminpwd = some x) → ¬ GivesAdmin S p.c x p.argv
  | _ => True

/-- The same for each event of an execution from `n` on. -/
def UnadminRun (S : Settings) (q : Bytes) : Node → List (Event × List (Nat × Msg)) → Prop
  | _, [] => True
  | n, x :: l => Unadmin S q n x.1 ∧ ∀ n1 sent st, nodeStep S n x.1 = .ok n1 sent st → UnadminRun S q n1 l

/-- With `--protect`, where the password of administrators is also that of the default namespace `u`: nobody gives either password to AUTH
    or SELECT, no master asks for it, and at a restart the settings file of the default namespace is the same in both servers, as it is
    until an administrator changes its settings. -/
def Protected (S : Settings) (q : Bytes) (u : Nat) (n m : Node) : Event → Prop
  | .restart _ => ∃ r r', nsDeref n u = some r ∧ nsDeref m u = some r' ∧ r.conf.name = nameDefault ∧ r'.desc = r.desc
  | ev => Untold S u n m ev ∧ Unadmin S q m ev

/-- The same for each event of an execution of both servers. -/
def ProtectRun (S : Settings) (q : Bytes) (u : Nat) : Node → Node → List (Event × List (Nat × Msg)) → Prop
  | _, _, [] => True
  | n, m, x :: l => Protected S q u n m x.1 ∧
      ∀ n1 m1 sent st, nodeStep S n x.1 = .ok n1 sent st → nodeStep (readmin q S) m x.1 = .ok m1 sent st → ProtectRun S q u n1 m1 l

end Zdb
