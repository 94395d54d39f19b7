/-
C83: another password, and what must not happen for it to stay unknown.
-/
import Verif.Spec.NodeView
import Verif.Spec.Example
namespace Zdb

/-- The password of namespace `u`, if it has one, is `q` instead, and `d` is in the file that keeps it. -/
def alter (u : Nat) (q d : Bytes) (r : NsRec) : NsRec :=
  if r.uid = u then { r with conf := { r.conf with password := r.conf.password.map (fun _ => q) }, desc := d } else r

/-- The same in a server. -/
def repass (u : Nat) (q d : Bytes) (n : Node) : Node := { n with slots := n.slots.map (Option.map (alter u q d)) }

/-- SELECT with these words gives the password `x`, in clear or as the digest of the challenge of the client. -/
def Gives (S : Settings) (c : Client) (x : Bytes) : List Bytes → Prop
  | [_, _, g] => cstr g = x
  | [_, _, _, h] => ∃ k, c.nonce = some k ∧ cstr h = S.hash k x
  | _ => False

/-- Two servers that differ at most in what the password of namespace `u` is. -/
def PassTwin (u : Nat) (n m : Node) : Prop := ∃ q d, m = repass u q d n

/-- While the passwords in the two servers differ, neither is told to a master, and no client gives one of them.  A restart makes no
    password out of an empty one (`C33_refuted`), and sets that of the default namespace, whose settings file is the same in both. -/
def Untold (S : Settings) (u : Nat) (n m : Node) : Event → Prop
  | .restart _ => ∀ r r', nsDeref n u = some r → nsDeref m u = some r' →
      (r.conf.name ≠ nameDefault ∧ (r.conf.password = some [] ↔ r'.conf.password = some [])) ∨
      (r.conf.name = nameDefault ∧ r'.desc = r.desc)
  | .request fd e argv => ∀ p r r', pick n fd e argv = some p → nsDeref n u = some r → nsDeref m u = some r' →
      (p.argv[1]?).map cstr = some r.conf.name → r.conf.password ≠ r'.conf.password →
      (p.h = .nsinfo → p.c.master = false) ∧
      (p.h = .select → ∀ x, (r.conf.password = some x ∨ r'.conf.password = some x) → ¬ Gives S p.c x p.argv)
  | _ => True

/-- The same for each event of an execution of both servers. -/
def UntoldRun (S : Settings) (u : Nat) : Node → Node → List (Event × List (Nat × Msg)) → Prop
  | _, _, [] => True
  | n, m, x :: l => Untold S u n m x.1 ∧
      ∀ n1 m1 sent st, nodeStep S n x.1 = .ok n1 sent st → nodeStep S m x.1 = .ok m1 sent st → UntoldRun S u n1 m1 l

end Zdb
