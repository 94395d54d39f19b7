/-
What an administrator can say about a namespace with NSSET.
-/
import Verif.Spec.NodeView
import Verif.Spec.NodeFacts
import Verif.Spec.Resp
import Verif.Spec.Example
namespace Zdb

/-- `NSSET <name> <prop> <value>` turns the settings `c` into `c'`.  A flag is set by a value that begins with `1`. -/
inductive Told (c : NsConf) (prop value : Bytes) : NsConf → Prop where
  | password (h : prop = str "password") (hv : value ≠ str "*") : Told c prop value { c with password := some value }
  | nopassword (h : prop = str "password") (hv : value = str "*") : Told c prop value { c with password := none }
  | isPublic (h : prop = str "public") : Told c prop value { c with isPublic := value.head? == some 49 }
  | worm (h : prop = str "worm") : Told c prop value { c with worm := value.head? == some 49 }
  | maxsize (h : prop = str "maxsize") (m : Nat) (hm : ∀ k, k < 2 ^ 63 → value = Resp.digits k → m = k) :
      Told c prop value { c with maxsize := m }
  | lock (h : prop = str "lock") : Told c prop value { c with lock := if value.head? = some 49 then .locked else .unlocked }
  | freeze (h : prop = str "freeze") : Told c prop value { c with lock := if value.head? = some 49 then .frozen else .unlocked }
  | mode (h : prop = str "mode") : Told c prop value c

/-- The event is an NSSET of an administrator, which was acknowledged, and turns settings `c` into `c'`.  The arguments are read up to
    the first NUL byte. -/
def AdminSays (n : Node) (ev : Event) (sent : List (Nat × Msg)) (c c' : NsConf) : Prop :=
  ∃ fd e argv p w name prop value, ev = .request fd e argv ∧ pick n fd e argv = some p ∧ p.h = .nsset ∧ p.c.admin = true ∧
    p.argv = [w, name, prop, value] ∧ cstr name = c.name ∧ Told c (cstr prop) (cstr value) c' ∧ GotOk fd sent

/-- The settings but the locked or frozen state.  An empty password is none (`C33_refuted`). -/
def lasting (c : NsConf) : NsConf := { c with lock := .unlocked, password := c.password.filter (fun p => !p.isEmpty) }

end Zdb
