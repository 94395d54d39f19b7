/-
What the options of the namespace editor ask for.
-/
import Verif.Model.Editor
import Verif.Spec.Resp
namespace Zdb.Editor

/-- The value of the last option of a kind. -/
def lastOf {α : Type} (f : EdOpt → Option α) (os : List EdOpt) : Option α := (os.filterMap f).getLast?

def nsOf : EdOpt → Option Bytes
  | .ns v => some v
  | _ => none
def passwordOf : EdOpt → Option Bytes
  | .password v => some v
  | _ => none
def maxsizeOf : EdOpt → Option Bytes
  | .maxsize v => some v
  | _ => none
def publicOf : EdOpt → Option Bytes
  | .isPublic v => some v
  | _ => none
def wormOf : EdOpt → Option Bytes
  | .worm v => some v
  | _ => none

/-- `yes` or `no`. -/
def yesNo (b : Bool) : Bytes := if b then [121, 101, 115] else [110, 111]

/-- Settings asked for; `none` where the option is not given. -/
structure Asked where
  password : Option Bytes
  maxsize : Option Nat
  isPublic : Option Bool
  worm : Option Bool

/-- The options ask for these settings of namespace `name`: options may be repeated, the last one counts; flags are `yes` or
    `no`, the size is a decimal number below 2^63, the password is a C string of at most 255 bytes. -/
structure Says (os : List EdOpt) (name : Bytes) (q : Asked) : Prop where
  ns : lastOf nsOf os = some name
  password : lastOf passwordOf os = q.password
  maxsize : lastOf maxsizeOf os = q.maxsize.map Resp.digits
  isPublic : lastOf publicOf os = q.isPublic.map yesNo
  worm : lastOf wormOf os = q.worm.map yesNo
  flags : ∀ o ∈ os, (∀ v, publicOf o = some v ∨ wormOf o = some v → ∃ b, v = yesNo b) ∧ o ≠ .other
  pass : ∀ p, q.password = some p → (0 : UInt8) ∉ p ∧ p.length ≤ 255
  size : ∀ k, q.maxsize = some k → k < 2 ^ 63

/-- The settings of the namespace then: what is not asked for is as the tool says in its help: no password, no limit, public,
    no worm mode.  The empty password is no password. -/
def wanted (q : Asked) (name : Bytes) : NsConf :=
  { name := name
    password := match q.password with
      | some (b :: p) => some (b :: p)
      | _ => none
    maxsize := q.maxsize.getD 0, isPublic := q.isPublic.getD true, worm := q.worm.getD false, lock := .unlocked }

/-- The settings with which the server starts: for the default namespace, the options of the server come first. -/
def served (S : Settings) (c : NsConf) : NsConf :=
  if c.name = nameDefault then
    { c with password := if S.protect then S.adminpwd else c.password, maxsize := if S.maxsize = 0 then c.maxsize else S.maxsize }
  else c

end Zdb.Editor
