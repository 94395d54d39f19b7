/-
What somebody who looks at the output of the tool namespace-dump learns.
-/
import Verif.Model.Node
import Verif.Spec.Resp
import Verif.Spec.Example
namespace Zdb.NsDump

/-- A text as lines. -/
def lines : Bytes → List Bytes
  | [] => [[]]
  | b :: l =>
    if b = 10 then [] :: lines l
    else
      match lines l with
      | [] => [[b]]
      | x :: xs => (b :: x) :: xs

/-- What stands behind a label: the rest of the first line that begins with it. -/
def value (label : String) (text : Bytes) : Option Bytes :=
  (lines text).findSome? fun l => if (str label).isPrefixOf l then some (l.drop (str label).length) else none

/-- The text tells the settings `c`.  Worm mode is told by the number 2. -/
structure Tells (text : Bytes) (c : NsConf) : Prop where
  name : value "[+] name        : " text = some c.name
  password : value "[+] password    : " text = some (c.password.getD (str "<no password set>"))
  isPublic : value "[+] public flag : " text = some (str (if c.isPublic then "1" else "0"))
  worm : value "[+] mode worm   : " text = some (str (if c.worm then "2" else "0"))
  maxsize : ∃ more, value "[+] maximum size: " text = some (Resp.digits c.maxsize ++ str " bytes" ++ more)

/-- No name or password goes over the end of a line. -/
def OneLine (c : NsConf) : Prop := (10 : UInt8) ∉ c.name ∧ ∀ p, c.password = some p → (10 : UInt8) ∉ p

end Zdb.NsDump
