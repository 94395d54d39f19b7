/-
Conditions on the environment under which the run theorems hold.
-/
import Verif.Model.Engine
namespace Zdb

/-- The conditions on the context of a command: writes to index files succeed (writes to data files may
    fail or be cut), the file size limit is at most 2 GiB, a quota is below 2^63. -/
structure CtxOK (c : Ctx) : Prop where
  iapp : c.io.iapp = none
  iflag : c.io.iflag = none
  iover : c.io.iover = none
  limit : c.limit ≤ 2 ^ 31
  quota : c.conf.maxsize < 2 ^ 63

/-- The arguments of a command as the parser delivers them: the name is not empty (the empty
    name selects another handler) and no argument is longer than 8 MiB. -/
structure ArgsOK (argv : List Bytes) : Prop where
  name : ∃ n rest, argv = n :: rest ∧ n ≠ []
  size : ∀ b ∈ argv, b.length ≤ 2 ^ 23

def EvOK : NsEvent → Prop
  | .cmd c _ argv => CtxOK c ∧ ArgsOK argv
  | .foreign => True
  | .reload => True

/-- Number of events covered by the run theorems: `2^32 - 2`. -/
def maxEvents : Nat := 2 ^ 32 - 2

/-- The namespace can still take `n` commands without running out of file numbers or overflowing a
    64-bit total. -/
def Room (ifiles totalData n : Nat) : Prop := ifiles + n < 2 ^ 32 ∧ totalData + n * 2 ^ 24 < 2 ^ 63

end Zdb
