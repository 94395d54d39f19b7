/-
Concrete executions of sequential namespaces, used by the examples next to the theorems.
-/
import Verif.Spec.Example
import Verif.Spec.SeqTrace
namespace Zdb

/-- The 8 bytes of an id. -/
def sid (n : Nat) : Bytes := toLE 8 n

/-- Three insertions, a jump, an update, a deletion. -/
def exSeqCmds : List (Ctx × DsCmd × List Bytes) :=
  [(exCtx, .set, [str "SET", [], str "one"]),
   (exCtx, .set, [str "SET", [], str "two"]),
   (exCtx, .nsjump, [str "NSJUMP"]),
   (exCtx, .set, [str "SET", [], str "three"]),
   (exCtx, .set, [str "SET", sid 0, str "uno"]),
   (exCtx, .del, [str "DEL", sid 1]),
   (exCtx, .get, [str "GET", sid 0]),
   (exCtx, .get, [str "GET", sid 1]),
   (exCtx, .get, [str "GET", sid 2]),
   (exCtx, .set, [str "SET", [], str "four"]),
   (exCtx, .dbsize, [str "DBSIZE"])]

/-- Is every file left by these commands non-empty? -/
def cleanCmds (br : Branches) (s : Store) : List (Ctx × DsCmd × List Bytes) → Bool
  | [] => true
  | (c, d, argv) :: l =>
    let x := dsCommand c br s d argv
    (decide (x.2.1.indexid = s.indexid) || decide (29 < fileLen s.ifiles s.indexid)) && cleanCmds x.1 x.2.1 l

def nearKeyB (m : Slots) (k : Bytes) : Bool :=
  k.length != 8 || decide (fromLE k < m.length) || decide (29 + 42 * fromLE k < 2 ^ 32)

/-- Are all arguments of these commands near? -/
def nearCmds (m : Slots) : List (Ctx × DsCmd × List Bytes) → Bool
  | [] => true
  | (c, d, argv) :: l => argv.all (nearKeyB m) && nearCmds (specSeqCmd c m d argv).1 l

end Zdb
