/-
Conditions for the rebuild tool, and what is compared.
-/
import Verif.Model.Rebuild
import Verif.Spec.Bounds
namespace Zdb

/-- The writes of the event to the data file are complete. -/
def WholeData : NsEvent → Prop
  | .cmd c _ _ => c.io.dhdr = none ∧ c.io.dpay = none
  | _ => True

/-- What is read by a command on a namespace loaded from these files; `none` if it is not loaded. -/
def readAfter (c : Ctx) (ifiles dfiles : List Bytes) (d : DsCmd) (argv : List Bytes) : Option Reply :=
  match loadNs (some .user) (fun _ => []) c.u ifiles dfiles with
  | .ok br s => some (dsCommand c br s d argv).2.2
  | _ => none

/-- What is read with the index made by the tool; `none` if the tool does not end normally. -/
def readRebuilt (c : Ctx) (dfiles : List Bytes) (d : DsCmd) (argv : List Bytes) : Option Reply :=
  match rebuild .user 0 c.u dfiles with
  | .done _ s => readAfter c s.ifiles dfiles d argv
  | _ => none

/-- A tool that ended with a NULL dereference. -/
def RebuildRes.isNull : RebuildRes → Bool
  | .null => true
  | _ => false

end Zdb
