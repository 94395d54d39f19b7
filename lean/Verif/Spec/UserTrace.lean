/-
What a client can say about a user-key namespace by looking only at requests and replies.
-/
import Verif.Spec.UserMap
namespace Zdb

/-- What a request and its reply say about key `k`: `some (some p)` if it is an acknowledged SET of `p`,
    `some none` if it is an acknowledged DEL, `none` otherwise. -/
def writeOf (k : Bytes) : NsEvent × Reply → Option (Option Bytes)
  | (.cmd _ .set (_ :: k' :: p :: _), .bulk _) => if k' = k then some (some p) else none
  | (.cmd _ .del (_ :: k' :: _), .simple _) => if k' = k then some none else none
  | _ => none

/-- The payload of the last acknowledged SET of `k` not followed by an acknowledged DEL, if any. -/
def lastWrite (k : Bytes) (tr : List (NsEvent × Reply)) : Option Bytes :=
  tr.foldl (fun a x => (writeOf k x).getD a) none

/-- Commands whose reply is determined by the map. -/
def DsCmd.determined : DsCmd → Bool
  | .scan | .rscan | .kscan | .keycur | .history | .index | .data => false
  | _ => true

/-- Commands of a trace, without replies. -/
def cmdsOf (tr : List (NsEvent × Reply)) : List (Ctx × DsCmd × List Bytes) :=
  tr.filterMap fun x => match x.1 with
    | .cmd c d argv => some (c, d, argv)
    | _ => none

/-- Commands of a trace whose reply is determined by the map, with their replies. -/
def visible (tr : List (NsEvent × Reply)) : List ((Ctx × DsCmd × List Bytes) × Reply) :=
  tr.filterMap fun x => match x.1 with
    | .cmd c d argv => if d.determined then some ((c, d, argv), x.2) else none
    | _ => none

/-- Commands whose reply is determined by the map or by the places of the records in the index files. -/
def DsCmd.placed (d : DsCmd) : Bool :=
  d.determined || decide (d = .scan) || decide (d = .rscan) || decide (d = .keycur)

/-- Commands of a trace of these kinds, with their replies. -/
def repliesOf (tr : List (NsEvent × Reply)) : List ((Ctx × DsCmd × List Bytes) × Reply) :=
  tr.filterMap fun x => match x.1 with
    | .cmd c d argv => if d.placed then some ((c, d, argv), x.2) else none
    | _ => none

/-- Commands that may store or remove something. -/
def DsCmd.writes : DsCmd → Bool
  | .set | .del => true
  | _ => false

/-- The SETs and DELs among some commands. -/
def writesOf (l : List (Ctx × DsCmd × List Bytes)) : List (Ctx × DsCmd × List Bytes) :=
  l.filter (fun x => x.2.1.writes)

end Zdb
