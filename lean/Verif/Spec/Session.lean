/-
A client walking over a namespace with SCAN or RSCAN, seen from its requests and replies.
-/
import Verif.Spec.UserTrace
namespace Zdb

/-- A client repeats the command `d`, first without cursor and then with the last cursor received, until
    the reply "No more data".  The calls of this client are marked `true`; what happens in between is
    marked `false`.  `Session d cur seg rows`: having the cursor `cur`, the client sees the events `seg`
    and receives the rows `rows` in this order. -/
inductive Session (d : DsCmd) : Option Bytes → List (Bool × (NsEvent × Reply)) → List Reply → Prop where
  | other {cur : Option Bytes} {x : NsEvent × Reply} {seg : List (Bool × (NsEvent × Reply))} {rows : List Reply}
      (h : Session d cur seg rows) : Session d cur ((false, x) :: seg) rows
  | stop {cur : Option Bytes} {c : Ctx} {name : Bytes} :
      Session d cur [(true, (.cmd c d (name :: cur.toList), .err "No more data"))] []
  | more {cur : Option Bytes} {c : Ctx} {name cur' : Bytes} {rows rows' : List Reply}
      {seg : List (Bool × (NsEvent × Reply))} (h : Session d (some cur') seg rows') :
      Session d cur ((true, (.cmd c d (name :: cur.toList), .arr [.bulk cur', .arr rows])) :: seg) (rows ++ rows')

/-- In every call of the session the clock lets the loop run at least once. -/
def Sliced (seg : List (Bool × (NsEvent × Reply))) : Prop :=
  ∀ x ∈ seg, ∀ c d argv r, x = (true, (.cmd c d argv, r)) → 1 ≤ c.slice

/-- Nothing but commands that neither store nor remove anything nor change the current file. -/
def Quiet (seg : List (Bool × (NsEvent × Reply))) : Prop :=
  ∀ x ∈ seg, ∃ c d argv, x.2.1 = .cmd c d argv ∧ d.changes = false

/-- All events are calls of the client itself; call number `i` happens in the context `cs i`. -/
def OwnCalls (d : DsCmd) (name : Bytes) (cs : Nat → Ctx) (seg : List (Bool × (NsEvent × Reply))) : Prop :=
  ∀ (i : Nat) (x : Bool × (NsEvent × Reply)), seg[i]? = some x →
    x.1 = true ∧ ∃ rest, x.2.1 = .cmd (cs i) d (name :: rest)

/-- A number printed with `%d`: a 32-bit two's complement value. -/
def shown (n : Nat) : Int := if n < 2 ^ 31 then n else (n : Int) - 2 ^ 32

/-- A row of the reply of SCAN. -/
def scanRow (k : Bytes) (len time : Nat) : Reply := .arr [.bulk k, .int (shown len), .int (shown time)]

/-- Is it a row of a key satisfying `Q`? -/
def rowFor (Q : Bytes → Bool) : Reply → Bool
  | .arr (.bulk k :: _) => Q k
  | _ => false

end Zdb
