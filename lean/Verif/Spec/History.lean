/-
What HISTORY, KEYCUR and KSCAN should reply, in terms of the versions of a key.
-/
import Verif.Spec.UserMap
namespace Zdb

/-- Reply of HISTORY for one version: the cursor of the version before it (none for the oldest), the time
    in decimal digits, the payload. -/
def histRow (next : Option Bytes) (v : Ver) : Reply :=
  .arr [match next with
        | some e => .bulk e
        | none => .nil,
        .bulk (decBytes v.time), .bulk v.payload]

/-- Following the cursors from `cur` shows exactly the versions `vs`, newest first.  The oldest version
    is only looked at if `oldest` holds. -/
def Recalls (oldest : Prop) (call : Option Bytes → Reply) : Option Bytes → List Ver → Prop
  | _, [] => False
  | cur, [v] => oldest → call cur = histRow none v
  | cur, v :: w :: vs => ∃ e, call cur = histRow (some e) v ∧ Recalls oldest call (some e) (w :: vs)

/-- Following the cursors from `cur` on two sides gives the same replies, and they are those of the versions `vs`,
    newest first.  The oldest version is only looked at if `oldest` holds. -/
def RecallsSame (oldest : Prop) (call call' : Option Bytes → Reply) : Option Bytes → List Ver → Prop
  | _, [] => False
  | cur, [v] => oldest → call cur = histRow none v ∧ call' cur = histRow none v
  | cur, v :: w :: vs => ∃ e, call cur = histRow (some e) v ∧ call' cur = histRow (some e) v ∧
      RecallsSame oldest call call' (some e) (w :: vs)

/-- All versions of a value, newest first. -/
def Val.versions (v : Val) : List Ver := ⟨v.payload, v.time⟩ :: v.older

end Zdb
