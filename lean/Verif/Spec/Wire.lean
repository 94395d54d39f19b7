/-
The protocol as clients read it: values of RESP and a reader.
-/
import Verif.Model.Wire
namespace Zdb.Wire

/-- A value of the protocol. -/
inductive Value where
  | nil
  | simple (s : Bytes)
  | error (s : Bytes)
  | int (i : Int)
  | bulk (b : Bytes)
  | array (l : List Value)

/-- A line and what follows it. -/
def readLine : Bytes → Option (Bytes × Bytes)
  | [] => none
  | [_] => none
  | a :: b :: s =>
    if a = 13 ∧ b = 10 then some ([], s)
    else
      match readLine (b :: s) with
      | none => none
      | some (l, r) => some (a :: l, r)

/-- A decimal number without sign. -/
def readNat (acc : Nat) : Bytes → Option Nat
  | [] => some acc
  | d :: s => if 48 ≤ d ∧ d ≤ 57 then readNat (acc * 10 + (d.toNat - 48)) s else none

/-- A decimal number. -/
def readInt : Bytes → Option Int
  | [] => none
  | 45 :: d :: s => (readNat 0 (d :: s)).map (fun n : Nat => -(n : Int))
  | s => (readNat 0 s).map (fun n : Nat => (n : Int))

/-- Several values, read by `f` one after the other. -/
def readMany (f : Bytes → Option (Value × Bytes)) : Nat → Bytes → Option (List Value × Bytes)
  | 0, s => some ([], s)
  | n + 1, s =>
    match f s with
    | none => none
    | some (v, s) =>
      match readMany f n s with
      | none => none
      | some (l, s) => some (v :: l, s)

/-- One value and what follows it; arrays are at most `depth - 1` deep. -/
def readValue : Nat → Bytes → Option (Value × Bytes)
  | 0, _ => none
  | _, [] => none
  | depth + 1, t :: s =>
    match readLine s with
    | none => none
    | some (line, s) =>
      if t = /- + -/ 43 then some (.simple line, s)
      else if t = /- - -/ 45 then some (.error line, s)
      else if t = /- : -/ 58 then (readInt line).map (fun i => (.int i, s))
      else if t = /- $ -/ 36 then
        match readInt line with
        | none => none
        | some i =>
          if i = -1 then some (.nil, s)
          else if i < 0 then none
          else if (s.drop i.toNat).take 2 = [13, 10] then some (.bulk (s.take i.toNat), s.drop (i.toNat + 2))
          else none
      else if t = /- * -/ 42 then
        match readInt line with
        | none => none
        | some i =>
          if i < 0 then none
          else (readMany (readValue depth) i.toNat s).map (fun (l, s) => (.array l, s))
      else none

/-- All complete values of a stream, and what is left. -/
def readAll (depth : Nat) : Nat → Bytes → List Value × Bytes
  | 0, s => ([], s)
  | fuel + 1, s =>
    match readValue depth s with
    | none => ([], s)
    | some (v, s') =>
      let (l, r) := readAll depth fuel s'
      (v :: l, r)

/-- What a client which has received `s` has read.  No value takes less than three bytes. -/
def decode (s : Bytes) : List Value × Bytes := readAll 4 s.length s

/-- The value meant by a reply. -/
def valueOf : Reply → Option Value
  | .nil => some .nil
  | .simple s => some (.simple (chars s))
  | .err s => some (.error (chars s))
  | .int i => some (.int i)
  | .bulk b => some (.bulk b)
  | .arr l => (values l).map .array
  | .crash => none
where
  values : List Reply → Option (List Value)
    | [] => some []
    | r :: l =>
      match valueOf r, values l with
      | some v, some vs => some (v :: vs)
      | _, _ => none

/-- The value meant by a message; the contents of INFO, NSINFO and of what a mirror receives are given. -/
def msgValue (T : Texts) (mirror : Value) : Msg → Option Value
  | .reply r => valueOf r
  | .stream _ l => (valueOf.values l).map .array
  | .nsinfo i => some (.bulk (T.nsinfo i))
  | .server => some (.bulk T.server)
  | .challenge nonce => some (.simple nonce)
  | .notice cmd => some (.simple cmd)
  | .mirrored => some mirror

/-- What a mirror is told: time, namespace, owner and the request. -/
def mirrorValue (now : Nat) (name : Bytes) (owner : Nat) (argv : List Bytes) : Value :=
  .array (.int now :: .bulk name :: .int owner :: argv.map .bulk)

end Zdb.Wire
