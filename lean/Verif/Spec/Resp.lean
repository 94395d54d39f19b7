/-
The protocol spoken by clients: how requests are written, and what a socket may deliver.
-/
import Verif.Model.Resp
namespace Zdb.Resp

/-- A number in decimal. -/
def digits (n : Nat) : Bytes :=
  if n < 10 then [UInt8.ofNat (48 + n)] else digits (n / 10) ++ [UInt8.ofNat (48 + n % 10)]
termination_by n

/-- One argument: `$<length>\r\n<bytes>\r\n`. -/
def encArg (a : Bytes) : Bytes := 36 :: digits a.length ++ [13, 10] ++ a ++ [13, 10]

/-- One request: `*<number>\r\n` and the arguments. -/
def encReq (r : List Bytes) : Bytes := 42 :: digits r.length ++ [13, 10] ++ r.flatMap encArg

/-- A sequence of requests. -/
def encAll (rs : List (List Bytes)) : Bytes := rs.flatMap encReq

/-- The requests that the protocol allows here: 1 to 1024 arguments of at most 8 MiB. -/
def OkReq (r : List Bytes) : Prop := 1 ≤ r.length ∧ r.length ≤ 1024 ∧ ∀ a ∈ r, a.length ≤ 8388608

/-- The bytes of an argument. -/
def Arg.content (a : Arg) : Bytes := a.buffer.take a.length.toNat

/-- The requests handed over, as lists of byte strings. -/
def Conn.requests (c : Conn) : List (List Bytes) := c.ran.map (·.map Arg.content)

/-- The bytes received. -/
def received : List Recv → Bytes
  | [] => []
  | .data d :: rs => d ++ received rs
  | _ :: rs => received rs

/-- What `recv` can answer: at least one byte and at most as many as asked for. -/
def Fits (ret : List (List Arg) → Status) : Conn → List Recv → Prop
  | _, [] => True
  | c, r :: rs =>
    (∀ d, r = .data d → d ≠ [] ∧ d.length ≤ c.buf.remain) ∧
      match onRecv ret c r with
      | .open c' => Fits ret c' rs
      | _ => True

/-- The connection neither breaks nor ends. -/
def Up (rs : List Recv) : Prop := ∀ r ∈ rs, r ≠ .eof

/-! ## Where requests come from -/

/-- `s` is made of one piece for each element of a list, in order. -/
inductive InOrder {α : Type} (R : α → Bytes → Prop) : List α → Bytes → Prop where
  | nil : InOrder R [] []
  | snoc {l : List α} {s : Bytes} {a : α} {t : Bytes} (h : InOrder R l s) (ha : R a t) : InOrder R (l ++ [a]) (s ++ t)

/-- `line` begins with the byte `x` and ends with its only newline.  If it is a decimal number, this number is `n`. -/
def NumberLine (x : UInt8) (n : Int) (line : Bytes) : Prop :=
  ∃ t : Bytes, line = x :: (t ++ [10]) ∧ 10 ∉ x :: t ∧ ∀ k : Nat, k < 2 ^ 31 → t = digits k ++ [13] → n = k

/-- An argument and the bytes received it comes from: a line beginning with `$`, and then all the bytes of the argument and two
    more.  Its length is at most 8 MiB. -/
def ArgFrom (a : Arg) (s : Bytes) : Prop :=
  ∃ line : Bytes, NumberLine 36 a.length line ∧ s = line ++ a.buffer ∧ (a.buffer.length : Int) = a.length + 2 ∧
    a.length ≤ 8388608

/-- A request and the bytes it comes from: a line beginning with `*`, and then its arguments, of which there are 1 to 1024. -/
def ReqFrom (r : List Arg) (s : Bytes) : Prop :=
  ∃ line t : Bytes, NumberLine 42 r.length line ∧ s = line ++ t ∧ InOrder ArgFrom r t ∧ 1 ≤ r.length ∧ r.length ≤ 1024

/-- The first line in the buffer is one that is refused without disconnecting the client: a number of arguments which is 0 or
    too large, or no `$` where an argument begins. -/
def Refused (c : Conn) : Prop :=
  ∃ x t u, c.buf.unread = x :: (t ++ 10 :: u) ∧ 10 ∉ x :: t ∧
    ((c.req.state = .empty ∧ x = 42 ∧ ∃ k : Nat, k < 2 ^ 31 ∧ (k = 0 ∨ 1024 < k) ∧ t = digits k ++ [13]) ∨
      (c.req.state = .header ∧ x ≠ 36))

end Zdb.Resp
