/-
Replies, and sockets that work.
-/
import Verif.Model.Reply
namespace Zdb.Out

/-- The reply made by an event. -/
def OutEv.reply : OutEv → Bytes
  | .heap r _ => r
  | .stack r _ => r
  | .writable _ => []

def OutEv.answers : OutEv → List Send
  | .heap _ as => as
  | .stack _ as => as
  | .writable as => as

/-- All replies, one after the other. -/
def replies (es : List OutEv) : Bytes := es.flatMap OutEv.reply

/-- The socket takes bytes, or asks to wait. -/
def Sound (as : List Send) : Prop := ∀ a ∈ as, a = .again ∨ ∃ k, a = .took k

/-- The socket takes something in each of its next `n` answers. -/
def Accepts (n : Nat) (as : List Send) : Prop := ∃ ks : List Nat, ∃ more : List Send, as = ks.map .took ++ more ∧ n ≤ ks.length

end Zdb.Out
