/-
C29: replies are delivered in order and unmixed.
-/
import Verif.Lemmas.Reply
import Verif.Spec.Example
namespace Zdb.Out

/-- C29.  Whatever replies are made, from the heap or the stack, whenever the socket becomes writable, and however much it takes
    each time: the bytes delivered and then those waiting are the replies in order.  Hence the bytes delivered are always a first
    part of the replies, and what was delivered once stays.

    Missing: errors of `send` other than EAGAIN, see `C29_refuted`. -/
theorem C29_order_partial {es : List OutEv} (h : ∀ e ∈ es, Sound e.answers) :
    (Out.new.run es).delivered ++ (Out.new.run es).queue.flatten = replies es ∧ (Out.new.run es).delivered <+: replies es ∧
      ∀ es' es'', es = es' ++ es'' → (Out.new.run es').delivered <+: (Out.new.run es).delivered := by
  have h1 := (run_sum h Out.new).1
  have h2 : (Out.new.run es).delivered ++ (Out.new.run es).queue.flatten = replies es := by simpa [Out.new] using h1
  refine ⟨h2, ⟨_, h2⟩, fun es' es'' he => ?_⟩
  subst he
  have : Out.new.run (es' ++ es'') = (Out.new.run es').run es'' := by simp [Out.run]
  rw [this]
  exact (run_sum (fun e he => h e (List.mem_append_right _ he)) _).2

/-- C29: when the socket becomes writable and takes what it is given, everything is delivered and nothing waits. -/
theorem C29_drained {es : List OutEv} (h : ∀ e ∈ es, Sound e.answers) {as : List Send}
    (ha : Accepts (replies es).length as) :
    (Out.new.run (es ++ [.writable as])).delivered = replies es ∧ (Out.new.run (es ++ [.writable as])).queue = [] := by
  have h1 := (C29_order_partial h).1
  have h2 : Out.new.run (es ++ [.writable as]) = (Out.new.run es).writable as := by simp [Out.run, Out.step]
  have h3 : Accepts (Out.new.run es).queue.flatten.length as := by
    obtain ⟨ks, more, g1, g2⟩ := ha
    refine ⟨ks, more, g1, ?_⟩
    rw [← h1, List.length_append] at g2
    omega
  rw [h2, Out.writable, drainQueue_accepts h3]
  exact ⟨h1, rfl⟩

/-- C29: nothing waits if the socket never asked to: a reply is delivered at once. -/
theorem C29_immediate {o : Out} (hq : o.queue = []) {r : Bytes} {as : List Send} (ha : Accepts r.length as) :
    o.step (.heap r as) = { delivered := o.delivered ++ r, queue := [] } ∧
      o.step (.stack r as) = { delivered := o.delivered ++ r, queue := [] } := by
  obtain ⟨as', h1, _⟩ := sendResponse_accepts (n := 0) (out := o.delivered) (r := r) (as := as) ha
  constructor
  · show o.heap as r = _
    rw [Out.heap, if_pos hq, h1, ← hq]
  · show o.stack as r = _
    rw [Out.stack, if_pos hq, h1, ← hq]

/-- Three replies to a slow client. -/
def exOut : List OutEv :=
  [.stack (str "+PONG\r\n") [.took 2, .again], .heap (str "$1\r\nv\r\n") [.took 9], .writable [.took 3, .took 2, .again],
    .stack (str ":1\r\n") []]

/-- The case: the replies were cut and had to wait, and are delivered in order at last. -/
theorem C29_example : (∀ e ∈ exOut, Sound e.answers) ∧ (Out.new.run exOut).delivered = str "+PONG\r\n$1\r" ∧
    (Out.new.run exOut).queue = [str "\nv\r\n", str ":1\r\n"] ∧
    (Out.new.run (exOut ++ [.writable (List.replicate 20 (.took 0))])).delivered = str "+PONG\r\n$1\r\nv\r\n:1\r\n" := by
  refine ⟨?_, by decide, by decide, by decide⟩
  intro e he
  simp only [exOut, List.mem_cons, List.not_mem_nil, or_false] at he
  rcases he with h | h | h | h <;> subst h <;> intro a ha <;>
    simp only [OutEv.answers, List.mem_cons, List.not_mem_nil, or_false] at ha
  · rcases ha with h | h <;> subst h
    · exact Or.inr ⟨_, rfl⟩
    · exact Or.inl rfl
  · subst ha; exact Or.inr ⟨_, rfl⟩
  · rcases ha with h | h | h <;> subst h
    · exact Or.inr ⟨_, rfl⟩
    · exact Or.inr ⟨_, rfl⟩
    · exact Or.inl rfl

/-- C29 fails when `send` fails for another reason, such as ENOMEM, which does not end the connection: the rest of the reply is
    dropped and the next reply follows in the middle of it. -/
theorem C29_refuted : (Out.new.run [.stack (str "+PONG\r\n") [.took 2, .error], .stack (str ":1\r\n") [.took 9]]).delivered =
      str "+PO:1\r\n" ∧
    ¬ (Out.new.run [.stack (str "+PONG\r\n") [.took 2, .error], .stack (str ":1\r\n") [.took 9]]).delivered <+:
      str "+PONG\r\n:1\r\n" := by
  constructor <;> decide

end Zdb.Out
