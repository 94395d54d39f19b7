/-
Facts about sending replies.
-/
import Verif.Spec.Reply
namespace Zdb.Out

theorem sendResponse_sound {as : List Send} (h : Sound as) (out r : Bytes) :
    let res := sendResponse as out r
    Sound res.1 ∧ (res.2.2 = none → res.2.1 = out ++ r) ∧
      ∀ rest, res.2.2 = some rest → rest ≠ [] ∧ ∃ p, r = p ++ rest ∧ res.2.1 = out ++ p := by
  induction as generalizing out r with
  | nil =>
    cases r with
    | nil => exact ⟨h, fun _ => by simp [sendResponse], fun rest hr => (by cases hr)⟩
    | cons b r =>
      refine ⟨h, fun hr => (by cases hr), fun rest hr => ?_⟩
      injection hr with hr
      subst hr
      exact ⟨by simp, [], rfl, by simp [sendResponse]⟩
  | cons a as ih =>
    have hs : Sound as := fun x hx => h x (List.mem_cons_of_mem _ hx)
    cases r with
    | nil => exact ⟨h, fun _ => by simp [sendResponse], fun rest hr => (by cases hr)⟩
    | cons b r =>
      rcases h a List.mem_cons_self with ha | ⟨k, ha⟩
      · subst ha
        refine ⟨hs, fun hr => (by cases hr), fun rest hr => ?_⟩
        injection hr with hr
        subst hr
        exact ⟨by simp, [], rfl, by simp [sendResponse]⟩
      · subst ha
        have := ih hs (out ++ (b :: r).take (k + 1)) ((b :: r).drop (k + 1))
        simp only [sendResponse] at this ⊢
        refine ⟨this.1, fun hr => ?_, fun rest hr => ?_⟩
        · rw [this.2.1 hr, List.append_assoc, List.take_append_drop]
        · obtain ⟨h1, p, h2, h3⟩ := this.2.2 rest hr
          refine ⟨h1, (b :: r).take (k + 1) ++ p, ?_, ?_⟩
          · rw [List.append_assoc, ← h2, List.take_append_drop]
          · rw [h3, List.append_assoc]

theorem heap_sum {as : List Send} (h : Sound as) (o : Out) (r : Bytes) :
    (o.heap as r).delivered ++ (o.heap as r).queue.flatten = o.delivered ++ o.queue.flatten ++ r ∧
      o.delivered <+: (o.heap as r).delivered := by
  unfold Out.heap
  by_cases hq : o.queue = []
  · rw [if_pos hq]
    have := sendResponse_sound h o.delivered r
    generalize sendResponse as o.delivered r = res at this
    obtain ⟨as', out, x⟩ := res
    cases x with
    | none =>
      have h1 := this.2.1 rfl
      simp only at h1 ⊢
      rw [h1, hq]
      exact ⟨by simp, List.prefix_append _ _⟩
    | some rest =>
      obtain ⟨_, p, h2, h3⟩ := this.2.2 rest rfl
      simp only at h3 ⊢
      rw [h3, h2]
      exact ⟨by simp [Out.push, hq], List.prefix_append _ _⟩
  · rw [if_neg hq]
    exact ⟨by simp [Out.push], List.prefix_refl _⟩

/-- The copy kept by `redis_reply_stack` is the same as what `redis_reply_heap` keeps. -/
theorem stack_eq_heap {as : List Send} (h : Sound as) (o : Out) (r : Bytes) : o.stack as r = o.heap as r := by
  unfold Out.stack Out.heap
  by_cases hq : o.queue = []
  · rw [if_pos hq, if_pos hq]
    have := sendResponse_sound h o.delivered r
    generalize sendResponse as o.delivered r = res at this
    obtain ⟨as', out, x⟩ := res
    cases x with
    | none => rfl
    | some rest =>
      obtain ⟨_, p, h2, _⟩ := this.2.2 rest rfl
      simp only
      rw [h2, List.length_append, Nat.add_sub_cancel, List.drop_left]
  · rw [if_neg hq, if_neg hq]

theorem drainQueue_sum {as : List Send} (h : Sound as) (out : Bytes) (q : List Bytes) :
    (drainQueue as out q).delivered ++ (drainQueue as out q).queue.flatten = out ++ q.flatten ∧
      out <+: (drainQueue as out q).delivered := by
  induction q generalizing as out with
  | nil => exact ⟨rfl, List.prefix_refl _⟩
  | cons r q ih =>
    rw [drainQueue]
    have := sendResponse_sound h out r
    generalize sendResponse as out r = res at this
    obtain ⟨as', out', x⟩ := res
    cases x with
    | none =>
      have h1 := this.2.1 rfl
      simp only at h1 ⊢
      have h2 := ih (as := as') this.1 out'
      refine ⟨by rw [h2.1, h1]; simp, List.IsPrefix.trans ?_ h2.2⟩
      rw [h1]; exact List.prefix_append _ _
    | some rest =>
      obtain ⟨_, p, h2, h3⟩ := this.2.2 rest rfl
      simp only at h3 ⊢
      rw [h3, h2]
      exact ⟨by simp, List.prefix_append _ _⟩

theorem step_sum {e : OutEv} (h : Sound e.answers) (o : Out) :
    (o.step e).delivered ++ (o.step e).queue.flatten = o.delivered ++ o.queue.flatten ++ e.reply ∧
      o.delivered <+: (o.step e).delivered := by
  cases e with
  | heap r as => exact heap_sum h o r
  | stack r as =>
    show (o.stack as r).delivered ++ (o.stack as r).queue.flatten = _ ∧ _ <+: (o.stack as r).delivered
    rw [stack_eq_heap (as := as) h]; exact heap_sum h o r
  | writable as =>
    have := drainQueue_sum h o.delivered o.queue
    simp only [OutEv.reply, List.append_nil]
    exact this

theorem run_sum {es : List OutEv} (h : ∀ e ∈ es, Sound e.answers) (o : Out) :
    (o.run es).delivered ++ (o.run es).queue.flatten = o.delivered ++ o.queue.flatten ++ replies es ∧
      o.delivered <+: (o.run es).delivered := by
  induction es generalizing o with
  | nil => exact ⟨by simp [Out.run, replies], List.prefix_refl _⟩
  | cons e es ih =>
    have h1 := step_sum (h e List.mem_cons_self) o
    have h2 := ih (fun x hx => h x (List.mem_cons_of_mem _ hx)) (o.step e)
    refine ⟨?_, h1.2.trans h2.2⟩
    show ((o.step e).run es).delivered ++ ((o.step e).run es).queue.flatten = _
    rw [h2.1, h1.1]
    simp [replies]

theorem sendResponse_accepts {n : Nat} {as : List Send} {out r : Bytes} (h : Accepts (r.length + n) as) :
    ∃ as', sendResponse as out r = (as', out ++ r, none) ∧ Accepts n as' := by
  obtain ⟨ks, more, h1, h2⟩ := h
  subst h1
  induction ks generalizing out r with
  | nil =>
    rw [List.length_nil] at h2
    have hr : r = [] := List.length_eq_zero_iff.1 (by omega)
    subst hr
    refine ⟨more, ?_, [], more, rfl, by rw [List.length_nil]; omega⟩
    cases more <;> simp [sendResponse]
  | cons k ks ih =>
    cases r with
    | nil =>
      refine ⟨(k :: ks).map .took ++ more, by simp [sendResponse], k :: ks, more, rfl, ?_⟩
      simpa using h2
    | cons b r =>
      obtain ⟨as', g1, g2⟩ := ih (out := out ++ (b :: r).take (k + 1)) (r := (b :: r).drop (k + 1)) (by
        rw [List.length_drop]
        simp only [List.length_cons] at h2 ⊢
        omega)
      refine ⟨as', ?_, g2⟩
      rw [List.map_cons, List.cons_append, sendResponse, g1, List.append_assoc, List.take_append_drop]
      intro h; cases h

theorem drainQueue_accepts {as : List Send} {out : Bytes} {q : List Bytes} (h : Accepts q.flatten.length as) :
    drainQueue as out q = { delivered := out ++ q.flatten, queue := [] } := by
  induction q generalizing as out with
  | nil => simp [drainQueue]
  | cons r q ih =>
    rw [List.flatten_cons, List.length_append] at h
    obtain ⟨as', h1, h2⟩ := sendResponse_accepts (out := out) h
    rw [drainQueue, h1]
    simp only
    rw [ih h2, List.flatten_cons, List.append_assoc]

end Zdb.Out
