/-
Waiting clients.
-/
import Verif.Lemmas.NodeClient
import Verif.Spec.Waiting
namespace Zdb

theorem sentTo_append (j : Nat) (a b : List (Nat × Msg)) : sentTo j (a ++ b) = sentTo j a ++ sentTo j b := by
  simp [sentTo]

theorem sentTo_cons (j fd : Nat) (m : Msg) (l : List (Nat × Msg)) :
    sentTo j ((fd, m) :: l) = (if fd = j then [m] else []) ++ sentTo j l := by
  by_cases h : fd = j <;> simp [sentTo, h]

theorem sentTo_notifyAll (e : Env) (me : Nat) (ns : Option Nat) (exec : Nat) (j : Nat) (hj : j ≠ me) (l : List (Option Client)) :
    ∀ i, sentTo j (notifyAll e me ns exec i l).2 =
      if i ≤ j then ((l[j - i]?).join.bind (fun k => (notifyOne e ns exec k).2)).toList else [] := by
  induction l with
  | nil => intro i; simp [notifyAll, sentTo]
  | cons x l ih =>
    intro i
    have hrest : (if i + 1 ≤ j then ((l[j - (i + 1)]?).join.bind (fun k => (notifyOne e ns exec k).2)).toList else []) =
        if i ≤ j ∧ i ≠ j then (((x :: l)[j - i]?).join.bind (fun k => (notifyOne e ns exec k).2)).toList else [] := by
      by_cases h : i + 1 ≤ j
      · rw [if_pos h, if_pos (by omega)]
        have : j - i = (j - (i + 1)) + 1 := by omega
        rw [this, List.getElem?_cons_succ]
      · rw [if_neg h, if_neg (by omega)]
    cases x with
    | none =>
      simp only [notifyAll]
      rw [ih, hrest]
      by_cases h : i = j
      · subst h; simp
      · simp [h]
    | some k =>
      simp only [notifyAll]
      by_cases hm : i = me
      · rw [if_pos hm]
        simp only
        rw [ih, hrest]
        have : i ≠ j := by omega
        simp [this]
      · rw [if_neg hm]
        cases hk : notifyOne e ns exec k with
        | mk k' m =>
          cases m with
          | none =>
            simp only
            rw [ih, hrest]
            by_cases h : i = j
            · subst h; simp [hk]
            · simp [h]
          | some m =>
            simp only
            rw [sentTo_cons, ih, hrest]
            by_cases h : i = j
            · subst h; simp [hk]
            · simp [h]

theorem sentTo_timeoutAll (us : Nat) (j : Nat) (l : List (Option Client)) :
    ∀ i, sentTo j (timeoutAll us i l).2 =
      if i ≤ j then ((l[j - i]?).join.bind (fun k => (timeoutOne us k).2)).toList else [] := by
  induction l with
  | nil => intro i; simp [timeoutAll, sentTo]
  | cons x l ih =>
    intro i
    have hrest : (if i + 1 ≤ j then ((l[j - (i + 1)]?).join.bind (fun k => (timeoutOne us k).2)).toList else []) =
        if i ≤ j ∧ i ≠ j then (((x :: l)[j - i]?).join.bind (fun k => (timeoutOne us k).2)).toList else [] := by
      by_cases h : i + 1 ≤ j
      · rw [if_pos h, if_pos (by omega)]
        have : j - i = (j - (i + 1)) + 1 := by omega
        rw [this, List.getElem?_cons_succ]
      · rw [if_neg h, if_neg (by omega)]
    cases x with
    | none =>
      simp only [timeoutAll]
      rw [ih, hrest]
      by_cases h : i = j
      · subst h; simp
      · simp [h]
    | some k =>
      simp only [timeoutAll]
      cases hw : k.watching with
      | none =>
        simp only
        rw [ih, hrest]
        by_cases h : i = j
        · subst h; simp [timeoutOne, hw]
        · simp [h]
      | some w =>
        simp only
        by_cases hd : deltaMs w.since us > w.timeout
        · rw [if_pos hd]
          simp only
          rw [sentTo_cons, ih, hrest]
          by_cases h : i = j
          · subst h; simp [timeoutOne, hw, hd]
          · simp [h]
        · rw [if_neg hd]
          simp only
          rw [ih, hrest]
          by_cases h : i = j
          · subst h; simp [timeoutOne, hw, hd]
          · simp [h]

/-- What `post` sends to another client. -/
theorem sentTo_post (e : Env) (fd j : Nat) (hj : j ≠ fd) (n : Node) (c : Client) :
    sentTo j (post e fd n c).2 =
      match c.executed with
      | none => []
      | some i => ((getClient n j).bind (fun k => (notifyOne e c.ns i k).2)).toList := by
  unfold post
  cases c.executed with
  | none => rfl
  | some i =>
    simp only
    rw [sentTo_notifyAll e fd c.ns i j hj n.clients 0]
    simp [getClient]

/-- The handlers leave the waiting state of the other clients. -/
theorem eff_waiting {S : Settings} {e : Env} {n n1 : Node} {c : Client} {r : NsRec} {argv : List Bytes} {h : Handler}
    {m : Option Msg} (he : NodeEff S e n c r argv h n1 m) (fd : Nat) :
    ∃ f : Client → Client, getClient n1 fd = (getClient n fd).map f ∧ ∀ k, (f k).watching = k.watching ∧ (f k).mirror = k.mirror := by
  have same : ∀ n2 : Node, n2.clients = n.clients →
      ∃ f : Client → Client, getClient n2 fd = (getClient n fd).map f ∧ ∀ k, (f k).watching = k.watching ∧ (f k).mirror = k.mirror :=
    fun n2 h2 => ⟨id, by unfold getClient; rw [h2]; simp, fun k => ⟨rfl, rfl⟩⟩
  cases he with
  | same => exact same _ rfl
  | ds => exact same _ rfl
  | nsnew => exact same _ rfl
  | nsdel name x =>
    exact ⟨fun k => if k.ns = some x.uid then { k with ns := none } else k, getClient_detach x.uid n fd,
      fun k => by dsimp only; split <;> exact ⟨rfl, rfl⟩⟩
  | nsset => exact same _ rfl
  | reload => exact same _ rfl
  | flush => exact same _ rfl

theorem ClientEff.executed {S : Settings} {e : Env} {n : Node} {c c' : Client} {argv : List Bytes} {h : Handler} {m : Option Msg}
    (he : ClientEff S e n c argv h c' m) : c'.executed = c.executed := by cases he <;> rfl

/-- What a client that is not the one making the request is sent, and its waiting state afterwards. -/
theorem request_waiting {S : Settings} {n n' : Node} {fd : Nat} {e : Env} {argv : List Bytes} {sent : List (Nat × Msg)}
    {st : Status} (h : request S n fd e argv = .ok n' sent st) {j : Nat} (hj : fd ≠ j) {w : Option Watch} (hw : Waits n j w) :
    match w.bind (fun w => wakeup n n' j w (.request fd e argv)) with
    | some m => sentTo j sent = [m] ∧ Waits n' j none
    | none => sentTo j sent = [] ∧ Waits n' j w := by
  obtain ⟨k, hk, hkm, rfl⟩ := hw
  obtain ⟨c, hc, hne, hcase⟩ := request_cases h
  have noran : (∀ w', wakeup n n' j w' (.request fd e argv) = none) →
      k.watching.bind (fun w => wakeup n n' j w (.request fd e argv)) = none := by
    intro hall
    cases k.watching with
    | none => rfl
    | some w' => exact hall w'
  rcases hcase with ⟨hq, rfl, rfl, -⟩ | ⟨e', argv', n1, c1, m, hq, hd, hn, hs⟩
  · rw [noran (by intro w'; simp only [wakeup, ran, hc, hq])]
    exact ⟨rfl, k, hk, hkm, rfl⟩
  · -- the state just before the other clients are looked at
    have key : ∀ k1, getClient n1 j = some k1 → k1.watching = k.watching → k1.mirror = false → ran n fd e argv = c1.executed →
        match k.watching.bind (fun w => wakeup n n' j w (.request fd e argv)) with
        | some m => sentTo j sent = [m] ∧ Waits n' j none
        | none => sentTo j sent = [] ∧ Waits n' j k.watching := by
      intro k1 hk1 hw1 hm1 hran
      have hput : getClient (putClient n1 fd (some c1)) j = some k1 := by
        rw [getClient_put, if_neg (fun h => hj h.symm)]; exact hk1
      have hsent : sentTo j sent = sentTo j (post e' fd (putClient n1 fd (some c1)) c1).2 := by
        rw [hs, sentTo_append]
        have : sentTo j (m.toList.map (fun m => (fd, m))) = [] := by
          cases m with
          | none => rfl
          | some m => simp [sentTo, hj]
        rw [this, List.nil_append]
      have hget : getClient n' j = (some k1).map (fun k =>
          match c1.executed with
          | none => k
          | some i => if j = fd then k else (notifyOne e' c1.ns i k).1) := by
        rw [hn, post_get, hput]; cases c1.executed <;> rfl
      have hme : nsOf n' fd = c1.ns := by
        unfold nsOf
        rw [hn, post_me]; rfl
      rw [hsent, sentTo_post _ _ _ (fun h => hj h.symm), hput]
      cases hx : c1.executed with
      | none =>
        rw [noran (by intro w'; simp only [wakeup, hran, hx])]
        rw [hx] at hget
        exact ⟨rfl, k1, hget, hm1, hw1⟩
      | some i =>
        rw [hx] at hget hran
        simp only [Option.map_some, if_neg (fun h => hj h.symm : ¬ j = fd)] at hget
        have hmine : nsOf n' j = k1.ns := by
          unfold nsOf
          rw [hget]
          rcases notifyOne_client e' c1.ns i k1 with h | h <;> rw [h] <;> rfl
        cases hkw : k.watching with
        | none =>
          rw [hkw] at hw1
          have hno : notifyOne e' c1.ns i k1 = (k1, none) := by simp [notifyOne, hm1, hw1]
          simp only [Option.bind_none, Option.bind_some, hno]
          rw [hno] at hget
          exact ⟨rfl, k1, hget, hm1, hw1⟩
        | some w =>
          rw [hkw] at hw1
          simp only [Option.bind_some, wakeup, hran, hmine, hme]
          by_cases hcond : k1.ns = c1.ns ∧ (w.cmd = i ∨ w.cmd = anyCmd)
          · rw [if_pos hcond]
            have hyes : notifyOne e' c1.ns i k1 = ({ k1 with watching := none }, some (.notice (cmdName i))) := by
              unfold notifyOne
              rw [if_neg (by simp [hm1]), hw1]
              simp only
              exact if_pos hcond
            rw [hyes] at hget ⊢
            exact ⟨rfl, _, hget, hm1, rfl⟩
          · rw [if_neg hcond]
            have hno : notifyOne e' c1.ns i k1 = (k1, none) := by
              unfold notifyOne
              rw [if_neg (by simp [hm1]), hw1]
              simp only
              exact if_neg hcond
            rw [hno] at hget ⊢
            exact ⟨rfl, _, hget, hm1, hw1⟩
    rcases dispatch_cases hd with ⟨hu, rfl, rfl, -, -⟩ | ⟨u, key', rest, hu, ha, hcase⟩
    · exact key k hk rfl hkm (by simp only [ran, hc, hq, hu, if_true])
    · have hran : ran n fd e argv = lookupCmd key' := by
        simp only [ran, hc, hq, hu, ha]
        rfl
      rcases hcase with ⟨hl, rfl, rfl, -, -⟩ | ⟨i, r, name, hh, hl, hr, hi, hrun⟩
      · exact key k hk rfl hkm (by rw [hran, hl])
      · obtain ⟨f, hf, hf'⟩ := eff_waiting (runHandler_eff hrun) j
        rw [hk] at hf
        exact key (f k) hf (hf' k).1 ((hf' k).2.trans hkm) (by
          rw [hran, hl, (runHandler_client hrun).executed])

end Zdb
