/-
Which message answers which request.
-/
import Verif.Spec.Answers
import Verif.Props.Wait
import Verif.Lemmas.Server
namespace Zdb.Server

open Zdb.Wire

/-! ### handlers -/

/-- If the handler ends, it has something to say. -/
def Speaks (o : Zdb.Out) : Prop := ∀ n c m st, o = .done n c m st → m ≠ none

theorem speaks_say {n : Node} {c : Client} {m : Msg} : Speaks (say n c (some m)) := by
  intro n' c' m' st h
  unfold say at h
  injection h with _ _ h3 _
  rw [← h3]; simp

theorem speaks_err {n : Node} {c : Client} {s : String} : Speaks (sayErr n c s) := speaks_say
theorem speaks_ok {n : Node} {c : Client} : Speaks (sayOk n c) := speaks_say

theorem speaks_done {n : Node} {c : Client} {m : Msg} {st : Status} : Speaks (.done n c (some m) st) := by
  intro n' c' m' st' h
  injection h with _ _ h3 _
  rw [← h3]; simp

theorem speaks_crash : Speaks .crash := fun _ _ _ _ h => by simp at h
theorem speaks_exit : Speaks .exit := fun _ _ _ _ h => by simp at h
theorem speaks_outside : Speaks .outside := fun _ _ _ _ h => by simp at h

theorem runHandler_speaks {S : Settings} {e : Env} {n : Node} (c : Client) (r : NsRec) (h : Handler) (argv : List Bytes)
    (hw : h ≠ .wait) : Speaks (runHandler S e n c r h argv) := by
  cases h
  case wait => exact absurd rfl hw
  all_goals
    unfold runHandler
    simp only [cmdAuth, cmdAuthRegular, cmdAuthSecure, cmdDs, cmdNsnew, cmdNsdel, cmdNslist, cmdNsset, cmdNsinfo, cmdSelect, cmdReload, cmdFlush, reloadRec]
    repeat' split
    all_goals first | exact speaks_say | exact speaks_err | exact speaks_ok | exact speaks_done | exact speaks_crash | exact speaks_exit | exact speaks_outside

theorem cmdWait_says {e : Env} {n n' : Node} {c c' : Client} {argv : List Bytes} {m : Option Msg} {st : Status}
    (h : cmdWait e n c argv = .done n' c' m st) : c'.mirror = c.mirror ∧ c'.master = c.master ∧ (m ≠ none → c'.watching = c.watching) := by
  unfold cmdWait at h
  simp only [sayErr, say, errMsg] at h
  repeat' split at h
  all_goals
    injection h with h1 h2 h3 h4
    subst h2; subst h3
    simp

/-! ### the table of commands -/

theorem strnCaseEq_calls {a b : Bytes} (h : strnCaseEq a b = true) : Calls a b := by
  induction a generalizing b with
  | nil => exact Or.inl (by simp)
  | cons x a ih =>
    cases b with
    | nil =>
      simp only [strnCaseEq, beq_iff_eq] at h
      subst h
      right
      exact ⟨a.map fold, by simp [fold]⟩
    | cons y b =>
      simp only [strnCaseEq, Bool.and_eq_true, beq_iff_eq] at h
      obtain ⟨h1, h2⟩ := h
      have h1 : fold x = fold y := h1
      rcases ih h2 with ⟨t, ht⟩ | ⟨t, ht⟩
      · exact Or.inl ⟨t, by simp [h1, ← ht]⟩
      · exact Or.inr ⟨t, by simp [h1, ← ht]⟩

theorem named {key name : Bytes} {i : Nat} {h : Handler} (hl : lookupCmd key = some i) (hi : handlers[i]? = some (name, h)) :
    Calls key name ∧ (name, h) ∈ handlers := by
  refine ⟨strnCaseEq_calls ?_, List.mem_of_getElem? hi⟩
  unfold lookupCmd at hl
  obtain ⟨hlt, h1, -⟩ := List.findIdx?_eq_some_iff_getElem.1 hl
  rw [List.getElem?_eq_getElem hlt] at hi
  injection hi with hi
  rw [hi] at h1
  exact h1

theorem handlers_wait {name : Bytes} (h : (name, Handler.wait) ∈ handlers) : name = wordWait := by
  simp [handlers] at h; exact h
theorem handlers_mirror {name : Bytes} (h : (name, Handler.mirror) ∈ handlers) : name = wordMirror := by
  simp [handlers] at h; exact h
theorem handlers_master {name : Bytes} (h : (name, Handler.master) ∈ handlers) : name = wordMaster := by
  simp [handlers] at h; exact h

/-! ### one event -/

theorem notifyAll_others (e : Env) (me : Nat) (ns : Option Nat) (exec : Nat) (l : List (Option Client)) :
    ∀ i, sentTo me (notifyAll e me ns exec i l).2 = [] := by
  induction l with
  | nil => intro i; rfl
  | cons x l ih =>
    intro i
    cases x with
    | none => exact ih (i + 1)
    | some k =>
      simp only [notifyAll]
      split
      · exact ih (i + 1)
      · rename_i hm
        split
        · exact ih (i + 1)
        · rw [sentTo_cons, if_neg hm, ih]; rfl

theorem post_others (e : Env) (fd : Nat) (n : Node) (c : Client) : sentTo fd (post e fd n c).2 = [] := by
  unfold post
  cases c.executed with
  | none => rfl
  | some i => exact notifyAll_others _ _ _ _ _ _

/-- What a client's own request does to it. -/
structure Own (argv : List Bytes) (c c' : Client) (m : Option Msg) : Prop where
  mirror : Without wordMirror argv → c'.mirror = c.mirror
  master : Without wordMaster argv → c'.master = c.master
  watch : Without wordWait argv → c'.watching = c.watching
  speaks : Without wordWait argv → c.master = false → m ≠ none
  quiet : m ≠ none → c'.watching = c.watching

theorem own_request {S : Settings} {n n' : Node} {fd : Nat} {e : Env} {argv : List Bytes} {sent : List (Nat × Msg)} {st : Status}
    (h : request S n fd e argv = .ok n' sent st) {c : Client} (hc : getClient n fd = some c) :
    ∃ c' m, getClient n' fd = some c' ∧ sentTo fd sent = m.toList ∧ Own argv c c' m := by
  obtain ⟨c0, hc0, hne, hcase⟩ := request_cases h
  rw [hc] at hc0
  injection hc0 with hc0
  subst hc0
  rcases hcase with ⟨hp, rfl, rfl, -⟩ | ⟨e', argv', n1, c1, m, hp, hd, rfl, rfl⟩
  · refine ⟨c, none, hc, rfl, fun _ => rfl, fun _ => rfl, fun _ => rfl, fun _ hm => ?_, fun _ => rfl⟩
    simp [popOwner, hm] at hp
  · refine ⟨c1, m, post_me _ _ _ _, ?_, ?_⟩
    · rw [sentTo_append, post_others, List.append_nil]
      cases m <;> simp [sentTo]
    have hhead : argv' = [] ∨ argv'.head? = argv.head? := by
      unfold popOwner at hp
      split at hp
      · cases hl : argv.getLast? with
        | none => rw [hl] at hp; simp at hp
        | some o =>
          rw [hl] at hp
          simp only at hp
          split at hp
          · simp at hp
          · simp only [Option.some.injEq, Prod.mk.injEq] at hp
            rw [← hp.2]
            match argv with
            | [] => exact absurd rfl hne
            | [a] => exact Or.inl rfl
            | a :: b :: l => exact Or.inr rfl
      · simp only [Option.some.injEq, Prod.mk.injEq] at hp
        exact Or.inr (by rw [hp.2])
    rcases dispatch_cases hd with ⟨hu, rfl, rfl, -, rfl⟩ | ⟨u, key, rest, hu, rfl, hcase⟩
    · exact ⟨fun _ => rfl, fun _ => rfl, fun _ => rfl, fun _ _ => by simp [errMsg], fun _ => rfl⟩
    · rcases hcase with ⟨hl, rfl, rfl, -, rfl⟩ | ⟨i, r, name, hh, hl, hr, hi, hrun⟩
      · exact ⟨fun _ => rfl, fun _ => rfl, fun _ => rfl, fun _ _ => by simp [errMsg], fun _ => rfl⟩
      · obtain ⟨hcalls, hmem⟩ := named hl hi
        have hkey : key ∈ argv.head? := by
          rcases hhead with h | h
          · exact absurd h (by simp)
          · rw [← h]; simp
        by_cases hw : hh = .wait
        · subst hw
          obtain ⟨w1, w2, w3⟩ := cmdWait_says hrun
          rw [handlers_wait hmem] at hcalls
          exact ⟨fun _ => w1, fun _ => w2, fun hno => absurd hcalls (hno key hkey), fun hno => absurd hcalls (hno key hkey), w3⟩
        · have hs := runHandler_speaks _ _ _ _ hw _ _ _ _ hrun
          have hce := runHandler_client hrun
          have hwatch : c1.watching = c.watching := by
            cases hce <;> first | rfl | exact absurd rfl hw
          refine ⟨fun hno => ?_, fun hno => ?_, fun _ => hwatch, fun _ _ => hs, fun _ => hwatch⟩
          · cases hce <;> first | rfl | skip
            rw [handlers_mirror hmem] at hcalls
            exact absurd hcalls (hno key hkey)
          · cases hce <;> first | rfl | skip
            rw [handlers_master hmem] at hcalls
            exact absurd hcalls (hno key hkey)

/-- The events of a log and the client: `ev` happens to a connected client. -/
theorem client_event {S : Settings} {n n1 : Node} {ev : Event} {sent : List (Nat × Msg)} {st : Status}
    (hs : nodeStep S n ev = .ok n1 sent st) {fd : Nat} {c' : Client} (hc' : getClient n1 fd = some c') :
    (ev = .connect fd ∧ c' = newClient S n) ∨
    (isConnect fd ev = false ∧ ∃ c, getClient n fd = some c ∧
      ((∃ e argv m, ev = .request fd e argv ∧ sentTo fd sent = m.toList ∧ Own argv c c' m) ∨
       (¬ Asks fd ev ∧ c'.master = c.master ∧ (c.mirror = false → c'.mirror = false ∧
        ((sentTo fd sent = [] ∧ c'.watching = c.watching) ∨
          (∃ m, sentTo fd sent = [m]) ∧ c.watching.isSome = true ∧ c'.watching = none))))) := by
  rcases client_step hs hc' with h | ⟨c, hc, hcase⟩
  · exact Or.inl h
  by_cases hcon : ev = .connect fd
  · left
    subst hcon
    simp only [nodeStep] at hs
    injection hs with h1 _ _
    subst h1
    rw [getClient_put, if_pos rfl] at hc'
    injection hc' with hc'
    exact ⟨rfl, hc'.symm⟩
  right
  have hic : isConnect fd ev = false := by
    cases ev <;> simp only [isConnect]
    simp only [beq_eq_false_iff_ne]
    rintro rfl; exact hcon rfl
  refine ⟨hic, c, hc, ?_⟩
  by_cases ha : Asks fd ev
  · left
    cases ev with
    | request f e argv =>
      simp only [Asks] at ha
      subst ha
      obtain ⟨c1, m, h1, h2, h3⟩ := own_request (show request S n f e argv = _ from hs) hc
      rw [hc'] at h1
      injection h1 with h1
      subst h1
      exact ⟨e, argv, m, rfl, h2, h3⟩
    | _ => exact absurd ha (by simp [Asks])
  · right
    have hby : Bystander c c' := by
      rcases hcase with ⟨e, argv, _, _, _, _, _, rfl, _⟩ | h
      · exact absurd rfl ha
      · exact h
    have hnot : NotBy fd ev := by
      cases ev with
      | request f e argv => exact ha
      | connect f => intro h; exact hcon (by rw [h])
      | disconnect f =>
        rintro rfl
        simp only [nodeStep] at hs
        injection hs with h1 _ _
        subst h1
        rw [getClient_put, if_pos rfl] at hc'
        simp at hc'
      | restart order =>
        simp only [nodeStep] at hs
        cases hr : restartNode S n order with
        | none => rw [hr] at hs; exact absurd hs (by simp)
        | some n2 =>
          rw [hr] at hs
          injection hs with h1 _ _
          subst h1
          unfold getClient at hc'
          rw [restart_clients hr] at hc'
          exact absurd hc' (by simp)
      | _ => trivial
    refine ⟨ha, hby.master, fun hm => ⟨hby.mirror.trans hm, ?_⟩⟩
    have h37 := C37_one_event_partial hs hnot (w := c.watching) ⟨c, hc, hm, rfl⟩
    have get : ∀ w, Waits n1 fd w → c'.watching = w := by
      rintro w ⟨k, hk, -, hw⟩
      rw [hc'] at hk
      injection hk with hk
      rw [hk]; exact hw
    cases hw : c.watching with
    | none =>
      rw [hw] at h37
      exact Or.inl ⟨h37.1, get _ h37.2⟩
    | some w =>
      rw [hw] at h37
      simp only [Option.bind_some] at h37
      split at h37
      · exact Or.inr ⟨⟨_, h37.1⟩, rfl, get _ h37.2⟩
      · exact Or.inl ⟨h37.1, get _ h37.2⟩

/-! ### executions -/

abbrev Log := List (Event × List (Nat × Msg))

theorem askedBy_one (fd : Nat) (e : Env) (argv : List Bytes) (sent : List (Nat × Msg)) :
    askedBy fd [(.request fd e argv, sent)] = [argv] := by simp [askedBy]

theorem askedBy_other {fd : Nat} {ev : Event} (h : ¬ Asks fd ev) (sent : List (Nat × Msg)) : askedBy fd [(ev, sent)] = [] := by
  cases ev <;> simp_all [askedBy, Asks]

theorem toldTo_one (fd : Nat) (ev : Event) (sent : List (Nat × Msg)) : toldTo fd [(ev, sent)] = sentTo fd sent := by
  simp [toldTo, sentTo]

/-- A connected client that asked nothing but ordinary requests. -/
def Plainly (l : Log) (n : Node) : Prop :=
  ∀ fd c, getClient n fd = some c → (∀ argv ∈ askedBy fd (since fd l), Ordinary argv) →
    Answered fd (since fd l) ∧ c.mirror = false ∧ c.master = false ∧ c.watching = none

theorem Plainly.step {S : Settings} {n n1 : Node} {l : Log} (h : Plainly l n) {ev : Event} {sent : List (Nat × Msg)} {st : Status}
    (hs : nodeStep S n ev = .ok n1 sent st) : Plainly (l ++ [(ev, sent)]) n1 := by
  intro fd c' hc' hord
  rcases client_event hs hc' with ⟨rfl, rfl⟩ | ⟨hic, c, hc, hcase⟩
  · rw [since_connect]
    exact ⟨fun x hx => by simp at hx, rfl, rfl, rfl⟩
  rw [since_append _ _ (by simpa using hic)] at hord ⊢
  rw [askedBy_append] at hord
  obtain ⟨h1, h2, h3, h4⟩ := h fd c hc (fun a ha => hord a (List.mem_append_left _ ha))
  have snoc : ((Asks fd ev → ∃ m, sentTo fd sent = [m]) ∧ (¬ Asks fd ev → sentTo fd sent = [])) →
      Answered fd (since fd l ++ [(ev, sent)]) := by
    intro hx x hm
    rcases List.mem_append.1 hm with hm | hm
    · exact h1 x hm
    · simp only [List.mem_singleton] at hm; subst hm; exact hx
  rcases hcase with ⟨e, argv, m, rfl, hsent, own⟩ | ⟨hna, hmas, hrest⟩
  · rw [askedBy_one] at hord
    obtain ⟨o1, o2, o3⟩ := hord argv (by simp)
    have hm := own.speaks o1 h3
    refine ⟨snoc ⟨fun _ => ?_, fun hn => absurd rfl hn⟩, (own.mirror o2).trans h2, (own.master o3).trans h3, (own.watch o1).trans h4⟩
    cases m with
    | none => exact absurd rfl hm
    | some m => exact ⟨m, hsent⟩
  · obtain ⟨g1, g2⟩ := hrest h2
    rcases g2 with ⟨g2, g3⟩ | ⟨-, g3, -⟩
    · exact ⟨snoc ⟨fun hx => absurd hx hna, fun _ => g2⟩, g1, hmas.trans h3, g3.trans h4⟩
    · rw [h4] at g3; simp at g3

/-- A connected client that never asked to be a mirror. -/
def Counted (l : Log) (n : Node) : Prop :=
  ∀ fd c, getClient n fd = some c → (∀ argv ∈ askedBy fd (since fd l), Without wordMirror argv) →
    c.mirror = false ∧
    (toldTo fd (since fd l)).length + (if c.watching.isSome then 1 else 0) ≤ (askedBy fd (since fd l)).length

theorem Counted.step {S : Settings} {n n1 : Node} {l : Log} (h : Counted l n) {ev : Event} {sent : List (Nat × Msg)} {st : Status}
    (hs : nodeStep S n ev = .ok n1 sent st) : Counted (l ++ [(ev, sent)]) n1 := by
  intro fd c' hc' hord
  rcases client_event hs hc' with ⟨rfl, rfl⟩ | ⟨hic, c, hc, hcase⟩
  · rw [since_connect]
    exact ⟨rfl, by simp [toldTo, newClient]⟩
  rw [since_append _ _ (by simpa using hic)] at hord ⊢
  rw [askedBy_append] at hord ⊢
  rw [toldTo_append, toldTo_one, List.length_append, List.length_append]
  obtain ⟨h1, h2⟩ := h fd c hc (fun a ha => hord a (List.mem_append_left _ ha))
  rcases hcase with ⟨e, argv, m, rfl, hsent, own⟩ | ⟨hna, hmas, hrest⟩
  · rw [askedBy_one] at hord ⊢
    have o2 := hord argv (by simp)
    refine ⟨(own.mirror o2).trans h1, ?_⟩
    rw [hsent]
    cases m with
    | none => simp only [Option.toList_none, List.length_nil, List.length_singleton]; split <;> omega
    | some m =>
      rw [own.quiet (by simp)]
      simp only [Option.toList_some, List.length_singleton]
      omega
  · rw [askedBy_other hna]
    obtain ⟨g1, g2⟩ := hrest h1
    refine ⟨g1, ?_⟩
    rcases g2 with ⟨g2, g3⟩ | ⟨⟨m, g2⟩, g3, g4⟩
    · rw [g2, g3]; simpa using h2
    · rw [g2, g4]
      rw [g3] at h2
      simpa using h2

theorem run_keeps {S : Settings} {P : Log → Node → Prop}
    (hstep : ∀ {n n1 : Node} {l : Log} {ev : Event} {sent : List (Nat × Msg)} {st : Status}, P l n →
      nodeStep S n ev = .ok n1 sent st → P (l ++ [(ev, sent)]) n1)
    {n n' : Node} {l : Log} (hr : NodeRun S n l n') : ∀ pre, P pre n → P (pre ++ l) n' := by
  induction hr with
  | nil n => intro pre h; rwa [List.append_nil]
  | cons hg hs hr ih =>
    intro pre h
    have := ih _ (hstep h hs)
    rwa [List.append_assoc] at this

theorem Started.noClient {S : Settings} {n : Node} (h : Started S n) (fd : Nat) : getClient n fd = none := by
  obtain ⟨u, h⟩ := h
  unfold getClient
  rw [boot_clients h]; simp

theorem started_plainly {S : Settings} {n : Node} (h : Started S n) : Plainly [] n := by
  intro fd c hc
  rw [Started.noClient h] at hc
  simp at hc

theorem started_counted {S : Settings} {n : Node} (h : Started S n) : Counted [] n := by
  intro fd c hc
  rw [Started.noClient h] at hc
  simp at hc

/-- One message for each request, in the same order. -/
theorem Answered.order {fd : Nat} {l : Log} (h : Answered fd l) :
    (answers fd l).map (·.1) = askedBy fd l ∧ (answers fd l).map (·.2) = toldTo fd l := by
  induction l with
  | nil => exact ⟨rfl, rfl⟩
  | cons x l ih =>
    obtain ⟨i1, i2⟩ := ih (fun y hy => h y (List.mem_cons_of_mem _ hy))
    obtain ⟨ev, sent⟩ := x
    have hc : ∀ {α : Type} (x : α) l, x :: l = [x] ++ l := fun _ _ => rfl
    have ha : ∀ a b : Log, answers fd (a ++ b) = answers fd a ++ answers fd b := fun a b => by
      unfold answers; rw [List.filterMap_append]
    rw [hc, ha, toldTo_append, askedBy_append, List.map_append, List.map_append, toldTo_one, i1, i2]
    obtain ⟨h1, h2⟩ := h _ (List.mem_cons_self ..)
    by_cases hask : Asks fd ev
    · obtain ⟨m, hm⟩ := h1 hask
      simp only at hm
      cases ev with
      | request f e argv =>
        simp only [Asks] at hask
        subst hask
        rw [askedBy_one]
        have : answers f [(.request f e argv, sent)] = [(argv, m)] := by
          unfold answers
          simp only [List.filterMap_cons, List.filterMap_nil, hm, if_true]
        rw [this, hm]
        exact ⟨rfl, rfl⟩
      | _ => exact absurd hask (by simp [Asks])
    · have := h2 hask
      simp only at this
      rw [this, askedBy_other hask]
      have : answers fd [(ev, sent)] = [] := by
        unfold answers
        cases ev with
        | request f e argv =>
          simp only [List.filterMap_cons, List.filterMap_nil, this]
        | _ => rfl
      rw [this]
      exact ⟨rfl, rfl⟩

/-! ### connections are clients of the node -/

/-- Every connection is one of a client of the node. -/
def Known (σ : Server) : Prop := ∀ fd k, σ.links fd = some k → ∃ c, getClient σ.node fd = some c

theorem runReqs_kept {S : Settings} {fd : Nat} {ar : Nat → Around} {rs : List (List Bytes)} {i : Nat} {n : Node} {R : Ran}
    (h : runReqs S fd ar i n rs = some R) {f : Nat} (hc : ∃ c, getClient n f = some c) : ∃ c, getClient R.node f = some c := by
  induction rs generalizing i n R with
  | nil =>
    simp only [runReqs, Option.some.injEq] at h
    subst h; exact hc
  | cons r rs ih =>
    unfold runReqs at h
    split at h
    · rename_i n1 sent st hreq
      split at h
      · rename_i R1 hR1
        injection h with h
        subst h
        obtain ⟨c, hc⟩ := hc
        exact ih (R := R1) hR1 (client_kept (ev := .request fd (ar i).e r) hreq trivial hc)
      · cases h
    · cases h

theorem tell_none {ans : Nat → Sends} (l : List (Nat × Texts × Msg)) (i : Nat) (L : Nat → Option Link) (fd : Nat)
    (h : L fd = none) : tell ans i L l fd = none := by
  induction l generalizing i L with
  | nil => exact h
  | cons x l ih =>
    rw [tell]
    refine ih _ _ ?_
    unfold tell1
    split
    · rw [h]; rfl
    · exact h

theorem Known.step {S : Settings} {σ σ' : Server} (h : Known σ) {ev : Ev} (hs : Server.step S σ ev = some σ') : Known σ' := by
  have told : ∀ {ans : Nat → Sends} {l : List (Nat × Texts × Msg)} {i : Nat} {L : Nat → Option Link} {f : Nat} {k' : Link},
      tell ans i L l f = some k' → ∃ k, L f = some k := by
    intro ans l i L f k' hk
    cases hL : L f with
    | none => rw [tell_none l i L f hL] at hk; cases hk
    | some k => exact ⟨k, rfl⟩
  cases ev with
  | accept fd mem =>
    rw [Server.step] at hs
    split at hs
    · injection hs with hs
      subst hs
      intro f k hk
      simp only [setLink_get] at hk
      simp only [getClient_put]
      split
      · exact ⟨_, rfl⟩
      · rename_i hf
        rw [if_neg hf] at hk
        exact h f k hk
    · cases hs
  | recv fd r ar ans =>
    have key : ∀ k, σ.links fd = some k → Server.step.read S σ fd k r ar ans = some σ' → Known σ' := by
      intro k hk hs
      have main : ∀ (c : Resp.Conn) (R : Ran), runReqs S fd ar 0 σ.node (fresh k.conn c) = some R → Known (afterRead fd k c r ans R σ) := by
        intro c R hR f k' hk'
        obtain ⟨k1, h1⟩ := told hk'
        refine runReqs_kept hR ?_
        rw [setLink_get] at h1
        split at h1
        · rename_i hf; subst hf; exact h _ k hk
        · exact h f k1 h1
      unfold Server.step.read at hs
      split at hs
      · cases hs
      · split at hs
        · rename_i R hR
          injection hs with hs
          subst hs
          exact main _ _ hR
        · cases hs
      · split at hs
        · rename_i R hR
          injection hs with hs
          subst hs
          intro f k' hk'
          simp only [drop, setLink_get] at hk'
          simp only [drop, getClient_put]
          split at hk'
          · cases hk'
          · rename_i hf
            rw [if_neg hf]
            exact main _ _ hR f k' hk'
        · cases hs
      · split at hs
        · injection hs with hs
          subst hs
          intro f k' hk'
          cases hk'
        · cases hs
    rw [Server.step] at hs
    split at hs
    · rename_i k _ hk
      cases r with
      | data d =>
        simp only at hs
        split at hs
        · cases hs
        · exact key k hk hs
      | _ => exact key k hk hs
    · cases hs
  | writable fd as =>
    rw [Server.step] at hs
    split at hs
    · rename_i k _ hk
      injection hs with hs
      subst hs
      intro f k' hk'
      simp only [setLink_get] at hk'
      split at hk'
      · rename_i hf; subst hf; exact h _ k hk
      · exact h f k' hk'
    · cases hs
  | hangup fd =>
    rw [Server.step] at hs
    split at hs
    · injection hs with hs
      subst hs
      intro f k' hk'
      simp only [drop, setLink_get] at hk'
      simp only [drop, getClient_put]
      split at hk'
      · cases hk'
      · rename_i hf
        rw [if_neg hf]
        exact h f k' hk'
    · cases hs
  | tick us ans =>
    rw [Server.step] at hs
    split at hs
    · split at hs
      · rename_i n sent st hst
        injection hs with hs
        subst hs
        intro f k' hk'
        obtain ⟨k1, h1⟩ := told hk'
        obtain ⟨c, hc⟩ := h f k1 h1
        exact client_kept hst trivial hc
      · cases hs
    · cases hs
  | rotate u =>
    rw [Server.step] at hs
    split at hs
    · split at hs
      · rename_i n sent st hst
        injection hs with hs
        subst hs
        intro f k' hk'
        obtain ⟨c, hc⟩ := h f k' hk'
        exact client_kept hst trivial hc
      · cases hs
    · cases hs
  | restart order =>
    rw [Server.step] at hs
    split at hs
    · injection hs with hs
      subst hs
      intro f k' hk'
      cases hk'
    · cases hs

theorem Known.ran {S : Settings} {evs : List Ev} {σ σ' : Server} (h : Known σ) (hr : Server.run S σ evs = some σ') : Known σ' := by
  induction evs generalizing σ with
  | nil =>
    simp only [Server.run, Option.some.injEq] at hr
    subst hr; exact h
  | cons ev evs ih =>
    rw [Server.run] at hr
    split at hr
    · rename_i σ1 hs
      exact ih (h.step hs) hr
    · cases hr

end Zdb.Server
