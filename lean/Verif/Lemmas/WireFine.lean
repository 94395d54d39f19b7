/-
Every handler sends messages that can be read back.
-/
import Verif.Lemmas.Wire
import Verif.Lemmas.NodeReq
namespace Zdb.Wire

/-- Closes the goals about literals. -/
macro "fine_leaf" : tactic =>
  `(tactic| first
    | trivial
    | (show Plain (chars _); decide)
    | (rename_i h _; exact absurd rfl h)
    | (rename_i h; exact absurd rfl h))

theorem argsValidate_fine {argv : List Bytes} {n : Nat} {r : Reply} (h : argsValidate argv n = some r) (d : Nat) :
    Fine (d + 1) r := by
  unfold argsValidate at h
  repeat' split at h
  all_goals first | (cases h; done) | (injection h with h; subst h; fine_leaf)

theorem argsValidateMin_fine {argv : List Bytes} {n : Nat} {r : Reply} (h : argsValidateMin argv n = some r) (d : Nat) :
    Fine (d + 1) r := by
  unfold argsValidateMin at h
  repeat' split at h
  all_goals first | (cases h; done) | (injection h with h; subst h; fine_leaf)

theorem readChecks_fine {c : Ctx} {argv : List Bytes} {k : Bytes → Reply} {d : Nat} (hk : ∀ key, Fine (d + 1) (k key)) :
    Fine (d + 1) (readChecks c argv k) := by
  unfold readChecks
  split
  · rename_i h; exact argsValidate_fine h d
  · split
    · split
      · fine_leaf
      · split
        · fine_leaf
        · exact hk _
    · fine_leaf

theorem getSingle_fine (c : Ctx) (br : Branches) (s : Store) (key : Bytes) (d : Nat) : Fine (d + 1) (getSingle c br s key) := by
  unfold getSingle
  split
  · fine_leaf
  · split <;> fine_leaf

theorem setUser_fine (c : Ctx) (br : Branches) (s : Store) (id payload : Bytes) (ts : Nat) (ex : Option Entry) (d : Nat) :
    Fine (d + 1) (setHandlerUser c br s id payload ts ex).2.2 := by
  unfold setHandlerUser
  split
  · fine_leaf
  · split
    · fine_leaf
    · simp only
      split
      · fine_leaf
      · repeat' split
        all_goals fine_leaf

theorem setSeq_fine (c : Ctx) (br : Branches) (s : Store) (id payload : Bytes) (ts : Nat) (ex : Option Entry) (d : Nat) :
    Fine (d + 1) (setHandlerSeq c br s id payload ts ex).2.2 := by
  unfold setHandlerSeq
  split
  · fine_leaf
  · simp only
    split
    · fine_leaf
    · split
      · fine_leaf
      · repeat' split
        all_goals fine_leaf

theorem cmdSet_fine (c : Ctx) (br : Branches) (s : Store) (argv : List Bytes) (d : Nat) : Fine (d + 1) (cmdSet c br s argv).2.2 := by
  have hb : ∀ key payload, Fine (d + 1) (cmdSet.body c br s argv key payload).2.2 := by
    intro key payload
    unfold cmdSet.body
    simp only
    split
    · fine_leaf
    split
    · fine_leaf
    split
    · fine_leaf
    split
    · fine_leaf
    generalize (if key.length ≠ 0 then indexGet br s c.u key else none) = entry
    split
    · fine_leaf
    split
    · fine_leaf
    split
    · exact setUser_fine ..
    · exact setSeq_fine ..
  unfold cmdSet
  split
  · exact hb _ _
  · split
    · exact hb _ _
    · fine_leaf
  · fine_leaf

theorem cmdDel_fine (c : Ctx) (br : Branches) (s : Store) (argv : List Bytes) (d : Nat) : Fine (d + 1) (cmdDel c br s argv).2.2 := by
  have hb : ∀ key, Fine (d + 1) (cmdDel.body c br s argv key).2.2 := by
    intro key
    unfold cmdDel.body
    simp only
    split
    · fine_leaf
    split
    · fine_leaf
    split
    · fine_leaf
    split
    · fine_leaf
    split
    · fine_leaf
    split
    · fine_leaf
    split
    · fine_leaf
    split <;> fine_leaf
  unfold cmdDel
  split
  · split
    · exact hb _
    · fine_leaf
  · split
    · rename_i h; exact argsValidate_fine h d
    · split
      · exact hb _
      · fine_leaf

theorem maxlenArg_fine {b : Bytes} {k : Bytes → Reply} {d : Nat} (hn : maxlenArg b k ≠ .crash)
    (hk : ∀ w, k w ≠ .crash → Fine (d + 1) (k w)) : Fine (d + 1) (maxlenArg b k) := by
  unfold maxlenArg at hn ⊢
  split
  · fine_leaf
  · rename_i h1
    rw [if_neg h1] at hn
    split
    · rename_i h2; rw [if_pos h2] at hn; exact absurd rfl hn
    · rename_i h2; rw [if_neg h2] at hn; exact hk _ hn

theorem subcommand_fine {c : Ctx} {argv : List Bytes} {k : Bytes → Reply} {d : Nat} (hn : subcommand c argv k ≠ .crash)
    (hk : ∀ w, k w ≠ .crash → Fine (d + 1) (k w)) : Fine (d + 1) (subcommand c argv k) := by
  unfold subcommand at hn ⊢
  split
  · fine_leaf
  · rename_i h1
    rw [if_neg h1] at hn
    split
    · rename_i h; exact argsValidateMin_fine h d
    · rename_i h
      rw [h] at hn
      split
      · exact maxlenArg_fine hn hk
      · fine_leaf

theorem scan_fine {c : Ctx} {s : Store} {first : Walk} {walk : Nat → Nat → Walk} {argv : List Bytes}
    (hn : scanWith c s first walk argv ≠ .crash) : Fine 4 (scanWith c s first walk argv) := by
  have hr : ∀ l, Fine 4 (replyScan l) := by
    intro l
    unfold replyScan
    split
    · fine_leaf
    · intro r hr
      rcases List.mem_cons.1 hr with rfl | hr
      · fine_leaf
      · rw [List.mem_singleton] at hr
        subst hr
        intro r hr
        obtain ⟨x, _, rfl⟩ := List.mem_map.1 hr
        intro r hr
        simp only [List.mem_cons, List.not_mem_nil, or_false] at hr
        rcases hr with rfl | rfl | rfl <;> fine_leaf
  unfold scanWith at hn ⊢
  split
  · fine_leaf
  · rename_i h1
    rw [if_neg h1] at hn
    split
    · simp only at hn
      split
      · fine_leaf
      · rename_i h2
        rw [if_neg h2] at hn
        split
        · fine_leaf
        · rename_i h3
          rw [h3] at hn
          simp only at hn
          split
          · rename_i h4; rw [if_pos h4] at hn; exact absurd rfl hn
          · exact hr _
    · split
      · exact hr _
      · fine_leaf
      · fine_leaf

theorem historySend_fine (s : Store) (it : Item) (k : EKey) : Fine 4 (historySend s it k) := by
  unfold historySend
  split
  · fine_leaf
  · intro r hr
    simp only [List.mem_cons, List.not_mem_nil, or_false] at hr
    rcases hr with rfl | rfl | rfl
    · split <;> fine_leaf
    · fine_leaf
    · fine_leaf

theorem cmdHistory_fine {c : Ctx} {br : Branches} {s : Store} {argv : List Bytes} (hn : cmdHistory c br s argv ≠ .crash) :
    Fine 4 (cmdHistory c br s argv) := by
  unfold cmdHistory at hn ⊢
  split
  · split
    · fine_leaf
    · rename_i h1
      simp only [h1] at hn
      split
      · fine_leaf
      · rename_i h2
        simp only [h2] at hn
        split
        · rename_i h3
          simp only [h3] at hn
          exact absurd rfl hn
        · exact historySend_fine ..
  · split
    · fine_leaf
    · split
      · fine_leaf
      · simp only
        split
        · fine_leaf
        · split
          · fine_leaf
          · split
            · fine_leaf
            · exact historySend_fine ..
  · fine_leaf

theorem dsCommand_fine (c : Ctx) (br : Branches) (s : Store) (d : DsCmd) (argv : List Bytes)
    (hn : (dsCommand c br s d argv).2.2 ≠ .crash) : Fine 4 (dsCommand c br s d argv).2.2 := by
  cases d
  case set => exact cmdSet_fine ..
  case del => exact cmdDel_fine ..
  case nsjump =>
    show Fine 4 (cmdNsjump c s).2
    unfold cmdNsjump
    split <;> fine_leaf
  case get => exact readChecks_fine (fun key => getSingle_fine c br s key 3)
  case mget =>
    show Fine 4 (cmdMget c br s argv)
    unfold cmdMget
    split
    · split
      · fine_leaf
      · split
        · fine_leaf
        · intro r hr
          obtain ⟨k, _, rfl⟩ := List.mem_map.1 hr
          exact getSingle_fine ..
    · fine_leaf
  case «exists» => exact readChecks_fine (fun key => by split <;> fine_leaf)
  case check => exact readChecks_fine (fun key => by split <;> fine_leaf)
  case length => exact readChecks_fine (fun key => by split <;> fine_leaf)
  case keytime => exact readChecks_fine (fun key => by split <;> fine_leaf)
  case scan => exact scan_fine hn
  case rscan => exact scan_fine hn
  case kscan =>
    show Fine 4 (cmdKscan c br s argv)
    unfold cmdKscan
    split
    · fine_leaf
    · split
      · rename_i h; exact argsValidate_fine h 3
      · split
        · unfold cmdKscan.kscanReply
          split
          · fine_leaf
          · intro r hr
            simp only [List.mem_cons, List.not_mem_nil, or_false] at hr
            rcases hr with rfl | rfl
            · fine_leaf
            · intro r hr
              obtain ⟨k, _, rfl⟩ := List.mem_map.1 hr
              fine_leaf
        · fine_leaf
  case keycur =>
    show Fine 4 (cmdKeycur c br s argv)
    unfold cmdKeycur
    split
    · rename_i h; exact argsValidate_fine h 3
    · split
      · fine_leaf
      · split
        · split <;> fine_leaf
        · fine_leaf
  case history => exact cmdHistory_fine hn
  case dbsize => fine_leaf
  case index =>
    have e : (dsCommand c br s .index argv).2.2 = replyIndex c s argv := by
      show (cmdIndex c s argv).2 = _
      unfold cmdIndex
      simp only
      split <;> rfl
    rw [e] at hn ⊢
    unfold replyIndex at hn ⊢
    refine subcommand_fine hn (fun w hw => ?_)
    split
    · rename_i h1
      simp only [h1, if_true] at hw
      split
      · refine maxlenArg_fine hw (fun w _ => ?_)
        split <;> fine_leaf
      · intro r hr
        obtain ⟨k, _, rfl⟩ := List.mem_map.1 hr
        fine_leaf
    · fine_leaf
  case data =>
    show Fine 4 (cmdData c s argv)
    refine subcommand_fine hn (fun w hw => ?_)
    split
    · split
      · rename_i h; exact argsValidateMin_fine h 3
      · split
        · split
          · fine_leaf
          · fine_leaf
          · fine_leaf
          · split
            · fine_leaf
            · intro r hr
              simp only [List.mem_cons, List.not_mem_nil, or_false] at hr
              rcases hr with rfl | rfl | rfl | rfl | rfl | rfl <;> fine_leaf
        · fine_leaf
    · fine_leaf

/-! ### the node -/

theorem nsArg_plain {argv : List Bytes} {s : String} (h : nsArg argv = .error s) : Plain (chars s) := by
  unfold nsArg at h
  repeat' split at h
  all_goals first | (injection h with h; subst h; decide) | (cases h; done)

theorem accessOf_plain {S : Settings} {c : Client} {conf : NsConf} {argv : List Bytes} {s : String}
    (h : accessOf S c conf argv = .error s) : Plain (chars s) := by
  unfold accessOf at h
  split at h
  · cases h
  · unfold selectAccess at h
    repeat' split at h
    all_goals first | (injection h with h; subst h; decide) | (cases h; done)

theorem nsProperty_plain {S : Settings} {r : NsRec} {target prop value : Bytes} {s : String}
    (h : nsProperty S r target prop value = .error s) : Plain (chars s) := by
  unfold nsProperty at h
  simp only at h
  repeat' split at h
  all_goals first | (injection h with h; subst h; decide) | (cases h; done)

/-- What the handler sends, if it sends something, can be read back. -/
def FineOut (o : Zdb.Out) : Prop := ∀ n c m st, o = .done n c (some m) st → FineMsg m

theorem fineOut_say {n : Node} {c : Client} {m : Msg} (h : FineMsg m) : FineOut (say n c (some m)) := by
  intro n' c' m' st he
  simp only [say, Zdb.Out.done.injEq, Option.some.injEq] at he
  rw [← he.2.2.1]; exact h

theorem fineOut_err {n : Node} {c : Client} {s : String} (h : Plain (chars s)) : FineOut (sayErr n c s) := by
  intro n' c' m' st he
  simp only [sayErr, say, errMsg, Zdb.Out.done.injEq, Option.some.injEq] at he
  rw [← he.2.2.1]; exact h

theorem fineOut_ok {n : Node} {c : Client} : FineOut (sayOk n c) := fineOut_say (by fine_leaf)

theorem fineOut_crash : FineOut .crash := fun _ _ _ _ h => nomatch h
theorem fineOut_exit : FineOut .exit := fun _ _ _ _ h => nomatch h
theorem fineOut_outside : FineOut .outside := fun _ _ _ _ h => nomatch h

/-- Closes the goals of the handlers. -/
macro "fine_out" : tactic =>
  `(tactic| first
    | exact fineOut_ok
    | exact fineOut_crash
    | exact fineOut_exit
    | exact fineOut_outside
    | exact fineOut_err (by decide)
    | exact fineOut_say (show Plain (chars _) by decide)
    | exact fineOut_err (nsArg_plain (by assumption))
    | exact fineOut_err (accessOf_plain (by assumption))
    | exact fineOut_err (nsProperty_plain (by assumption))
    | exact fineOut_say (argsValidate_fine (by assumption) 3))

theorem fineOut_reload (S : Settings) (n : Node) (c : Client) (r : NsRec) : FineOut (reloadRec S n c r) := by
  unfold reloadRec
  split <;> fine_out

theorem runHandler_fine {S : Settings} {e : Env} {n : Node} (hi : NodeInv S n) (he : Plain e.nonce) (c : Client) (r : NsRec)
    (h : Handler) (argv : List Bytes) : FineOut (runHandler S e n c r h argv) := by
  cases h
  case asterisk => fine_out
  case wait =>
    show FineOut (cmdWait e n c argv)
    unfold cmdWait
    simp only
    have hn : ∀ c', FineOut (say n c' none) := fun c' _ _ _ _ h => by simp [say] at h
    repeat' split
    all_goals first | exact hn _ | fine_out
  case mirror =>
    unfold runHandler
    simp only
    split <;> fine_out
  case master =>
    unfold runHandler
    simp only
    split <;> fine_out
  case ping => fine_out
  case time =>
    refine fineOut_say (m := .reply _) ?_
    intro r hr
    simp only [List.mem_cons, List.not_mem_nil, or_false] at hr
    rcases hr with rfl | rfl <;> fine_leaf
  case auth =>
    show FineOut (cmdAuth S e n c argv)
    unfold cmdAuth
    split
    · unfold cmdAuthRegular
      repeat' split
      all_goals fine_out
    · split
      · unfold cmdAuthSecure
        repeat' split
        all_goals first | exact fineOut_say (m := .challenge _) he | fine_out
      · fine_out
  case hooks =>
    unfold runHandler
    simp only
    split
    · exact fineOut_say (m := .stream 0 []) ⟨rfl, fun r hr => nomatch hr⟩
    · fine_out
  case ds d =>
    show FineOut (cmdDs S e n c r d argv)
    unfold cmdDs
    split
    · fine_out
    · split
      · fine_out
      · rename_i br s rep hne heq
        refine fineOut_say (m := .reply rep) ?_
        have := dsCommand_fine (ctxOf S e c r) n.br r.store d argv
        rw [heq] at this
        exact this (fun h => by subst h; exact hne rfl)
  case info => exact fineOut_say (m := .server) trivial
  case stop =>
    intro n' c' m st h
    injection h with _ _ h _
    injection h with h
    subst h
    show Plain (chars _)
    decide
  case nsnew =>
    show FineOut (cmdNsnew S e n c argv)
    unfold cmdNsnew
    repeat' split
    all_goals fine_out
  case nsdel =>
    show FineOut (cmdNsdel n c argv)
    unfold cmdNsdel
    repeat' split
    all_goals fine_out
  case nslist =>
    refine fineOut_say (m := .stream _ _) ⟨?_, fun r hr => ?_⟩
    · obtain ⟨d, l, hl, -⟩ := hi.head
      rw [List.length_map, hi.count, nsIter_recs hl]
    · obtain ⟨x, _, rfl⟩ := List.mem_map.1 hr
      fine_leaf
  case nsset =>
    show FineOut (cmdNsset S n c argv)
    unfold cmdNsset
    repeat' split
    all_goals fine_out
  case nsinfo =>
    show FineOut (cmdNsinfo n c argv)
    unfold cmdNsinfo
    repeat' split
    all_goals first | exact fineOut_say (m := .nsinfo _) trivial | fine_out
  case select =>
    show FineOut (cmdSelect S n c argv)
    unfold cmdSelect
    repeat' split
    all_goals fine_out
  case reload =>
    show FineOut (cmdReload S n c argv)
    unfold cmdReload
    repeat' split
    all_goals first | exact fineOut_reload _ _ _ _ | fine_out
  case flush =>
    show FineOut (cmdFlush S n c r)
    unfold cmdFlush
    split
    · fine_out
    · split
      · fine_out
      · exact fineOut_reload S n c r

theorem dispatch_fine {S : Settings} {e : Env} {n : Node} (hi : NodeInv S n) (he : Plain e.nonce) (c : Client) (argv : List Bytes) :
    FineOut (dispatch S e n c argv) := by
  unfold dispatch
  split
  · intro n' c' m st h
    simp only [errMsg, Zdb.Out.done.injEq, Option.some.injEq] at h
    rw [← h.2.2.1]
    show Plain (chars _)
    decide
  · split
    · fine_out
    · split
      · fine_out
      · split
        · exact runHandler_fine hi he _ _ _ _
        · fine_out

theorem cmdName_plain (i : Nat) : Plain (cmdName i) := by
  have h : ∀ h ∈ handlers, Plain h.1 := by decide
  unfold cmdName
  cases hg : handlers[i]? with
  | none => intro x hx; cases hx
  | some x => exact h x (List.mem_of_getElem? hg)

theorem notifyAll_fine {e : Env} {me : Nat} {ns : Option Nat} {exec : Nat} {l : List (Option Client)} {x : Nat × Msg}
    (h : x ∈ (notifyAll e me ns exec 0 l).2) :
    FineMsg x.2 ∨ (x.2 = .mirrored ∧ e.owner ≠ 0 ∧ x.1 ≠ me ∧ ∃ k, l[x.1]? = some (some k) ∧ k.mirror = true) := by
  obtain ⟨fd, m⟩ := x
  obtain ⟨j, k, h1, h2, h3, h4⟩ := (notifyAll_mem e me ns exec l 0 fd m).1 h
  rw [Nat.zero_add] at h2
  subst h2
  unfold notifyOne at h4
  split at h4
  · rename_i hm
    simp only at h4
    split at h4
    · cases h4
    · rename_i ho
      injection h4 with h4
      exact Or.inr ⟨h4.symm, ho, h3, k, h1, hm⟩
  · repeat' split at h4
    all_goals first | (cases h4; done) | skip
    injection h4 with h4
    subst h4
    exact Or.inl (cmdName_plain _)

theorem timeoutAll_fine (us i : Nat) (l : List (Option Client)) : ∀ x ∈ (timeoutAll us i l).2, FineMsg x.2 := by
  induction l generalizing i with
  | nil => intro x hx; cases hx
  | cons k l ih =>
    rw [timeoutAll]
    simp only
    split
    · split
      · split
        · intro x hx
          rcases List.mem_cons.1 hx with rfl | hx
          · show Plain (chars _)
            decide
          · exact ih (i + 1) x hx
        · exact ih (i + 1)
      · exact ih (i + 1)
    · exact ih (i + 1)

theorem popOwner_nonce {e e' : Env} {c : Client} {argv argv' : List Bytes} (h : popOwner e c argv = some (e', argv')) :
    e'.nonce = e.nonce := by
  unfold popOwner at h
  repeat' split at h
  all_goals first | (cases h; done) | (simp only [Option.some.injEq, Prod.mk.injEq] at h; rw [← h.1])

/-- What the client of a request and a mirror know of it. -/
structure Mirrors (n n' : Node) (fd : Nat) (e : Env) (argv : List Bytes) (to : Nat) : Prop where
  run : ∃ c e' argv', getClient n fd = some c ∧ popOwner e c argv = some (e', argv') ∧ e'.owner ≠ 0
  ns : ∃ c u, getClient n' fd = some c ∧ c.ns = some u
  other : to ≠ fd

theorem request_fine {S : Settings} {n n' : Node} (hi : NodeInv S n) {fd : Nat} {e : Env} (he : Plain e.nonce) {argv : List Bytes}
    {sent : List (Nat × Msg)} {st : Status} (h : request S n fd e argv = .ok n' sent st) :
    ∀ x ∈ sent, FineMsg x.2 ∨ (x.2 = .mirrored ∧ Mirrors n n' fd e argv x.1) := by
  unfold request at h
  split at h
  · cases h
  · rename_i c0 hc0
    split at h
    · cases h
    · split at h
      · injection h with _ h _
        subst h
        intro x hx; cases hx
      · rename_i e' argv' hp
        have hd := dispatch_fine hi (e := e') (by rw [popOwner_nonce hp]; exact he) c0 argv'
        split at h
        · cases h
        · cases h
        · cases h
        · rename_i n1 c1 m st1 hdis
          split at h
          · cases h
          · rename_i hcr
            simp only at h
            injection h with hn h _
            subst h
            intro x hx
            rcases List.mem_append.1 hx with hx | hx
            · obtain ⟨m', hm, rfl⟩ := List.mem_map.1 hx
              cases m with
              | none => cases hm
              | some m0 =>
                rw [Option.toList_some, List.mem_singleton] at hm
                subst hm
                exact Or.inl (hd _ _ _ _ hdis)
            · unfold post at hx hn
              split at hx
              · cases hx
              · rename_i ex hex
                rw [hex] at hn
                simp only at hn
                rcases notifyAll_fine hx with h1 | ⟨h1, h2, h3, k, h4, h5⟩
                · exact Or.inl h1
                · refine Or.inr ⟨h1, ⟨c0, e', argv', hc0, hp, h2⟩, ?_, h3⟩
                  have hget : getClient n' fd = some c1 := by
                    rw [← hn]
                    unfold getClient
                    simp only
                    rw [notifyAll_get]
                    have := getClient_put n1 fd fd (some c1)
                    rw [if_pos rfl] at this
                    unfold getClient at this
                    generalize (putClient n1 fd (some c1)).clients[fd]? = y at this
                    cases y with
                    | none => cases this
                    | some y =>
                      cases y with
                      | none => cases this
                      | some y =>
                        injection this with this
                        subst this
                        simp
                  cases hns : c1.ns with
                  | some u => exact ⟨c1, u, hget, hns⟩
                  | none =>
                    exfalso
                    apply hcr
                    have hk : ((n1.clients[x.1]?).join) = some k := by
                      have h6 := getClient_put n1 fd x.1 (some c1)
                      rw [if_neg h3] at h6
                      unfold getClient at h6
                      rw [← h6, h4]; rfl
                    have hlt : x.1 < n1.clients.length := by
                      cases hq : n1.clients[x.1]? with
                      | none => rw [hq] at hk; cases hk
                      | some y => exact (List.getElem?_eq_some_iff.1 hq).1
                    simp only [mirrorCrash, hex, hns, Option.isSome_some, Option.isNone_none, Bool.true_and, Bool.and_eq_true,
                      List.any_eq_true, List.mem_range, decide_eq_true_eq]
                    refine ⟨h2, x.1, hlt, h3, ?_⟩
                    rw [hk]; exact h5

end Zdb.Wire
