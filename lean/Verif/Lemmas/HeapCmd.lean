/-
Replies, arguments and the commands on data: no bad pointer is followed, and memory is as before but for the replies that
wait.
-/
import Verif.Lemmas.Heap
namespace Zdb.Heap

theorem wp_tail {l : Level} {β : Type} {M : Mem} {p : Prog β} {Q : β → Mem → Prop} (h : wp l (p >>= pure) Q M) :
    wp l p Q M := by
  rw [wp_bind] at h
  exact h

set_option hygiene false in
/-- A block is allocated. -/
macro "al " b:ident : tactic => `(tactic| (refine wp_malloc h ?_; clear h; intro $b M h))
set_option hygiene false in
/-- A block that is held is used. -/
macro "us" : tactic => `(tactic| (first | refine wp_useb h (by owna) ?_ | refine wp_use_some h (by owna) ?_))
set_option hygiene false in
/-- A block that is held is freed. -/
macro "fr" : tactic => `(tactic| ((first | refine wp_freeb h (by owna) ?_ | refine wp_free_some h (by owna) ?_); clear h; intro M h))
/-- Any answer. -/
macro "as " a:ident : tactic => `(tactic| (refine wp_ask fun $a => ?_))
set_option hygiene false in
/-- Two ways. -/
macro "br" : tactic => `(tactic| (refine wp_ite (fun hi => ?_) (fun hi => ?_)))

section
variable {l : Level} {M : Mem} {o : Own} {q : List Resp} {β : Type} {Q : β → Mem → Prop}

theorem wp_push {r : Resp} (h : Holds l o M) (aq : Av o (respBlocks q)) (hr : 1 ≤ o r.node) :
    wp l (push q r) (fun q' M' => M' = M ∧ q' = q ++ [r]) M := by
  unfold push
  cases e : q.getLast? with
  | none => exact wp_useb h hr ⟨rfl, rfl⟩
  | some t =>
    have ht : 1 ≤ o t.node := by
      refine aq _ ?_
      rw [respBlocks, List.mem_flatMap]
      exact ⟨t, List.mem_of_getLast? e, by simp⟩
    exact wp_useb h ht (wp_useb h hr ⟨rfl, rfl⟩)

theorem wp_push_ext {r n : Nat} (h : Holds l (one n + (one r + o)) M) (aq : Av o (respBlocks q)) :
    wp l (push q ⟨r, n⟩) (Ext l o q) M := by
  refine wp_mono (wp_push h (aq.mono (by own)) (by owna)) ?_
  rintro q' M' ⟨rfl, rfl⟩
  exact ⟨_, rfl, h.re fun x => by rw [add_ap, rs_cons, rs_nil]; owna⟩

theorem wp_replyStack (h : Holds l o M) (aq : Av o (respBlocks q)) : wp l (replyStack q) (Ext l o q) M := by
  unfold replyStack
  have key : wp l (do
    let b ← malloc
    useb b
    let r ← malloc
    push q ⟨r, b⟩) (Ext l o q) M := by
    al b
    us
    al r
    exact wp_push_ext (h.re (by own)) aq
  br
  · as a
    br
    · exact Ext.rfl h
    · exact key
  · exact key

theorem wp_replyHeap {b : Nat} (h : Holds l (one b + o) M) (aq : Av o (respBlocks q)) :
    wp l (replyHeap q b) (Ext l o q) M := by
  unfold replyHeap
  al r
  us
  us
  br
  · as a
    br
    · fr
      fr
      exact Ext.rfl (h.re (by own))
    · exact wp_push_ext (h.re (by own)) aq
  · exact wp_push_ext (h.re (by own)) aq

theorem wp_bulk {k : Nat → Prog β} (h : Holds l o M) (hk : ∀ b M, Holds l (one b + o) M → wp l (k b) Q M) :
    wp l (bulk >>= k) Q M := by
  rw [wp_bind]
  unfold bulk
  al b
  us
  exact hk b M h

/-- The arguments of a request are complete. -/
structure Req (c : Client) : Prop where
  argv : ∃ v, c.argv = some v
  len : c.argc ≤ c.args.length
  full : ∀ a ∈ c.args.take c.argc, ∃ b, a.buf = some b

variable {c : Client}

theorem wp_arg {k : Nat} {f : Unit → Prog β} (h : Holds l o M) (hc : Req c) (ac : Av o c.reqBlocks) (hk : k < c.argc)
    (hf : wp l (f ()) Q M) : wp l (arg c k >>= f) Q M := by
  rw [wp_bind]
  obtain ⟨v, hv⟩ := hc.argv
  have hv1 : 1 ≤ o v := ac v (by simp [Client.reqBlocks, hv])
  have hlt : k < c.args.length := Nat.lt_of_lt_of_le hk hc.len
  have hmem : c.args[k] ∈ c.args.take c.argc := by
    rw [List.mem_take_iff_getElem]
    exact ⟨k, by omega, rfl⟩
  obtain ⟨b, hb⟩ := hc.full _ hmem
  have hsub : ∀ x ∈ Arg.blocks c.args[k], 1 ≤ o x := by
    intro x hx
    refine ac x ?_
    rw [Client.reqBlocks, List.mem_append]
    exact .inr (List.mem_flatMap.2 ⟨_, hmem, hx⟩)
  have h1 : 1 ≤ o (c.args[k]).obj := hsub _ (by simp [Arg.blocks])
  have h2 : 1 ≤ o b := hsub _ (by simp [Arg.blocks, hb])
  unfold arg
  rw [hv, List.getElem?_eq_getElem hlt]
  refine wp_use_some h hv1 ?_
  refine wp_useb h h1 ?_
  rw [hb]
  exact ⟨h.live h2, hf⟩

theorem wp_argsFrom {f : Unit → Prog β} (h : Holds l o M) (hc : Req c) (ac : Av o c.reqBlocks)
    (hf : wp l (f ()) Q M) : ∀ n k, k + n ≤ c.argc → wp l (argsFrom c k n >>= f) Q M := by
  intro n
  induction n with
  | zero => intro k _; exact hf
  | succ n ih =>
    intro k hk
    rw [wp_bind]
    unfold argsFrom
    refine wp_arg h hc ac (by omega) ?_
    exact wp_bind.1 (ih (k + 1) (by omega))

theorem wp_check {k : Bool × List Resp → Prog β} (h : Holds l o M) (aq : Av o (respBlocks q))
    (ht : wp l (k (true, q)) Q M) (hf : ∀ q' M', Ext l o q q' M' → wp l (k (false, q')) Q M') :
    wp l (check q >>= k) Q M := by
  rw [wp_bind]
  unfold check
  as a
  br
  · exact ht
  · exact wp_call (wp_replyStack h aq) hf

theorem wp_validate {n : Nat} {b : Bool} {k : Bool × List Resp → Prog β} (h : Holds l o M) (hc : Req c)
    (ac : Av o c.reqBlocks) (aq : Av o (respBlocks q)) (ht : c.argc = n → wp l (k (true, q)) Q M)
    (hf : ∀ q' M', Ext l o q q' M' → wp l (k (false, q')) Q M') : wp l (validate c n b q >>= k) Q M := by
  rw [wp_bind]
  unfold validate
  br
  · exact wp_call (wp_replyStack h aq) hf
  br
  · exact ht (by omega)
  refine wp_argsFrom h hc ac ?_ _ _ (by omega)
  as a
  br
  · exact ht (by omega)
  · exact wp_call (wp_replyStack h aq) hf

theorem wp_validateMin {n : Nat} {k : Bool × List Resp → Prog β} (h : Holds l o M) (hc : Req c)
    (ac : Av o c.reqBlocks) (aq : Av o (respBlocks q)) (ht : n ≤ c.argc → wp l (k (true, q)) Q M)
    (hf : ∀ q' M', Ext l o q q' M' → wp l (k (false, q')) Q M') : wp l (validateMin c n q >>= k) Q M := by
  rw [wp_bind]
  unfold validateMin
  br
  · exact wp_call (wp_replyStack h aq) hf
  refine wp_argsFrom h hc ac ?_ _ _ (by omega)
  as a
  br
  · exact ht (by omega)
  · exact wp_call (wp_replyStack h aq) hf

theorem wp_timestampFrom {n : Nat} {f : Unit → Prog β} (h : Holds l o M) (hc : Req c)
    (ac : Av o c.reqBlocks) (hn : c.argc = n ∨ n < c.argc) (hf : ∀ M, Holds l o M → wp l (f ()) Q M) :
    wp l (timestampFrom c n >>= f) Q M := by
  rw [wp_bind]
  unfold timestampFrom
  br
  · exact hf M h
  refine wp_arg h hc ac (by omega) ?_
  al t
  us
  apply wp_tail
  fr
  exact hf M (h.re (by own))

end

set_option hygiene false in
/-- An argument is read. -/
macro "ar" : tactic => `(tactic| (refine wp_arg h hc (ac.mono (by own)) (by omega) ?_))
set_option hygiene false in
/-- A test with a refusal. -/
macro "ck" : tactic => `(tactic| (refine wp_check h (aq.mono (by own)) ?_ (fun q' M' h' => h'); simp only [Bool.not_true, Bool.false_eq_true, if_false]))
set_option hygiene false in
/-- The number of arguments. -/
macro "va" : tactic => `(tactic| (refine wp_validate h hc (ac.mono (by own)) (aq.mono (by own)) (fun hn => ?_) (fun q' M' h' => h'); simp only [Bool.not_true, Bool.false_eq_true, if_false]))
set_option hygiene false in
/-- The last reply. -/
macro "rp" : tactic => `(tactic| (exact wp_replyStack h (aq.mono (by own))))

/-- The blocks of a namespace that commands look at. -/
structure SA (o : Own) (sp : Space) : Prop where
  self : 1 ≤ o sp.self
  name : 1 ≤ o sp.name
  ipath : 1 ≤ o sp.ipath
  dpath : 1 ≤ o sp.dpath
  iroot : 1 ≤ o sp.iroot
  ifile : 1 ≤ o sp.ifile
  dirty : 1 ≤ o sp.dirty
  droot : 1 ≤ o sp.droot
  dfile : 1 ≤ o sp.dfile
  pass : ∀ b, sp.pass = some b → 1 ≤ o b
  seq : ∀ p, sp.seq = some p → 1 ≤ o p.1 ∧ 1 ≤ o p.2
  mode : sp.seqMode = true → sp.seq.isSome = true

theorem SA.mono {o o' : Own} {sp : Space} (h : SA o sp) (e : ∀ x, o x ≤ o' x) : SA o' sp where
  self := Nat.le_trans h.self (e _)
  name := Nat.le_trans h.name (e _)
  ipath := Nat.le_trans h.ipath (e _)
  dpath := Nat.le_trans h.dpath (e _)
  iroot := Nat.le_trans h.iroot (e _)
  ifile := Nat.le_trans h.ifile (e _)
  dirty := Nat.le_trans h.dirty (e _)
  droot := Nat.le_trans h.droot (e _)
  dfile := Nat.le_trans h.dfile (e _)
  pass := fun b hb => Nat.le_trans (h.pass b hb) (e _)
  seq := fun p hp => ⟨Nat.le_trans (h.seq p hp).1 (e _), Nat.le_trans (h.seq p hp).2 (e _)⟩
  mode := h.mode

/-- The variables all namespaces share. -/
structure GA (o : Own) (s : Srv) : Prop where
  trans : 1 ≤ o s.trans
  reuse : 1 ≤ o s.reuse
  clist : 1 ≤ o s.clist
  nsroot : 1 ≤ o s.nsroot
  nslist : 1 ≤ o s.nslist

theorem GA.mono {o o' : Own} {s : Srv} (h : GA o s) (e : ∀ x, o x ≤ o' x) : GA o' s where
  trans := Nat.le_trans h.trans (e _)
  reuse := Nat.le_trans h.reuse (e _)
  clist := Nat.le_trans h.clist (e _)
  nsroot := Nat.le_trans h.nsroot (e _)
  nslist := Nat.le_trans h.nslist (e _)

section
variable {l : Level} {M : Mem} {o : Own} {q : List Resp} {β : Type} {Q : β → Mem → Prop} {c : Client} {sp : Space}
  {s : Srv}

theorem wp_dataGet {k : Option Nat → Prog β} (h : Holds l o M) (asp : SA o sp)
    (hn : ∀ M, Holds l o M → wp l (k none) Q M) (hs : ∀ b M, Holds l (one b + o) M → wp l (k (some b)) Q M) :
    wp l (dataGet sp >>= k) Q M := by
  rw [wp_bind]
  unfold dataGet
  refine wp_useb h asp.droot ?_
  as a
  br
  · exact hn M h
  al b
  as a
  br
  · exact hs b M h
  fr
  exact hn M (h.re (by own))

theorem wp_dataCheck {k : Unit → Prog β} (h : Holds l o M) (asp : SA o sp)
    (hn : ∀ M, Holds l o M → wp l (k ()) Q M) : wp l (dataCheck sp >>= k) Q M := by
  rw [wp_bind]
  unfold dataCheck
  refine wp_useb h asp.droot ?_
  as a
  br
  · exact hn M h
  as a
  br
  · exact hn M h
  al b
  us
  apply wp_tail
  fr
  exact hn M (h.re (by own))

theorem wp_dataInsert {k : Bool → Prog β} (h : Holds l o M) (asp : SA o sp)
    (hn : ∀ b M, Holds l o M → wp l (k b) Q M) : wp l (dataInsert sp >>= k) Q M := by
  rw [wp_bind]
  unfold dataInsert
  refine wp_useb h asp.droot ?_
  al b
  us
  as a
  br
  · fr
    exact hn _ M (h.re (by own))
  · fr
    as a
    exact hn _ M (h.re (by own))

theorem wp_itemGetDisk {k : Option Nat → Prog β} (h : Holds l o M) (asp : SA o sp)
    (hn : ∀ M, Holds l o M → wp l (k none) Q M) (hs : ∀ b M, Holds l (one b + o) M → wp l (k (some b)) Q M) :
    wp l (itemGetDisk sp >>= k) Q M := by
  rw [wp_bind]
  unfold itemGetDisk
  refine wp_useb h asp.iroot ?_
  al b
  as a
  br
  · fr
    exact hn M (h.re (by own))
  as a
  br
  · exact hs b M h
  fr
  exact hn M (h.re (by own))

theorem wp_indexGet {k : Bool → Prog β} (h : Holds l o M) (asp : SA o sp) (ag : GA o s)
    (hn : ∀ b M, Holds l o M → wp l (k b) Q M) : wp l (indexGet s sp >>= k) Q M := by
  rw [wp_bind]
  unfold indexGet
  refine wp_useb h asp.iroot ?_
  br
  · obtain ⟨p, hp⟩ := Option.isSome_iff_exists.1 (asp.mode hi)
    have hseq := asp.seq p hp
    rw [hp]
    obtain ⟨p1, p2⟩ := p
    refine wp_useb h hseq.1 ?_
    as a
    br
    · exact hn _ M h
    refine wp_useb h hseq.2 ?_
    refine wp_itemGetDisk h asp (fun M h => hn _ M h) fun b M h => ?_
    us
    have := ag.reuse
    us
    fr
    as a
    exact hn _ M (h.re (by own))
  · as a
    exact hn _ M h

theorem wp_getSingle (h : Holds l o M) (asp : SA o sp) (ag : GA o s) (aq : Av o (respBlocks q)) :
    wp l (getSingle s sp q) (Ext l o q) M := by
  unfold getSingle
  refine wp_indexGet h asp ag ?_
  clear h
  intro b M h
  br
  · rp
  refine wp_dataGet h asp (fun M h => ?_) fun b M h => ?_
  · exact wp_call (wp_replyStack h aq) fun q' M h => wp_free_none h
  us
  refine wp_bulk h fun r M h => ?_
  refine wp_call (wp_replyHeap (o := one b + o) h (aq.mono (by own))) ?_
  rintro q' M ⟨e, rfl, h⟩
  fr
  exact ⟨e, rfl, h.re (by own)⟩

theorem wp_cmdGet (h : Holds l o M) (hc : Req c) (ac : Av o c.reqBlocks) (asp : SA o sp) (ag : GA o s)
    (aq : Av o (respBlocks q)) : wp l (cmdGet s c sp q) (Ext l o q) M := by
  unfold cmdGet
  va
  ar
  ck
  exact wp_getSingle h asp ag aq

theorem wp_mgetLoop (hc : Req c) : ∀ n k (o : Own) (q : List Resp) (M : Mem), Holds l o M → Av o c.reqBlocks →
    SA o sp → GA o s → Av o (respBlocks q) → k + n ≤ c.argc → wp l (mgetLoop s c sp k n q) (Ext l o q) M := by
  intro n
  induction n with
  | zero => intro k o q M h _ _ _ _ _; exact Ext.rfl h
  | succ n ih =>
    intro k o q M h ac asp ag aq hk
    unfold mgetLoop
    ar
    refine wp_call (wp_getSingle h asp ag aq) ?_
    rintro q' M ⟨e, rfl, h⟩
    exact wp_mono (ih (k + 1) _ _ _ h (ac.mono (by own)) (asp.mono (by own)) (ag.mono (by own)) aq.ext (by omega))
      fun _ _ h => h.trans

theorem wp_cmdMget (h : Holds l o M) (hc : Req c) (ac : Av o c.reqBlocks) (asp : SA o sp) (ag : GA o s)
    (aq : Av o (respBlocks q)) : wp l (cmdMget s c sp q) (Ext l o q) M := by
  unfold cmdMget
  br
  · rp
  refine wp_argsFrom h hc ac ?_ _ _ (by omega)
  ck
  refine wp_call (wp_replyStack h aq) ?_
  rintro q' M ⟨e, rfl, h⟩
  exact wp_mono (wp_mgetLoop hc _ _ _ _ _ h (ac.mono (by own)) (asp.mono (by own)) (ag.mono (by own)) aq.ext (by omega))
      fun _ _ h => h.trans

theorem wp_cmdLookup (h : Holds l o M) (hc : Req c) (ac : Av o c.reqBlocks) (asp : SA o sp) (ag : GA o s)
    (aq : Av o (respBlocks q)) : wp l (cmdLookup s c sp q) (Ext l o q) M := by
  unfold cmdLookup
  va
  ar
  ck
  refine wp_indexGet h asp ag ?_
  clear h
  intro b M h
  rp

theorem wp_cmdCheck (h : Holds l o M) (hc : Req c) (ac : Av o c.reqBlocks) (asp : SA o sp) (ag : GA o s)
    (aq : Av o (respBlocks q)) : wp l (cmdCheck s c sp q) (Ext l o q) M := by
  unfold cmdCheck
  va
  ar
  ck
  refine wp_indexGet h asp ag ?_
  clear h
  intro b M h
  br
  · rp
  refine wp_dataCheck h asp ?_
  clear h
  intro M h
  rp

theorem wp_cmdDel (h : Holds l o M) (hc : Req c) (ac : Av o c.reqBlocks) (asp : SA o sp) (ag : GA o s)
    (aq : Av o (respBlocks q)) : wp l (cmdDel s c sp q) (Ext l o q) M := by
  unfold cmdDel
  have key : c.argc = 2 ∨ c.argc = 3 → wp l (do
      arg c 1
      let (ok, q) ← check q
      if !ok then pure q else do
        let found ← indexGet s sp
        if !found then replyStack q else do
          let (ok, q) ← check q
          if !ok then pure q else do
            timestampFrom c 2
            let written ← dataInsert sp
            if written then useb s.trans
            replyStack q) (Ext l o q) M := by
    intro hargc
    ar
    ck
    refine wp_indexGet h asp ag ?_
    clear h
    intro b M h
    br
    · rp
    ck
    refine wp_timestampFrom h hc ac (by omega) ?_
    clear h
    intro M h
    refine wp_dataInsert h asp ?_
    clear h
    intro b M h
    have := ag.trans
    br
    · us
      rp
    · rp
  br
  · ck
    exact key (.inr hi)
  · va
    exact key (.inl hn)

theorem wp_compareMatching {k : Bool → Prog β} (h : Holds l o M) (asp : SA o sp)
    (hn : ∀ b M, Holds l o M → wp l (k b) Q M) : wp l (compareMatching sp >>= k) Q M := by
  rw [wp_bind]
  unfold compareMatching
  as a
  br
  · exact hn _ M h
  refine wp_dataGet h asp (fun M h => hn _ M h) fun b M h => ?_
  us
  as a
  refine wp_lose h (by owna) fun M h => ?_
  exact hn _ M (h.re (by own))

theorem wp_setHandler {existing : Bool} (h : Holds l o M) (hc : Req c) (ac : Av o c.reqBlocks) (asp : SA o sp)
    (ag : GA o s) (aq : Av o (respBlocks q)) (ha : c.argc = 3 ∨ c.argc = 4) :
    wp l (setHandler s c sp existing q) (Ext l o q) M := by
  unfold setHandler
  ar
  ck
  ar
  refine wp_timestampFrom h hc ac (by omega) ?_
  clear h
  intro M h
  as crc
  have key : ∀ (same : Bool) (M : Mem), Holds l o M → wp l (if same then replyStack q else do
      let written ← dataInsert sp
      if !written then replyStack q else do
        useb s.trans
        let (ok, q) ← check q
        if !ok then pure q else do
          let r ← bulk
          replyHeap q r) (Ext l o q) M := by
    intro same M h
    br
    · rp
    refine wp_dataInsert h asp ?_
    clear h
    intro b M h
    br
    · rp
    refine wp_useb h ag.trans ?_
    ck
    refine wp_bulk h fun r M h => ?_
    exact wp_replyHeap h aq
  br
  · exact wp_compareMatching h asp fun b M h => key b M h
  · exact key false M h

end

end Zdb.Heap
