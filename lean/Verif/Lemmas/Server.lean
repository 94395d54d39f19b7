/-
The daemon: what each event does to the log, to the clients and to what they are sent.
-/
import Verif.Spec.Server
import Verif.Lemmas.RespRet
import Verif.Lemmas.WireFine
import Verif.Lemmas.Reply
namespace Zdb.Server

open Zdb.Wire

/-- The bytes of a message read back as what it says, whatever follows. -/
def Readable (x : Texts × Msg) : Prop := ∃ v, Means x.2 v ∧ ∀ s, readValue 4 (encMsg x.1 x.2 ++ s) = some (v, s)

theorem readable_fine (T : Texts) {m : Msg} (h : FineMsg m) : Readable (T, m) := by
  obtain ⟨v, h1, h2⟩ := readValue_msg T .nil h
  refine ⟨v, ?_, h2⟩
  cases m with
  | reply r => exact h1
  | stream n l =>
    simp only [msgValue, Option.map_eq_some_iff] at h1
    obtain ⟨vs, h3, h4⟩ := h1
    exact ⟨vs, h3, h4.symm⟩
  | nsinfo i => injection h1 with h1; exact ⟨_, h1.symm⟩
  | server => injection h1 with h1; exact ⟨_, h1.symm⟩
  | challenge b => injection h1 with h1; exact h1.symm
  | notice b => injection h1 with h1; exact h1.symm
  | mirrored => exact h.elim

/-- A request has the mirror text it should. -/
theorem textsFor_mirror {S : Settings} {n n' : Node} (hi : NodeInv S n') {fd : Nat} {a : Around} {argv : List Bytes} {to : Nat}
    (h : Mirrors n n' fd a.e argv to) :
    ∃ c e' argv' c' r, getClient n fd = some c ∧ popOwner a.e c argv = some (e', argv') ∧ getClient n' fd = some c' ∧
      c'.ns = some r.uid ∧ r ∈ recs n' ∧ (textsFor a n n' fd argv).mirror = mirrorText e'.now r.conf.name e'.owner argv' := by
  obtain ⟨c, e', argv', h1, h2, _⟩ := h.run
  obtain ⟨c', u, h3, h4⟩ := h.ns
  obtain ⟨r, h5, h6⟩ := hi.attached fd c' u h3 h4
  refine ⟨c, e', argv', c', r, h1, h2, h3, by rw [h6]; exact h4, h5, ?_⟩
  have h7 := hi.rec_of h5
  rw [h6] at h7
  simp only [textsFor, h1, h3, h4, Option.bind_some, h2, h7]

theorem request_readable {S : Settings} {n n' : Node} (hi : NodeInv S n) (hi' : NodeInv S n') {fd : Nat} {a : Around}
    (he : Plain a.e.nonce) {argv : List Bytes} {sent : List (Nat × Msg)} {st : Status}
    (h : request S n fd a.e argv = .ok n' sent st) : ∀ x ∈ sent, Readable (textsFor a n n' fd argv, x.2) := by
  intro x hx
  rcases request_fine hi he h x hx with h1 | ⟨h1, h2⟩
  · exact readable_fine _ h1
  · rw [h1]
    obtain ⟨c, e', argv', c', r, _, _, _, _, _, h3⟩ := textsFor_mirror hi' h2
    refine ⟨mirrorValue e'.now r.conf.name e'.owner argv', ⟨_, _, _, _, rfl⟩, fun s => ?_⟩
    rw [encMsg, h3]
    exact readValue_mirror _ _ _ _ s

/-! ### logs -/

theorem Guarded.prefix {S : Settings} {n0 : Node} {l l' : List (Event × List (Nat × Msg))} (h : Guarded S n0 (l ++ l')) :
    Guarded S n0 l := by
  intro n1 l1 ev sent l2 he hr
  exact h n1 l1 ev sent (l2 ++ l') (by rw [he]; simp) hr

theorem Guarded.last {S : Settings} {n0 n : Node} {l : List (Event × List (Nat × Msg))} {ev : Event} {sent : List (Nat × Msg)}
    (h : Guarded S n0 (l ++ [(ev, sent)])) (hr : NodeRun S n0 l n) :
    Guard S n ev ∧ ∀ fd e argv, ev = .request fd e argv → Plain e.nonce :=
  h n l ev sent [] rfl hr

theorem nodeRun_snoc {S : Settings} {n0 n n' : Node} {l : List (Event × List (Nat × Msg))} {ev : Event} {sent : List (Nat × Msg)}
    {st : Status} (hr : NodeRun S n0 l n) (hg : Guarded S n0 (l ++ [(ev, sent)])) (hs : nodeStep S n ev = .ok n' sent st) :
    NodeRun S n0 (l ++ [(ev, sent)]) n' :=
  hr.append (.cons (hg.last hr).1 hs (.nil _))

theorem since_append {fd : Nat} (l l' : List (Event × List (Nat × Msg))) (h : ∀ x ∈ l', isConnect fd x.1 = false) :
    since fd (l ++ l') = since fd l ++ l' := by
  unfold since
  rw [List.foldl_append]
  generalize l.foldl _ _ = acc
  induction l' generalizing acc with
  | nil => simp
  | cons x l' ih =>
    rw [List.foldl_cons, h x (List.mem_cons_self ..)]
    simp only [Bool.false_eq_true, if_false]
    rw [ih (fun y hy => h y (List.mem_cons_of_mem _ hy))]
    simp

theorem since_connect {fd : Nat} (l : List (Event × List (Nat × Msg))) (sent : List (Nat × Msg)) :
    since fd (l ++ [(.connect fd, sent)]) = [] := by
  unfold since
  rw [List.foldl_append]
  simp [isConnect]

theorem askedBy_append (fd : Nat) (l l' : List (Event × List (Nat × Msg))) : askedBy fd (l ++ l') = askedBy fd l ++ askedBy fd l' := by
  unfold askedBy; rw [List.filterMap_append]

theorem toldTo_append (fd : Nat) (l l' : List (Event × List (Nat × Msg))) : toldTo fd (l ++ l') = toldTo fd l ++ toldTo fd l' := by
  unfold toldTo; rw [List.flatMap_append]

/-- The messages to one client. -/
def mine (fd : Nat) (l : List (Nat × Texts × Msg)) : List (Texts × Msg) :=
  l.filterMap (fun x => if x.1 = fd then some x.2 else none)

theorem mine_append (fd : Nat) (l l' : List (Nat × Texts × Msg)) : mine fd (l ++ l') = mine fd l ++ mine fd l' := by
  unfold mine; rw [List.filterMap_append]

theorem mine_sent (fd : Nat) (T : Texts) (sent : List (Nat × Msg)) :
    (mine fd (sent.map (fun x => (x.1, T, x.2)))).map (·.2) = sent.filterMap (fun y => if y.1 = fd then some y.2 else none) := by
  induction sent with
  | nil => rfl
  | cons x l ih =>
    unfold mine at ih ⊢
    simp only [List.map_cons, List.filterMap_cons]
    by_cases h : x.1 = fd
    · simp only [h, if_true, List.map_cons, ih]
    · simp only [h, if_false, ih]

/-! ### requests of one read -/

/-- Requests run one after the other are events of the node. -/
theorem runReqs_ok {S : Settings} {n0 : Node} (h0 : NodeInv S n0) {fd : Nat} {ar : Nat → Around} {rs : List (List Bytes)} {i : Nat}
    {n : Node} {l : List (Event × List (Nat × Msg))} {R : Ran} (h : runReqs S fd ar i n rs = some R) (hr : NodeRun S n0 l n)
    (hg : Guarded S n0 (l ++ R.evs)) :
    NodeRun S n0 (l ++ R.evs) R.node ∧ (∀ x ∈ R.msgs, Readable x.2) := by
  induction rs generalizing i n l R with
  | nil =>
    rw [runReqs] at h
    injection h with h
    subst h
    exact ⟨by simpa using hr, by simp⟩
  | cons r rs ih =>
    rw [runReqs] at h
    split at h
    · rename_i n1 sent st hq
      split at h
      · rename_i R1 hR
        injection h with h
        subst h
        simp only at hg ⊢
        have e : ∀ x : Event × List (Nat × Msg), l ++ x :: R1.evs = (l ++ [x]) ++ R1.evs := by simp
        rw [e] at hg ⊢
        have hg1 := hg.prefix
        have hr1 : NodeRun S n0 (l ++ [(.request fd (ar i).e r, sent)]) n1 := nodeRun_snoc hr hg1 hq
        obtain ⟨h1, h2⟩ := ih hR hr1 hg
        refine ⟨h1, fun x hx => ?_⟩
        rcases List.mem_append.1 hx with hx | hx
        · obtain ⟨y, hy, rfl⟩ := List.mem_map.1 hx
          exact request_readable (hr.inv h0) (hr1.inv h0) ((hg1.last hr).2 _ _ _ rfl) hq y hy
        · exact h2 x hx
      · cases h
    · cases h

theorem runReqs_log {S : Settings} {fd : Nat} {ar : Nat → Around} {rs : List (List Bytes)} {i : Nat} {n : Node} {R : Ran}
    (h : runReqs S fd ar i n rs = some R) :
    (∀ f, ∀ x ∈ R.evs, isConnect f x.1 = false) ∧ askedBy fd R.evs = rs ∧ (∀ f, f ≠ fd → askedBy f R.evs = []) ∧
      ∀ f, toldTo f R.evs = (mine f R.msgs).map (·.2) := by
  induction rs generalizing i n R with
  | nil =>
    rw [runReqs] at h
    injection h with h
    subst h
    exact ⟨by simp, rfl, fun _ _ => rfl, fun _ => rfl⟩
  | cons r rs ih =>
    rw [runReqs] at h
    split at h
    · rename_i n1 sent st hq
      split at h
      · rename_i R1 hR
        injection h with h
        subst h
        obtain ⟨h1, h2, h3, h4⟩ := ih hR
        refine ⟨fun f x hx => ?_, ?_, fun f hf => ?_, fun f => ?_⟩
        · rcases List.mem_cons.1 hx with rfl | hx
          · rfl
          · exact h1 f x hx
        · simp only [askedBy, List.filterMap_cons, if_true] at h2 ⊢
          rw [h2]
        · have := h3 f hf
          simp only [askedBy, List.filterMap_cons, if_neg (Ne.symm hf)] at this ⊢
          exact this
        · have := h4 f
          simp only [toldTo, List.flatMap_cons] at this ⊢
          rw [this, mine_append, List.map_append, mine_sent]
      · cases h
    · cases h

/-! ### sending -/

/-- What was delivered and what waits is what was told. -/
def SentAll (k : Link) : Prop := k.out.delivered ++ k.out.queue.flatten = encAllMsgs k.told

theorem stack_sum {as : List Out.Send} (h : Out.Sound as) (o : Out.Out) (r : Bytes) :
    (o.stack as r).delivered ++ (o.stack as r).queue.flatten = o.delivered ++ o.queue.flatten ++ r := by
  rw [Out.stack_eq_heap h]
  exact (Out.heap_sum h o r).1

theorem sendCut_sum {last : List Out.Send} (h : Out.Sound last) {cuts : List (Nat × List Out.Send)}
    (hc : ∀ x ∈ cuts, Out.Sound x.2) (o : Out.Out) (r : Bytes) :
    (sendCut last cuts o r).delivered ++ (sendCut last cuts o r).queue.flatten = o.delivered ++ o.queue.flatten ++ r := by
  induction cuts generalizing o r with
  | nil => exact stack_sum h o r
  | cons x cuts ih =>
    rw [sendCut, ih (fun y hy => hc y (List.mem_cons_of_mem _ hy)), stack_sum (hc x (List.mem_cons_self ..)),
      List.append_assoc, List.take_append_drop]

/-- A client before and after some messages. -/
structure Told (k k' : Link) (l : List (Texts × Msg)) : Prop where
  conn : k'.conn = k.conn
  got : k'.got = k.got
  told : k'.told = k.told ++ l
  sent : SentAll k → SentAll k'

theorem tell_get {ans : Nat → Sends} (ha : ∀ i, (ans i).Sound) (l : List (Nat × Texts × Msg)) (i : Nat)
    (L : Nat → Option Link) (fd : Nat) :
    (L fd = none → tell ans i L l fd = none) ∧ ∀ k', tell ans i L l fd = some k' → ∃ k, L fd = some k ∧ Told k k' (mine fd l) := by
  induction l generalizing i L with
  | nil => exact ⟨fun h => h, fun k' h => ⟨k', h, rfl, rfl, by simp [mine], fun h => h⟩⟩
  | cons x l ih =>
    rw [tell]
    obtain ⟨h1, h2⟩ := ih (i + 1) (tell1 (ans i) L x)
    by_cases hx : fd = x.1
    · have e : tell1 (ans i) L x fd = (L fd).map (fun k => { k with out := sendCut (ans i).last (ans i).cuts k.out (encMsg x.2.1 x.2.2)
                                                                    told := k.told ++ [x.2] }) := by
        simp [tell1, hx]
      refine ⟨fun h => h1 (by rw [e, h]; rfl), fun k' h => ?_⟩
      obtain ⟨k1, h3, h4⟩ := h2 k' h
      rw [e, Option.map_eq_some_iff] at h3
      obtain ⟨k, h5, h6⟩ := h3
      subst h6
      have hm : mine fd (x :: l) = x.2 :: mine fd l := by simp [mine, hx]
      refine ⟨k, h5, h4.conn, h4.got, ?_, fun hs => h4.sent ?_⟩
      · rw [h4.told, hm]; simp
      · unfold SentAll at hs ⊢
        simp only
        rw [sendCut_sum (ha i).1 (ha i).2, hs]
        simp [encAllMsgs]
    · have e : tell1 (ans i) L x fd = L fd := by simp [tell1, hx]
      have hm : mine fd (x :: l) = mine fd l := by simp [mine, Ne.symm hx]
      rw [e] at h1 h2
      rw [hm]
      exact ⟨h1, h2⟩

/-! ### the invariant -/

/-- What holds of a connected client. -/
structure LinkInv (log : List (Event × List (Nat × Msg))) (fd : Nat) (k : Link) : Prop where
  sent : SentAll k
  readable : ∀ x ∈ k.told, Readable x
  up : Resp.Up k.got
  asked : k.conn.requests = askedBy fd (since fd log)
  told : k.conn.said = [] → k.told.map (·.2) = toldTo fd (since fd log)
  conn : ∃ mem, mem.length = 8192 ∧
    Resp.Fits (fun _ => .success) (Resp.newConn mem) k.got ∧ Resp.serve (fun _ => .success) (Resp.newConn mem) k.got = .open k.conn

/-- What holds of the process. -/
structure SrvInv (S : Settings) (n0 : Node) (σ : Server) : Prop where
  run : NodeRun S n0 σ.log σ.node
  links : ∀ fd k, σ.links fd = some k → LinkInv σ.log fd k

/-- An event that is not about the connection of `fd`. -/
theorem LinkInv.more {log : List (Event × List (Nat × Msg))} {fd : Nat} {k k' : Link} (h : LinkInv log fd k)
    {l : List (Event × List (Nat × Msg))} {ms : List (Texts × Msg)} (ht : Told k k' ms) (hc : ∀ x ∈ l, isConnect fd x.1 = false)
    (ha : askedBy fd l = []) (hm : ms.map (·.2) = toldTo fd l) (hr : ∀ x ∈ ms, Readable x) : LinkInv (log ++ l) fd k' := by
  refine ⟨ht.sent h.sent, fun x hx => ?_, by rw [ht.got]; exact h.up, ?_, fun hs => ?_, ?_⟩
  · rw [ht.told] at hx
    rcases List.mem_append.1 hx with hx | hx
    · exact h.readable x hx
    · exact hr x hx
  · rw [ht.conn, h.asked, since_append _ _ hc, askedBy_append, ha, List.append_nil]
  · rw [ht.conn] at hs
    rw [ht.told, List.map_append, h.told hs, since_append _ _ hc, toldTo_append, hm]
  · rw [ht.conn, ht.got]
    exact h.conn

theorem Told.refl (k : Link) : Told k k [] := ⟨rfl, rfl, by simp, fun h => h⟩

theorem mine_mem {fd : Nat} {l : List (Nat × Texts × Msg)} {x : Texts × Msg} (h : x ∈ mine fd l) : (fd, x) ∈ l := by
  unfold mine at h
  obtain ⟨y, h1, h2⟩ := List.mem_filterMap.1 h
  split at h2
  · rename_i hy
    injection h2 with h2
    rw [← hy, ← h2]
    exact h1
  · cases h2

/-- The client that read something. -/
theorem LinkInv.read {S : Settings} {n : Node} {log : List (Event × List (Nat × Msg))} {fd : Nat} {k k' : Link} (h : LinkInv log fd k)
    {ar : Nat → Around} {r : Resp.Recv} {c : Resp.Conn} {R : Ran} (ho : Resp.onRecv (retOf S fd ar n k.conn.ran.length) k.conn r = .open c)
    (hd : ∀ d, r = .data d → d ≠ [] ∧ d.length ≤ k.conn.buf.remain) (hR : runReqs S fd ar 0 n (fresh k.conn c) = some R)
    (hread : ∀ x ∈ R.msgs, Readable x.2)
    (ht : Told { k with conn := c, got := k.got ++ [r] } k'
      (mine fd (R.msgs ++ (c.said.drop k.conn.said.length).map (fun s => (fd, noTexts, .reply (.err s)))))) :
    LinkInv (log ++ R.evs) fd k' := by
  obtain ⟨g1, s, g2, g3⟩ := Resp.onRecv_grows (c' := c) (ret := retOf S fd ar n k.conn.ran.length) (r := r) (by rw [ho]; rfl)
  obtain ⟨l1, l2, _, l4⟩ := runReqs_log hR
  have hsaid : c.said.drop k.conn.said.length = s := by rw [g2, List.drop_left]
  rw [hsaid] at ht
  have hre : r ≠ .eof := by
    intro hr
    subst hr
    unfold Resp.onRecv at ho
    split at ho <;> cases ho
  refine ⟨ht.sent h.sent, fun x hx => ?_, ?_, ?_, fun hs => ?_, ?_⟩
  · rw [ht.told] at hx
    rcases List.mem_append.1 hx with hx | hx
    · exact h.readable x hx
    · rcases List.mem_append.1 (mine_mem hx) with hx | hx
      · exact hread _ hx
      · obtain ⟨t, ht1, ht2⟩ := List.mem_map.1 hx
        injection ht2 with _ ht2
        rw [← ht2]
        exact readable_fine _ (g3 t ht1)
  · rw [ht.got]
    intro x hx
    rcases List.mem_append.1 hx with hx | hx
    · exact h.up x hx
    · rw [List.mem_singleton] at hx
      rw [hx]; exact hre
  · rw [ht.conn, since_append _ _ (l1 fd), askedBy_append, l2, ← h.asked]
    obtain ⟨t, ht'⟩ := g1
    simp only [Resp.Conn.requests, fresh, ← ht', List.map_append, List.drop_left]
  · have hs : c.said = [] := by rw [ht.conn] at hs; exact hs
    rw [g2, List.append_eq_nil_iff] at hs
    rw [ht.told, List.map_append, h.told hs.1, since_append _ _ (l1 fd), toldTo_append, l4, hs.2]
    simp
  · obtain ⟨mem, hm, hc⟩ := h.conn
    obtain ⟨f1, f2⟩ := hc
    rw [ht.got, ht.conn]
    refine ⟨mem, hm, Resp.fits_snoc f2 f1 hd, ?_⟩
    rw [Resp.serve_snoc f2]
    exact Resp.onRecv_success ho

theorem setLink_get {L : Nat → Option Link} {fd f : Nat} {k : Option Link} : setLink L fd k f = if f = fd then k else L f := rfl

/-- What one event of the process adds to the log keeps the invariant. -/
theorem SrvInv.step {S : Settings} {n0 : Node} (h0 : NodeInv S n0) {σ σ' : Server} (h : SrvInv S n0 σ) {ev : Ev}
    (hs : Server.step S σ ev = some σ') (hso : ev.Sound) (hg : Guarded S n0 σ'.log) : SrvInv S n0 σ' ∧ σ.log <+: σ'.log := by
  cases ev with
  | accept fd mem =>
    rw [Server.step] at hs
    split at hs
    · rename_i hc
      injection hs with hs
      subst hs
      simp only at hg
      refine ⟨⟨nodeRun_snoc h.run hg rfl, fun f k hk => ?_⟩, List.prefix_append _ _⟩
      simp only [setLink_get] at hk
      split at hk
      · rename_i hf
        subst hf
        injection hk with hk
        subst hk
        refine ⟨rfl, by simp, by simp [Resp.Up], ?_, fun _ => ?_, mem, hc.2.2, trivial, rfl⟩
        · show _ = askedBy f (since f (σ.log ++ _)); rw [since_connect]; rfl
        · show _ = toldTo f (since f (σ.log ++ _)); rw [since_connect]; rfl
      · rename_i hf
        refine (h.links f k hk).more (Told.refl k) (fun x hx => ?_) rfl rfl (by simp)
        rw [List.mem_singleton] at hx
        subst hx
        simp [isConnect, Ne.symm hf]
    · cases hs
  | recv fd r ar ans =>
    have key : ∀ k, σ.links fd = some k → (∀ d, r = .data d → d ≠ [] ∧ d.length ≤ k.conn.buf.remain) →
        Server.step.read S σ fd k r ar ans = some σ' → SrvInv S n0 σ' ∧ σ.log <+: σ'.log := by
      intro k hk hd hs
      -- the clients after the messages were sent, `fd` apart
      have others : ∀ (c : Resp.Conn) (R : Ran), runReqs S fd ar 0 σ.node (fresh k.conn c) = some R →
          (∀ x ∈ R.msgs, Readable x.2) → ∀ f k', f ≠ fd → (afterRead fd k c r ans R σ).links f = some k' →
          LinkInv (σ.log ++ R.evs) f k' := by
        intro c R hR hread f k' hf hk'
        obtain ⟨k1, h1, h2⟩ := (tell_get hso _ 0 _ f).2 k' hk'
        rw [setLink_get, if_neg hf] at h1
        obtain ⟨l1, _, l3, l4⟩ := runReqs_log hR
        have hm : mine f (R.msgs ++ (c.said.drop k.conn.said.length).map (fun s => (fd, noTexts, Msg.reply (.err s)))) = mine f R.msgs := by
          rw [mine_append]
          have : mine f ((c.said.drop k.conn.said.length).map (fun s => (fd, noTexts, Msg.reply (.err s)))) = [] := by
            unfold mine
            rw [List.filterMap_eq_nil_iff]
            intro x hx
            obtain ⟨s, _, rfl⟩ := List.mem_map.1 hx
            simp [Ne.symm hf]
          rw [this, List.append_nil]
        rw [hm] at h2
        exact (h.links f k1 h1).more h2 (l1 f) (l3 f hf) (l4 f).symm (fun x hx => hread _ (mine_mem hx))
      unfold Server.step.read at hs
      split at hs
      · cases hs
      · rename_i c ho
        split at hs
        · rename_i R hR
          injection hs with hs
          subst hs
          obtain ⟨hrun, hread⟩ := runReqs_ok h0 hR h.run hg
          refine ⟨⟨hrun, fun f k' hk' => ?_⟩, List.prefix_append _ _⟩
          by_cases hf : f = fd
          · subst hf
            obtain ⟨k1, h1, h2⟩ := (tell_get hso _ 0 _ f).2 k' hk'
            rw [setLink_get, if_pos rfl] at h1
            injection h1 with h1
            subst h1
            exact (h.links f k hk).read ho hd hR hread h2
          · exact others c R hR hread f k' hf hk'
        · cases hs
      · rename_i c ho
        split at hs
        · rename_i R hR
          injection hs with hs
          subst hs
          have hg1 : Guarded S n0 (σ.log ++ R.evs) := hg.prefix
          obtain ⟨hrun, hread⟩ := runReqs_ok h0 hR h.run hg1
          refine ⟨⟨nodeRun_snoc hrun hg rfl, fun f k' hk' => ?_⟩, ?_⟩
          · simp only [drop, setLink_get] at hk'
            split at hk'
            · cases hk'
            · rename_i hf
              refine (others c R hR hread f k' hf hk').more (Told.refl k') (fun x hx => ?_) rfl rfl (by simp)
              rw [List.mem_singleton] at hx
              subst hx
              rfl
          · exact (List.prefix_append _ _).trans (List.prefix_append _ _)
        · cases hs
      · rename_i c ho
        split at hs
        · rename_i R hR
          injection hs with hs
          subst hs
          obtain ⟨hrun, hread⟩ := runReqs_ok h0 hR h.run hg
          exact ⟨⟨hrun, fun f k' hk' => nomatch hk'⟩, List.prefix_append _ _⟩
        · cases hs
    rw [Server.step] at hs
    split at hs
    · rename_i k _ hk
      cases r with
      | data d =>
        simp only at hs
        split at hs
        · cases hs
        · rename_i hd
          refine key k hk (fun d' he => ?_) hs
          injection he with he
          subst he
          exact ⟨fun hx => hd (Or.inl hx), by
            rcases Nat.lt_or_ge k.conn.buf.remain d.length with hx | hx
            · exact absurd (Or.inr hx) hd
            · exact hx⟩
      | again => exact key k hk (fun d he => nomatch he) hs
      | error => exact key k hk (fun d he => nomatch he) hs
      | eof => exact key k hk (fun d he => nomatch he) hs
    · cases hs
  | writable fd as =>
    rw [Server.step] at hs
    split at hs
    · rename_i k _ hk
      injection hs with hs
      subst hs
      refine ⟨⟨h.run, fun f k' hk' => ?_⟩, List.prefix_refl _⟩
      simp only [setLink_get] at hk'
      split at hk'
      · rename_i hf
        subst hf
        injection hk' with hk'
        subst hk'
        have hl := h.links f k hk
        refine ⟨?_, hl.readable, hl.up, hl.asked, hl.told, hl.conn⟩
        unfold SentAll
        exact (Out.drainQueue_sum hso _ _).1.trans hl.sent
      · exact h.links f k' hk'
    · cases hs
  | hangup fd =>
    rw [Server.step] at hs
    split at hs
    · injection hs with hs
      subst hs
      refine ⟨⟨nodeRun_snoc h.run hg rfl, fun f k' hk' => ?_⟩, List.prefix_append _ _⟩
      simp only [drop, setLink_get] at hk'
      split at hk'
      · cases hk'
      · refine (h.links f k' hk').more (Told.refl k') (fun x hx => ?_) rfl rfl (by simp)
        rw [List.mem_singleton] at hx
        subst hx
        rfl
    · cases hs
  | tick us ans =>
    rw [Server.step] at hs
    split at hs
    · split at hs
      · rename_i n sent st hn
        injection hs with hs
        subst hs
        refine ⟨⟨nodeRun_snoc h.run hg hn, fun f k' hk' => ?_⟩, List.prefix_append _ _⟩
        obtain ⟨k1, h1, h2⟩ := (tell_get hso _ 0 _ f).2 k' hk'
        refine (h.links f k1 h1).more h2 (fun x hx => ?_) rfl ?_ (fun x hx => ?_)
        · rw [List.mem_singleton] at hx
          subst hx
          rfl
        · rw [mine_sent]
          simp [toldTo]
        · obtain ⟨y, hy, he⟩ := List.mem_map.1 (mine_mem hx)
          injection he with _ he
          rw [← he]
          injection hn with _ hn _
          rw [← hn] at hy
          exact readable_fine _ (timeoutAll_fine us 0 σ.node.clients y hy)
      · cases hs
    · cases hs
  | rotate u =>
    rw [Server.step] at hs
    split at hs
    · split at hs
      · rename_i n sent st hn
        injection hs with hs
        subst hs
        refine ⟨⟨nodeRun_snoc h.run hg hn, fun f k' hk' => ?_⟩, List.prefix_append _ _⟩
        have hsent : sent = [] := by injection hn with _ hn _; exact hn.symm
        subst hsent
        refine (h.links f k' hk').more (Told.refl k') (fun x hx => ?_) rfl rfl (by simp)
        rw [List.mem_singleton] at hx
        subst hx
        rfl
      · cases hs
    · cases hs
  | restart order =>
    rw [Server.step] at hs
    split at hs
    · rename_i n sent st hn
      injection hs with hs
      subst hs
      exact ⟨⟨nodeRun_snoc h.run hg hn, fun f k' hk' => nomatch hk'⟩, List.prefix_append _ _⟩
    · cases hs

theorem run_log {S : Settings} {σ σ' : Server} {evs : List Ev} (h : run S σ evs = some σ') : σ.log <+: σ'.log := by
  induction evs generalizing σ with
  | nil => injection h with h; subst h; exact List.prefix_refl _
  | cons ev evs ih =>
    rw [run] at h
    split at h
    · rename_i σ1 h1
      refine List.IsPrefix.trans ?_ (ih h)
      cases ev with
      | accept fd mem =>
        rw [step] at h1
        split at h1 <;> first | (cases h1; done) | (injection h1 with h1; subst h1; exact List.prefix_append _ _)
      | recv fd r ar ans =>
        have key : ∀ k, step.read S σ fd k r ar ans = some σ1 → σ.log <+: σ1.log := by
          intro k h1
          unfold step.read at h1
          repeat' split at h1
          all_goals first
            | (cases h1; done)
            | (injection h1 with h1; subst h1; exact List.prefix_append _ _)
            | (injection h1 with h1; subst h1; exact (List.prefix_append _ _).trans (List.prefix_append _ _))
        rw [step] at h1
        repeat' split at h1
        all_goals first | (cases h1; done) | exact key _ h1
      | writable fd as =>
        rw [step] at h1
        split at h1 <;> first | (cases h1; done) | (injection h1 with h1; subst h1; exact List.prefix_refl _)
      | hangup fd =>
        rw [step] at h1
        split at h1 <;> first | (cases h1; done) | (injection h1 with h1; subst h1; exact List.prefix_append _ _)
      | tick us ans =>
        rw [step] at h1
        repeat' split at h1
        all_goals first | (cases h1; done) | (injection h1 with h1; subst h1; exact List.prefix_append _ _)
      | rotate u =>
        rw [step] at h1
        repeat' split at h1
        all_goals first | (cases h1; done) | (injection h1 with h1; subst h1; exact List.prefix_append _ _)
      | restart order =>
        rw [step] at h1
        split at h1 <;> first | (cases h1; done) | (injection h1 with h1; subst h1; exact List.prefix_append _ _)
    · cases h

theorem SrvInv.ran {S : Settings} {n0 : Node} (h0 : NodeInv S n0) {σ σ' : Server} (h : SrvInv S n0 σ) {evs : List Ev}
    (hs : Server.run S σ evs = some σ') (hso : ∀ ev ∈ evs, ev.Sound) (hg : Guarded S n0 σ'.log) : SrvInv S n0 σ' := by
  induction evs generalizing σ with
  | nil => injection hs with hs; subst hs; exact h
  | cons ev evs ih =>
    rw [Server.run] at hs
    split at hs
    · rename_i σ1 h1
      obtain ⟨t, ht⟩ := run_log hs
      have hg1 : Guarded S n0 σ1.log := by rw [← ht] at hg; exact hg.prefix
      exact ih (h.step h0 h1 (hso ev (List.mem_cons_self ..)) hg1).1 hs (fun e he => hso e (List.mem_cons_of_mem _ he))
    · cases hs

theorem SrvInv.new (S : Settings) (n : Node) : SrvInv S n (Server.new n) := ⟨.nil n, fun _ _ h => nomatch h⟩

end Zdb.Server
