/-
C61: what a client reads back is what its requests were answered, over any network.
-/
import Verif.Lemmas.Server
import Verif.Props.Resp
import Verif.Spec.NodeExample
namespace Zdb.Server

open Zdb.Wire

/-- The values of messages that can be read. -/
theorem values_of {l : List (Texts × Msg)} (h : ∀ x ∈ l, Readable x) :
    ∃ vs : List Value, l.length = vs.length ∧
      (∀ (i : Nat) (x : Texts × Msg) (v : Value), l[i]? = some x → vs[i]? = some v → ∀ s, readValue 4 (encMsg x.1 x.2 ++ s) = some (v, s)) ∧
      Says (l.map (·.2)) vs := by
  induction l with
  | nil => exact ⟨[], rfl, by simp, rfl, by simp⟩
  | cons x l ih =>
    obtain ⟨vs, h1, h2, h3, h4⟩ := ih (fun y hy => h y (List.mem_cons_of_mem _ hy))
    obtain ⟨v, h5, h6⟩ := h x (List.mem_cons_self ..)
    refine ⟨v :: vs, by simp [h1], fun i y w hy hw => ?_, by simpa using h3, fun i m w hm hw => ?_⟩
    · cases i with
      | zero =>
        simp only [List.getElem?_cons_zero, Option.some.injEq] at hy hw
        rw [← hy, ← hw]; exact h6
      | succ i => exact h2 i y w (by simpa using hy) (by simpa using hw)
    · cases i with
      | zero =>
        simp only [List.map_cons, List.getElem?_cons_zero, Option.some.injEq] at hm hw
        rw [← hm, ← hw]; exact h5
      | succ i => exact h4 i m w (by simpa using hm) (by simpa using hw)

/-- The values read by a connected client. -/
theorem LinkInv.reads {log : List (Event × List (Nat × Msg))} {fd : Nat} {k : Link} (h : LinkInv log fd k) :
    ∃ vs, Says (k.told.map (·.2)) vs ∧ (decode k.out.delivered).1 <+: vs ∧
      (k.out.queue = [] → decode k.out.delivered = (vs, [])) := by
  obtain ⟨vs, h1, h2, h3⟩ := values_of h.readable
  have hs := h.sent
  unfold SentAll at hs
  refine ⟨vs, h3, readAll_prefix h2 h1 ⟨_, hs⟩ _, fun hq => ?_⟩
  rw [hq, List.flatten_nil, List.append_nil] at hs
  rw [hs]
  exact decode_all h2 h1

/-- C61.  A process is started on empty directories and serves any clients, over a network which cuts what they send and what
    they are sent in any pieces.  The events of its log are an execution of the node.  A client which has sent a first part of
    some well-formed requests and is still connected had the requests run which are complete in it, once each and in order; what
    it has received reads as values, the first ones of what the node sent to this client, in this order; and if nothing
    waits to be sent, it has received all of them.

    Missing: a socket that fails without closing (`C29_refuted`) and bytes which are not read (`C27_refuted`). -/
theorem C61_served_partial {S : Settings} {n0 : Node} (h0 : Started S n0) {evs : List Ev} {σ : Server}
    (hrun : run S (Server.new n0) evs = some σ) (hsound : ∀ ev ∈ evs, ev.Sound) (hg : Guarded S n0 σ.log)
    {fd : Nat} {k : Link} (hk : σ.links fd = some k)
    {reqs : List (List Bytes)} (hok : ∀ r ∈ reqs, Resp.OkReq r) (hs : Resp.received k.got <+: Resp.encAll reqs) :
    NodeRun S n0 σ.log σ.node ∧
    (∃ j, askedBy fd (since fd σ.log) = reqs.take j ∧ Resp.encAll (reqs.take j) <+: Resp.received k.got ∧
      (j < reqs.length → (Resp.received k.got).length < (Resp.encAll (reqs.take (j + 1))).length)) ∧
    ∃ vs, Says (toldTo fd (since fd σ.log)) vs ∧ (decode k.out.delivered).1 <+: vs ∧
      (k.out.queue = [] → decode k.out.delivered = (vs, [])) := by
  have hi := (SrvInv.new S n0).ran h0.inv hrun hsound hg
  have hl := hi.links fd k hk
  obtain ⟨mem, hm, hf, hser⟩ := hl.conn
  refine ⟨hi.run, ?_, ?_⟩
  · obtain ⟨c, j, h1, h2, h3, h4⟩ := Resp.C27_requests_partial hm (fun _ => Or.inl rfl) hok hf hl.up hs
    rw [hser] at h1
    injection h1 with h1
    refine ⟨j, ?_, h3, h4⟩
    rw [← hl.asked, h1, h2]
  · have hquiet : k.conn.said = [] := by
      obtain ⟨f, hs⟩ := hs
      have hinv := Resp.newConn_inv (mem := mem) hm hok
      rw [← hs] at hinv
      obtain ⟨c, l, h1, h2, _, _⟩ := Resp.serve_fine (fun _ => Or.inl rfl) hinv (show 0 < Resp.bufSize by decide)
        (Resp.newConn_stuck mem) hf hl.up
      rw [hser] at h1
      injection h1 with h1
      rw [h1]; exact h2.quiet
    obtain ⟨vs, h1, h2, h3⟩ := hl.reads
    rw [hl.told hquiet] at h1
    exact ⟨vs, h1, h2, h3⟩

/-- C61, for clients that send anything at all: what they receive are complete values and at most one beginning of a value, and
    complete values only if nothing waits. -/
theorem C61_framed {S : Settings} {n0 : Node} (h0 : Started S n0) {evs : List Ev} {σ : Server}
    (hrun : run S (Server.new n0) evs = some σ) (hsound : ∀ ev ∈ evs, ev.Sound) (hg : Guarded S n0 σ.log)
    {fd : Nat} {k : Link} (hk : σ.links fd = some k) :
    (∃ vs, (decode k.out.delivered).1 <+: vs ∧ (k.out.queue = [] → decode k.out.delivered = (vs, [])) ∧
      (k.conn.said = [] → Says (toldTo fd (since fd σ.log)) vs)) ∧
    askedBy fd (since fd σ.log) = k.conn.requests := by
  have hl := ((SrvInv.new S n0).ran h0.inv hrun hsound hg).links fd k hk
  obtain ⟨vs, h1, h2, h3⟩ := hl.reads
  exact ⟨⟨vs, h2, h3, fun hq => by rw [hl.told hq] at h1; exact h1⟩, hl.asked.symm⟩

/-- C61: the same on the node alone.  Every message made by a request, in whatever state, reads back as what it says, whatever
    is sent after it; what a mirror is sent reads back as the time, the namespace the client is attached to, the owner and the
    arguments. -/
theorem C61_messages {S : Settings} {n n' : Node} (hr : Reachable S n) {fd : Nat} {a : Around} {argv : List Bytes}
    (hg : Guard S n (.request fd a.e argv)) (hn : ∀ x ∈ a.e.nonce, x ≠ 13 ∧ x ≠ 10) {sent : List (Nat × Msg)} {st : Status}
    (h : request S n fd a.e argv = .ok n' sent st) (rest : Bytes) :
    (∀ x ∈ sent, ∃ v, Means x.2 v ∧ readValue 4 (encMsg (textsFor a n n' fd argv) x.2 ++ rest) = some (v, rest)) ∧
    ∀ to, (to, Msg.mirrored) ∈ sent → to ≠ fd ∧ ∃ c e' argv' c' r, getClient n fd = some c ∧
      popOwner a.e c argv = some (e', argv') ∧ getClient n' fd = some c' ∧ c'.ns = some r.uid ∧ nsDeref n' r.uid = some r ∧
      readValue 4 (encMsg (textsFor a n n' fd argv) .mirrored ++ rest) =
        some (mirrorValue e'.now r.conf.name e'.owner argv', rest) := by
  have hi := hr.inv
  have hi' : NodeInv S n' := hi.step hg (show nodeStep S n (.request fd a.e argv) = _ from h)
  refine ⟨fun x hx => ?_, fun to ht => ?_⟩
  · obtain ⟨v, h1, h2⟩ := request_readable hi hi' hn h x hx
    exact ⟨v, h1, h2 rest⟩
  · rcases request_fine hi hn h _ ht with h1 | ⟨_, h1⟩
    · exact h1.elim
    · obtain ⟨c, e', argv', c', r, g1, g2, g3, g4, g5, g6⟩ := textsFor_mirror hi' h1
      refine ⟨h1.other, c, e', argv', c', r, g1, g2, g3, g4, hi'.rec_of g5, ?_⟩
      rw [encMsg, g6]
      exact readValue_mirror _ _ _ _ rest

/-! ### an example -/

/-- The conditions of `Guarded`, computed for a process with a single mode. -/
def guardedB (S : Settings) : Node → List (Event × List (Nat × Msg)) → Bool
  | _, [] => true
  | n, (ev, _) :: l =>
    guardB n ev && (match ev with | .request _ e _ => e.nonce.all (fun x => x != 13 && x != 10) | _ => true) &&
      (match nodeStep S n ev with
      | .ok n1 _ _ => guardedB S n1 l
      | _ => true)

theorem guardedB_ok {S : Settings} {m : Mode} (hm : S.cfg = some m) {n : Node} (hi : NodeInv S n)
    {l : List (Event × List (Nat × Msg))} (h : guardedB S n l = true) : Guarded S n l := by
  induction l generalizing n with
  | nil => intro n1 l1 ev sent l2 he; simp at he
  | cons x l ih =>
    obtain ⟨ev, sent⟩ := x
    simp only [guardedB, Bool.and_eq_true] at h
    obtain ⟨⟨h1, h2⟩, h3⟩ := h
    have hg := guardB_ok hm hi h1
    intro n1 l1 ev' sent' l2 he hr
    cases hr with
    | nil =>
      simp only [List.nil_append, List.cons.injEq, Prod.mk.injEq] at he
      rw [← he.1.1]
      refine ⟨hg, fun fd e argv hev x hx => ?_⟩
      subst hev
      have := List.all_eq_true.1 h2 x hx
      simpa using this
    | cons hg' hs h =>
      simp only [List.cons_append, List.cons.injEq, Prod.mk.injEq] at he
      obtain ⟨⟨rfl, rfl⟩, rfl⟩ := he
      rw [hs] at h3
      exact ih (hi.step hg' hs) h3 _ _ _ _ _ rfl h

/-- What surrounds the `i`th request of the `k`th read. -/
def exAround (k i : Nat) : Around := { e := exE (10 * k + i), server := str "info", nsinfo := fun _ => str "nsinfo" }

def exMem : Bytes := List.replicate 8192 0

/-- A read of `s` by client `fd`; `as` is what `send` answers each time.  The second message is sent as
    two responses. -/
def exRecv (fd k : Nat) (s : String) (as : List Out.Send) : Ev :=
  .recv fd (.data (str s)) (exAround k) (fun i => ⟨if i = 1 then [(4, as)] else [], as⟩)

theorem exRecv_sound {fd k : Nat} {s : String} {as : List Out.Send} (h : Out.Sound as) : (exRecv fd k s as).Sound := by
  intro i
  refine ⟨h, fun x hx => ?_⟩
  simp only at hx
  split at hx
  · rw [List.mem_singleton] at hx
    rw [hx]; exact h
  · cases hx

/-- Client 7 becomes a mirror.  Client 5 sends PING, SET, AUTH, MASTER and GET and a part of a sixth request, cut in the middle
    of requests; its socket takes two bytes and then asks to wait. -/
def exServerEvents : List Ev :=
  [.accept 5 exMem, .accept 7 exMem,
    exRecv 7 1 "*2\r\n$4\r\nAUTH\r\n$2\r\npw\r\n*1\r\n$6\r\nMIR" [.took 50], exRecv 7 2 "ROR\r\n" [.took 50],
    exRecv 5 3 "*1\r\n$4\r\nPING\r\n*3\r\n$3\r\nSET\r\n$1\r\nk\r\n$1\r" [.took 50],
    exRecv 5 4 "\nv\r\n*2\r\n$4\r\nAUTH\r\n$2\r\npw\r\n*1\r\n$6\r\nMASTER\r\n*3\r\n$3\r\nGET\r\n$1\r\nk\r\n$1\r\n7\r\n*2\r"
      [.took 1, .again],
    .writable 5 [.took 4, .took 1, .again]]

/-- The process after these events. -/
def exServer : Server := (run exS (Server.new (exNode exS)) exServerEvents).getD (Server.new (exNode exS))

def exServerB : Bool :=
  (run exS (Server.new (exNode exS)) exServerEvents).isSome && guardedB exS (exNode exS) exServer.log &&
  (exServer.links 5).any (fun k => k.out.delivered == str "+PONG\r\n$1\r\nk\r\n+O" &&
    k.out.queue.length == 4 && (decode k.out.delivered).1.length == 2) &&
  (exServer.links 7).any (fun k => k.out.delivered ++ k.out.queue.flatten ==
    str "+OK\r\n+Starting mirroring\r\n*5\r\n:1700000043\r\n$7\r\ndefault\r\n:7\r\n$3\r\nGET\r\n$1\r\nk\r\n") &&
  askedBy 5 (since 5 exServer.log) ==
    [[str "PING"], [str "SET", str "k", str "v"], [str "AUTH", str "pw"], [str "MASTER"], [str "GET", str "k", str "7"]] &&
  (toldTo 5 (since 5 exServer.log)).length == 5

/-- The case: the hypotheses of C61 hold of this run, whose clients were sent what `exServerB` says. -/
theorem C61_example : Started exS (exNode exS) ∧ run exS (Server.new (exNode exS)) exServerEvents = some exServer ∧
    (∀ ev ∈ exServerEvents, ev.Sound) ∧ Guarded exS (exNode exS) exServer.log ∧ exServerB = true := by
  have hb : exServerB = true := by decide +kernel
  have hst : Started exS (exNode exS) := ⟨1, by
    have : (boot exS { uid := 1, name := nameDefault, ifiles := [], dfiles := [], desc := [] } []).isSome = true := by decide +kernel
    unfold exNode
    cases h : boot exS { uid := 1, name := nameDefault, ifiles := [], dfiles := [], desc := [] } [] with
    | none => rw [h] at this; cases this
    | some n => rfl⟩
  have hb' := hb
  unfold exServerB at hb'
  simp only [Bool.and_eq_true] at hb'
  obtain ⟨⟨⟨⟨⟨h1, h2⟩, _⟩, _⟩, _⟩, _⟩ := hb'
  refine ⟨hst, ?_, ?_, guardedB_ok (m := .user) rfl hst.inv h2, hb⟩
  · unfold exServer
    cases h : run exS (Server.new (exNode exS)) exServerEvents with
    | none => rw [h] at h1; cases h1
    | some σ => rfl
  · have hs : ∀ as : List Out.Send, as.all (fun a => match a with | .again => true | .took _ => true | _ => false) = true → Out.Sound as := by
      intro as h a ha
      have := List.all_eq_true.1 h a ha
      cases a with
      | took k => exact Or.inr ⟨k, rfl⟩
      | again => exact Or.inl rfl
      | pipe => cases this
      | error => cases this
    intro ev he
    simp only [exServerEvents, List.mem_cons, List.not_mem_nil, or_false] at he
    rcases he with h | h | h | h | h | h | h <;> subst h
    · trivial
    · trivial
    · exact exRecv_sound (hs _ rfl)
    · exact exRecv_sound (hs _ rfl)
    · exact exRecv_sound (hs _ rfl)
    · exact exRecv_sound (hs _ rfl)
    · exact hs _ rfl

end Zdb.Server
