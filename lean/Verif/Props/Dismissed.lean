/-
C32, C37: clients whose namespace was removed, seen from the network.
-/
import Verif.Props.Answers
namespace Zdb.Server

open Zdb.Wire

/-- What a client is told whose namespace was removed. -/
def gone : Msg := .reply (.err "Your active namespace is not available anymore (probably removed).")

theorem request_gone {S : Settings} {n n' : Node} {fd : Nat} {e : Env} {argv : List Bytes} {sent : List (Nat × Msg)} {st : Status}
    (hs : request S n fd e argv = .ok n' sent st) {c : Client} (hc : getClient n fd = some c) (hns : c.ns = none)
    (hm : c.master = false) : SameNode n n' ∧ getClient n' fd = some c ∧ sentTo fd sent = [gone] ∧ st = .discard := by
  obtain ⟨c0, hc0, -, hcase⟩ := request_cases hs
  rw [hc] at hc0; injection hc0 with hc0; subst hc0
  rcases hcase with ⟨hp, rfl, rfl, -⟩ | ⟨e', argv', n1, c1, m, hp, hd, hn', hsent⟩
  · simp [popOwner, hm] at hp
  · rcases dispatch_cases hd with ⟨-, rfl, rfl, rfl, rfl⟩ | ⟨u, key, rest, hu, -⟩
    · have hpost := post_rest e' fd (putClient n1 fd (some c1)) c1
      refine ⟨⟨by rw [hn']; exact hpost.2.1, by rw [hn']; exact hpost.1, by rw [hn']; exact hpost.2.2⟩, ?_, ?_, rfl⟩
      · rw [hn']; exact post_me ..
      · rw [hsent, sentTo_append, post_others]
        simp [sentTo, errMsg, gone]
    · rw [hns] at hu; exact absurd hu (by simp)

theorem runReqs_gone {S : Settings} {fd : Nat} {ar : Nat → Around} {rs : List (List Bytes)} {i : Nat} {n : Node} {R : Ran}
    (h : runReqs S fd ar i n rs = some R) {c : Client} (hc : getClient n fd = some c) (hns : c.ns = none) (hm : c.master = false) :
    SameNode n R.node ∧ (∀ x ∈ R.evs, Asks fd x.1 ∧ sentTo fd x.2 = [gone]) ∧ (∀ st ∈ R.sts, st = .discard) ∧
      R.sts.length = rs.length ∧ R.evs.length = rs.length := by
  induction rs generalizing i n R with
  | nil =>
    rw [runReqs] at h
    injection h with h
    subst h
    exact ⟨SameNode.rfl _, by simp, by simp, rfl, rfl⟩
  | cons r rs ih =>
    rw [runReqs] at h
    split at h
    · rename_i n1 sent st hq
      split at h
      · rename_i R1 hR
        injection h with h
        subst h
        obtain ⟨g1, g2, g3, g4⟩ := request_gone hq hc hns hm
        obtain ⟨h1, h2, h3, h4, h5⟩ := ih (R := R1) hR g2
        refine ⟨⟨h1.1.trans g1.1, h1.2.1.trans g1.2.1, h1.2.2.trans g1.2.2⟩, fun x hx => ?_, fun x hx => ?_, by simp [h4], by simp [h5]⟩
        · rcases List.mem_cons.1 hx with rfl | hx
          · exact ⟨rfl, g3⟩
          · exact h2 x hx
        · rcases List.mem_cons.1 hx with rfl | hx
          · exact g4
          · exact h3 x hx
      · cases h
    · cases h

/-- Nothing is expected any more. -/
theorem at_nil {q : Resp.Request} {s : Bytes} {rs : List (List Bytes)} (h : Resp.At q s rs) (hr : rs = []) : q.state = .empty ∧ s = [] := by
  cases h with
  | empty hs => subst hr; exact ⟨hs, rfl⟩
  | header _ _ _ _ => cases hr
  | payload _ _ _ _ _ _ => cases hr

/-- A read that completes a request and leaves nothing returns what the dispatcher returned for the last request. -/
theorem read_last {ret : List (List Resp.Arg) → Resp.Status} {d : Bytes} {reqs l : List (List Bytes)} {c : Resp.Conn}
    (hi : Resp.Inv d reqs c l) (hr : 0 < c.buf.remain) (hd : d ≠ []) (hl : d.length ≤ c.buf.remain)
    {c' : Resp.Conn} {v : Resp.Status} (hp : Resp.parse ret { c with buf := c.buf.write d } .success = some (c', v)) :
    v = ret c'.ran ∧ fresh c c' ≠ [] ∧ c'.requests = reqs := by
  have hi' : Resp.Inv (d ++ []) reqs c l := by rw [List.append_nil]; exact hi
  have hw := hi'.write hl
  have hun := Resp.write_ne_nil hi.buf hd hl
  obtain ⟨c1, v1, rs, h1, -, h3, -, h5⟩ :=
    Resp.parse_fine (ret := fun _ => .success) (v := .success) (fun _ => Or.inl rfl) hw (Or.inl rfl) (fun h => absurd h hun)
  obtain ⟨w, h6, -⟩ := Resp.parse_success hp (Or.inl rfl)
  rw [h1] at h6
  simp only [Option.some.injEq, Prod.mk.injEq] at h6
  obtain ⟨rfl, -⟩ := h6
  have hrs : rs = [] := by
    cases rs with
    | nil => rfl
    | cons r rs => have := Resp.stuck_next h3 h5; simp at this
  subst hrs
  obtain ⟨e1, e2⟩ := at_nil h3.pos rfl
  rw [List.append_nil] at e2
  have hsum := h3.sum
  rw [List.append_nil] at hsum
  refine ⟨Resp.parse_last hw hun hp e1 e2, fun hf => ?_, hsum⟩
  have hg := (Resp.parse_grows hp).1
  obtain ⟨t, ht⟩ := hg
  have ht : c.ran ++ t = c1.ran := ht
  have hfe : t.map (·.map Resp.Arg.content) = [] := by
    unfold fresh at hf
    rw [← ht, List.drop_left] at hf
    exact hf
  have hte : t = [] := by simpa using hfe
  rw [hte, List.append_nil] at ht
  have hs := hi.sum
  have hq : c.requests = c1.requests := by simp only [Resp.Conn.requests, ht]
  rw [hq, hsum] at hs
  have hln : l = [] := by simpa using hs
  exact hd (List.append_eq_nil_iff.1 (at_nil hi.pos hln).2).2

/-- C32 over the network.  The namespace of a connected client was removed.  When it has sent, in any pieces, complete
    requests, the last read that completes them dismisses it: each request of this read is answered with the error and nothing
    else, nothing changes in any namespace, and the connection is closed.

    Missing: a read which goes on after the last complete request (`C32_closed_refuted`), masters, and a process with
    mirrors (`C32_mirror_refuted`). -/
theorem C32_closed_partial {S : Settings} {n0 : Node} (h0 : Started S n0) {evs : List Ev} {σ σ' : Server}
    (hrun : run S (Server.new n0) evs = some σ) (hsound : ∀ ev ∈ evs, ev.Sound)
    {fd : Nat} {k : Link} (hk : σ.links fd = some k) {c : Client} (hc : getClient σ.node fd = some c) (hns : c.ns = none)
    (hm : c.master = false) {d : Bytes} {ar : Nat → Around} {ans : Nat → Sends}
    (hstep : step S σ (.recv fd (.data d) ar ans) = some σ') (hg : Guarded S n0 σ'.log)
    {reqs : List (List Bytes)} (hok : ∀ r ∈ reqs, Resp.OkReq r) (hs : Resp.received k.got ++ d = Resp.encAll reqs) :
    σ'.links fd = none ∧ getClient σ'.node fd = none ∧ SameNode σ.node σ'.node ∧
    ∃ l, σ'.log = σ.log ++ l ++ [(.disconnect fd, [])] ∧ l ≠ [] ∧ askedBy fd (since fd σ.log ++ l) = reqs ∧
      ∀ x ∈ l, Asks fd x.1 ∧ sentTo fd x.2 = [gone] := by
  have hpre : σ.log <+: σ'.log := run_log (evs := [.recv fd (.data d) ar ans]) (by rw [run, hstep]; rfl)
  obtain ⟨t, ht⟩ := hpre
  have hi := (SrvInv.new S n0).ran h0.inv hrun hsound (by rw [← ht] at hg; exact hg.prefix)
  have hl := hi.links fd k hk
  obtain ⟨mem, hmem, hf, hser⟩ := hl.conn
  have hinv := Resp.newConn_inv (mem := mem) hmem hok
  rw [← hs] at hinv
  obtain ⟨c1, l1, h1, h2, h3, -⟩ := Resp.serve_fine (ret := fun _ => .success) (fun _ => Or.inl rfl) hinv
    (show 0 < Resp.bufSize by decide) (Resp.newConn_stuck mem) hf hl.up
  rw [hser] at h1
  injection h1 with h1
  subst h1
  rw [step] at hstep
  split at hstep
  rotate_left
  · cases hstep
  rename_i k' hup hk'
  rw [hk] at hk'
  injection hk' with hk'
  subst hk'
  simp only at hstep
  split at hstep
  · cases hstep
  rename_i hd
  have hd1 : d ≠ [] := fun h => hd (Or.inl h)
  have hd2 : d.length ≤ k.conn.buf.remain := Nat.le_of_not_lt (fun h => hd (Or.inr h))
  unfold step.read at hstep
  -- what is read
  cases hp : Resp.parse (retOf S fd ar σ.node k.conn.ran.length) { k.conn with buf := k.conn.buf.write d } .success with
  | none =>
    have : Resp.onRecv (retOf S fd ar σ.node k.conn.ran.length) k.conn (.data d) = .crash := by
      unfold Resp.onRecv
      rw [if_neg (by omega)]
      simp only [hp]
    rw [this] at hstep
    cases hstep
  | some x =>
    obtain ⟨c', v⟩ := x
    obtain ⟨g1, g2, g3⟩ := read_last h2 h3 hd1 hd2 hp
    -- the requests of this read
    have hR : ∀ R, runReqs S fd ar 0 σ.node (fresh k.conn c') = some R → v = .discard := by
      intro R hR
      obtain ⟨-, -, r3, r4, -⟩ := runReqs_gone hR hc hns hm
      have hne : R.sts ≠ [] := by
        intro h
        rw [h] at r4
        exact g2 (List.length_eq_zero_iff.1 r4.symm)
      have hlast := List.getLast?_eq_some_getLast hne
      have hv := r3 _ (List.getLast_mem hne)
      rw [g1, retOf]
      change (match runReqs S fd ar 0 σ.node (fresh k.conn c') with
        | some R => (R.sts.getLast?.map statusOf).getD .success
        | none => .success) = _
      rw [hR]
      simp only [hlast, hv]
      rfl
    have hon : ∀ R, runReqs S fd ar 0 σ.node (fresh k.conn c') = some R →
        Resp.onRecv (retOf S fd ar σ.node k.conn.ran.length) k.conn (.data d) = .closed c' := by
      intro R h
      unfold Resp.onRecv
      rw [if_neg (by omega)]
      simp only [hp, hR R h]
    have hconn : (Resp.onRecv (retOf S fd ar σ.node k.conn.ran.length) k.conn (.data d)).conn = some c' := by
      unfold Resp.onRecv
      rw [if_neg (by omega)]
      simp only [hp]
      cases v <;> rfl
    have hrr : ∃ R, runReqs S fd ar 0 σ.node (fresh k.conn c') = some R := by
      cases hq : runReqs S fd ar 0 σ.node (fresh k.conn c') with
      | some R => exact ⟨R, rfl⟩
      | none =>
        exfalso
        split at hstep
        · cases hstep
        all_goals
          rename_i ho
          rw [ho] at hconn
          injection hconn with hconn
          subst hconn
          rw [hq] at hstep
          cases hstep
    obtain ⟨R, hq⟩ := hrr
    rw [hon R hq] at hstep
    simp only [hq] at hstep
    injection hstep with hstep
    subst hstep
    obtain ⟨r1, r2, -, -, r5⟩ := runReqs_gone hq hc hns hm
    refine ⟨?_, ?_, r1, R.evs, ?_, ?_, ?_, r2⟩
    · simp [drop, setLink]
    · simp only [drop, afterRead]
      rw [getClient_put, if_pos rfl]
    · rfl
    · intro h
      rw [h] at r5
      exact g2 (List.length_eq_zero_iff.1 r5.symm)
    · rw [askedBy_append, (runReqs_log hq).2.1, ← hl.asked]
      obtain ⟨t', ht'⟩ := (Resp.parse_grows hp).1
      have ht' : k.conn.ran ++ t' = c'.ran := ht'
      rw [← g3]
      simp only [Resp.Conn.requests, fresh, ← ht', List.map_append, List.drop_left]

/-! ### examples and cases that fail -/

/-- Client 6 is in `foo` and has sent the first part of a request when client 5 removes `foo`. -/
def exLost : List Ev :=
  [.accept 5 exMem, .accept 6 exMem,
    exRecv 5 1 "*2\r\n$4\r\nAUTH\r\n$2\r\npw\r\n*2\r\n$5\r\nNSNEW\r\n$3\r\nfoo\r\n" [.took 99],
    exRecv 6 2 "*2\r\n$6\r\nSELECT\r\n$3\r\nfoo\r\n*1\r\n$4\r\nPI" [.took 99],
    exRecv 5 3 "*2\r\n$5\r\nNSDEL\r\n$3\r\nfoo\r\n" [.took 99]]

/-- The requests of client 6. -/
def exLostReqs : List (List Bytes) := [[str "SELECT", str "foo"], [str "PING"]]

def exLostEnd : Server := (run exS (Server.new (exNode exS)) exLost).getD (Server.new (exNode exS))

/-- The conditions of `C32_closed_partial` on the process and the next read. -/
def exLostB : Bool :=
  (run exS (Server.new (exNode exS)) exLost).isSome &&
  (exLostEnd.links 6).any (fun k => Resp.received k.got ++ str "NG\r\n" == Resp.encAll exLostReqs) &&
  (getClient exLostEnd.node 6).any (fun c => c.ns.isNone && !c.master) &&
  (match step exS exLostEnd (exRecv 6 4 "NG\r\n" [.took 99]) with
    | some σ => guardedB exS (exNode exS) σ.log && (σ.links 6).isNone && (σ.links 5).isSome
    | none => false)

/-- A case of C32 over the network. -/
theorem C32_closed_example : exLostB = true := by decide +kernel

/-- The connection is open and all the client was told since `foo` was removed is the error. -/
def exStaysB : Bool :=
  match step exS exLostEnd (exRecv 6 4 "NG\r\n*" [.took 99]) with
  | some σ =>
    (σ.links 6).any (fun k => k.out.delivered ==
      str "+OK\r\n-Your active namespace is not available anymore (probably removed).\r\n") && (getClient σ.node 6).isSome
  | none => false

/-- C32 refuted: the client of a removed namespace stays connected if the read that completes its request contains the first
    byte of another one. -/
theorem C32_closed_refuted : exStaysB = true := by decide +kernel

set_option maxRecDepth 100000 in
/-- C32 refuted: with a mirror, the request of a master whose namespace was removed ends the process (the name of the
    namespace is read through NULL). -/
theorem C32_mirror_refuted :
    Reachable exS (ranNode exS (exEvents ++
      [.connect 7, .request 7 (exE 4) [str "AUTH", str "pw"], .request 7 (exE 5) [str "MIRROR"],
       .request 6 (exE 6) [str "AUTH", str "pw"], .request 6 (exE 7) [str "MASTER"], .request 6 (exE 8) [str "GET", str "k", str "3"],
       .request 5 (exE 9) [str "NSDEL", str "foo"]])) ∧
    request exS (ranNode exS (exEvents ++
      [.connect 7, .request 7 (exE 4) [str "AUTH", str "pw"], .request 7 (exE 5) [str "MIRROR"],
       .request 6 (exE 6) [str "AUTH", str "pw"], .request 6 (exE 7) [str "MASTER"], .request 6 (exE 8) [str "GET", str "k", str "3"],
       .request 5 (exE 9) [str "NSDEL", str "foo"]])) 6 (exE 10) [str "GET", str "k", str "3"] = .crash :=
  ⟨ex_reachable _, rfl⟩

set_option maxRecDepth 100000 in
/-- C37 refuted: the namespace of clients 6 and 7 is removed while 7 waits for GET.  A request of 6, which is refused, makes 7
    be told of a GET: the last command 6 ran. -/
theorem C37_removed_refuted : ranSent exS (exEvents ++
      [.connect 7, .request 7 (exE 4) [str "SELECT", str "foo"], .request 6 (exE 5) [str "GET", str "k"],
       .request 7 (exE 6) [str "WAIT", str "GET"], .request 5 (exE 7) [str "NSDEL", str "foo"], .request 6 (exE 8) [str "PING"]]) =
    ranSent exS exEvents ++ [[], [(7, .reply .ok)], [(6, .reply (.bulk (str "v")))], [], [(5, .reply .ok)],
      [(6, gone), (7, .notice (str "GET"))]] := rfl

end Zdb.Server
