/-
C62: every request is answered, once, in the order of the requests.
-/
import Verif.Lemmas.Answers
import Verif.Props.Server
import Verif.Props.Namespaces
namespace Zdb.Server

open Zdb.Wire

/-- C62.  In any execution, a connected client which since its connection has asked neither WAIT nor MIRROR nor MASTER has
    been sent one message for each of its requests, while it ran, and nothing else: the messages it was sent are the answers
    to its requests, in the order of the requests.

    Missing: WAIT (`C62_wait_refuted`, `C62_order_refuted`), mirrors (`C62_mirror_refuted`), masters (`C62_owner_refuted`). -/
theorem C62_partial {S : Settings} {n0 n : Node} (h0 : Started S n0) {l : List (Event × List (Nat × Msg))} (hr : NodeRun S n0 l n)
    {fd : Nat} {c : Client} (hc : getClient n fd = some c) (ho : ∀ argv ∈ askedBy fd (since fd l), Ordinary argv) :
    Answered fd (since fd l) ∧ (answers fd (since fd l)).map (·.1) = askedBy fd (since fd l) ∧
      (answers fd (since fd l)).map (·.2) = toldTo fd (since fd l) := by
  have h := (run_keeps (P := Plainly) (fun h hs => h.step hs) hr [] (started_plainly h0) fd c hc (by simpa using ho)).1
  rw [List.nil_append] at h
  exact ⟨h, h.order⟩

/-- C62: whoever is not a mirror is never sent more messages than it asked requests. -/
theorem C62_at_most {S : Settings} {n0 n : Node} (h0 : Started S n0) {l : List (Event × List (Nat × Msg))} (hr : NodeRun S n0 l n)
    {fd : Nat} {c : Client} (hc : getClient n fd = some c) (ho : ∀ argv ∈ askedBy fd (since fd l), Without wordMirror argv) :
    (toldTo fd (since fd l)).length ≤ (askedBy fd (since fd l)).length := by
  have h := (run_keeps (P := Counted) (fun h hs => h.step hs) hr [] (started_counted h0) fd c hc (by simpa using ho)).2
  rw [List.nil_append] at h
  omega

/-- C62 over the network: a client has sent, in any pieces, a first part of some well-formed requests which are none of WAIT,
    MIRROR and MASTER.  If nothing waits to be sent, what it has received reads as values, one for each request that is
    complete in what it has sent, in this order, each one the answer of the node to this request.  In any case what it has
    received reads as the first ones of these. -/
theorem C62_served_partial {S : Settings} {n0 : Node} (h0 : Started S n0) {evs : List Ev} {σ : Server}
    (hrun : run S (Server.new n0) evs = some σ) (hsound : ∀ ev ∈ evs, ev.Sound) (hg : Guarded S n0 σ.log)
    {fd : Nat} {k : Link} (hk : σ.links fd = some k)
    {reqs : List (List Bytes)} (hok : ∀ r ∈ reqs, Resp.OkReq r) (ho : ∀ r ∈ reqs, Ordinary r)
    (hs : Resp.received k.got <+: Resp.encAll reqs) :
    ∃ j ms vs, (answers fd (since fd σ.log)) = (reqs.take j).zip ms ∧ ms.length = (reqs.take j).length ∧
      Resp.encAll (reqs.take j) <+: Resp.received k.got ∧
      (j < reqs.length → (Resp.received k.got).length < (Resp.encAll (reqs.take (j + 1))).length) ∧
      Says ms vs ∧ (decode k.out.delivered).1 <+: vs ∧ (k.out.queue = [] → decode k.out.delivered = (vs, [])) := by
  obtain ⟨hr, ⟨j, h1, h2, h3⟩, vs, h4, h5, h6⟩ := C61_served_partial h0 hrun hsound hg hk hok hs
  obtain ⟨c, hc⟩ := Known.ran (σ := Server.new n0) (fun _ _ h => by cases h) hrun fd k hk
  obtain ⟨-, g1, g2⟩ := C62_partial h0 hr hc (by
    rw [h1]; exact fun a ha => ho a (List.mem_of_mem_take ha))
  refine ⟨j, toldTo fd (since fd σ.log), vs, ?_, ?_, h2, h3, h4, h5, h6⟩
  · rw [← h1, ← g1, ← g2, List.zip_map']
    simp
  · rw [← h1, ← g1, ← g2]; simp

/-! ### examples and cases that fail -/

/-- The log of a run from the first start. -/
def exLog (evs : List Event) : List (Event × List (Nat × Msg)) := ((runNode exS (exNode exS) evs).map (·.2)).getD []

theorem exLog_run {evs : List Event} (h : (runNode exS (exNode exS) evs).isSome = true) :
    NodeRun exS (exNode exS) (exLog evs) (ranNode exS evs) := by
  obtain ⟨⟨n, l⟩, hx⟩ := Option.isSome_iff_exists.1 h
  unfold exLog ranNode
  rw [hx]
  exact runNode_run (m := .user) rfl exNode_started.inv hx

/-- The request calls none of the three commands, computed. -/
def ordinaryB (argv : List Bytes) : Bool :=
  [wordWait, wordMirror, wordMaster].all (fun w =>
    argv.head?.all (fun a => !((a.map fold).isPrefixOf (w.map fold ++ [0]) || (w.map fold ++ [0]).isPrefixOf (a.map fold))))

theorem ordinaryB_ok {argv : List Bytes} (h : ordinaryB argv = true) : Ordinary argv := by
  have key : ∀ w ∈ [wordWait, wordMirror, wordMaster], Without w argv := by
    intro w hw a ha hc
    have h1 := List.all_eq_true.1 h w hw
    rw [Option.mem_def] at ha
    rw [ha] at h1
    simp only [Option.all_some, Bool.not_eq_true', Bool.or_eq_false_iff] at h1
    rcases hc with hc | hc
    · rw [List.isPrefixOf_iff_prefix.2 hc] at h1; cases h1.1
    · rw [List.isPrefixOf_iff_prefix.2 hc] at h1; cases h1.2
  exact ⟨key _ (by simp), key _ (by simp), key _ (by simp)⟩

set_option maxRecDepth 100000 in
/-- A case: the requests of client 6 in `exEvents`, of which the last one is refused, and their answers. -/
theorem C62_example : NodeRun exS (exNode exS) (exLog (exEvents ++ [.request 6 (exE 4) [str "SET", str "k"]]))
      (ranNode exS (exEvents ++ [.request 6 (exE 4) [str "SET", str "k"]])) ∧
    (∀ argv ∈ askedBy 6 (since 6 (exLog (exEvents ++ [.request 6 (exE 4) [str "SET", str "k"]]))), Ordinary argv) ∧
    answers 6 (since 6 (exLog (exEvents ++ [.request 6 (exE 4) [str "SET", str "k"]]))) =
      [([str "SELECT", str "foo"], .reply .ok), ([str "SET", str "k", str "v"], .reply (.bulk (str "k"))),
       ([str "SET", str "k"], .reply errArgs)] := by
  refine ⟨exLog_run (by decide +kernel), fun a ha => ordinaryB_ok ?_, rfl⟩
  have : (askedBy 6 (since 6 (exLog (exEvents ++ [.request 6 (exE 4) [str "SET", str "k"]])))).all ordinaryB = true := by decide +kernel
  exact List.all_eq_true.1 this a ha

/-- Nothing more comes. -/
theorem silent {n n' : Node} {l : List (Event × List (Nat × Msg))} (hr : NodeRun exS n l n') {fd : Nat}
    (hj : ∀ x ∈ l, NotBy fd x.1) (hw : Waits n fd none) : toldTo fd l = [] := (idle_run hr hj hw).1

def waitsNoneB (n : Node) (fd : Nat) : Bool := (getClient n fd).any (fun k => !k.mirror && k.watching.isNone)

theorem waitsNoneB_ok {n : Node} {fd : Nat} (h : waitsNoneB n fd = true) : Waits n fd none := by
  unfold waitsNoneB at h
  cases hc : getClient n fd with
  | none => rw [hc] at h; cases h
  | some k =>
    rw [hc] at h
    simp only [Option.any_some, Bool.and_eq_true, Bool.not_eq_true', Option.isNone_iff_eq_none] at h
    exact ⟨k, hc, h.1, h.2⟩

/-- Client 6 asks WAIT for GET and at once WAIT for SET; then there are a GET and a SET in its namespace. -/
def exTwoWaits : List Event := exEvents ++
  [.request 6 (exE 4) [str "WAIT", str "GET"], .request 6 (exE 5) [str "WAIT", str "SET"],
   .request 5 (exE 6) [str "SELECT", str "foo"], .request 5 (exE 7) [str "GET", str "k"],
   .request 5 (exE 8) [str "SET", str "k", str "w"]]

set_option maxRecDepth 100000 in
/-- C62 refuted: the first of two WAITs is never answered, whatever happens later. -/
theorem C62_wait_refuted : NodeRun exS (exNode exS) (exLog exTwoWaits) (ranNode exS exTwoWaits) ∧
    (askedBy 6 (since 6 (exLog exTwoWaits))).drop 2 = [[str "WAIT", str "GET"], [str "WAIT", str "SET"]] ∧
    (toldTo 6 (since 6 (exLog exTwoWaits))).drop 2 = [.notice (str "SET")] ∧
    ∀ l n', NodeRun exS (ranNode exS exTwoWaits) l n' → (∀ x ∈ l, NotBy 6 x.1) → toldTo 6 l = [] :=
  ⟨exLog_run (by decide +kernel), rfl, rfl, fun _ _ hr hj => silent hr hj (waitsNoneB_ok (by decide +kernel))⟩

set_option maxRecDepth 100000 in
/-- C62 refuted: a request sent after WAIT is answered before it. -/
theorem C62_order_refuted :
    let log := exLog (exEvents ++ [.request 6 (exE 4) [str "WAIT", str "SET"], .request 6 (exE 5) [str "PING"], .tick 1700000012000000])
    (askedBy 6 (since 6 log)).drop 2 = [[str "WAIT", str "SET"], [str "PING"]] ∧
    (toldTo 6 (since 6 log)).drop 2 = [.reply (.simple "PONG"), .reply (.err "Timeout")] := ⟨rfl, rfl⟩

/-- Client 5 becomes a master and sends a SET with an owner of 33 digits. -/
def exLongOwner : List Event := exEvents ++
  [.request 5 (exE 4) [str "MASTER"], .request 5 (exE 5) [str "SET", str "k", str "w", List.replicate 33 49]]

set_option maxRecDepth 100000 in
/-- C62 refuted: a request of a master is dropped without an answer if its owner is too long. -/
theorem C62_owner_refuted : NodeRun exS (exNode exS) (exLog exLongOwner) (ranNode exS exLongOwner) ∧
    (askedBy 5 (since 5 (exLog exLongOwner))).length = 4 ∧
    toldTo 5 (since 5 (exLog exLongOwner)) = [.reply .ok, .reply .ok, .reply (.simple "Hello, master")] ∧
    ∀ l n', NodeRun exS (ranNode exS exLongOwner) l n' → (∀ x ∈ l, NotBy 5 x.1) → toldTo 5 l = [] :=
  ⟨exLog_run (by decide +kernel), rfl, rfl, fun _ _ hr hj => silent hr hj (waitsNoneB_ok (by decide +kernel))⟩

set_option maxRecDepth 100000 in
/-- C62 refuted: a mirror is sent messages it did not ask for between its answers. -/
theorem C62_mirror_refuted :
    let log := exLog [.connect 7, .connect 5, .request 7 (exE 0) [str "AUTH", str "pw"], .request 7 (exE 1) [str "MIRROR"],
      .request 5 { exE 2 with owner := 9 } [str "SET", str "k", str "v"], .request 7 (exE 3) [str "PING"]]
    askedBy 7 (since 7 log) = [[str "AUTH", str "pw"], [str "MIRROR"], [str "PING"]] ∧
    toldTo 7 (since 7 log) = [.reply .ok, .reply (.simple "Starting mirroring"), .mirrored, .reply (.simple "PONG")] := ⟨rfl, rfl⟩

/-- Client 5 sends PING, SET and GET in pieces; its socket takes everything after it has asked to wait once. -/
def exPipelined : List Ev :=
  [.accept 5 exMem, .accept 6 exMem,
    exRecv 5 1 "*1\r\n$4\r\nPING\r\n*3\r\n$3\r\nSET\r\n$1\r\nk\r\n$1\r" [.took 3, .again],
    exRecv 6 2 "*3\r\n$3\r\nSET\r\n$1\r\nk\r\n$1\r\nw\r\n" [.took 99],
    exRecv 5 3 "\nv\r\n*2\r\n$3\r\nGET\r\n$1\r\nk\r\n*1" [.again],
    .writable 5 [.took 1, .took 99, .took 99, .took 99, .took 99]]

/-- The process after these events. -/
def exPipelinedEnd : Server := (run exS (Server.new (exNode exS)) exPipelined).getD (Server.new (exNode exS))

def exPipelinedB : Bool :=
  (run exS (Server.new (exNode exS)) exPipelined).isSome && guardedB exS (exNode exS) exPipelinedEnd.log &&
  (exPipelinedEnd.links 5).any (fun k => k.out.delivered == str "+PONG\r\n$1\r\nk\r\n$1\r\nv\r\n" &&
    k.out.queue.isEmpty) &&
  (answers 5 (since 5 exPipelinedEnd.log)).map (·.1) == [[str "PING"], [str "SET", str "k", str "v"], [str "GET", str "k"]] &&
  [[str "PING"], [str "SET", str "k", str "v"], [str "GET", str "k"]].all ordinaryB

/-- A case of C62 over the network. -/
theorem C62_served_example : exPipelinedB = true := by decide +kernel

end Zdb.Server
