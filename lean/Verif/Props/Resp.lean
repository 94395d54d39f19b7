/-
C27: requests do not depend on how the network cuts the stream.
-/
import Verif.Lemmas.Resp
import Verif.Spec.Example
namespace Zdb.Resp

/-- C27, for the reads made.  A new client sends well-formed requests; `rs` is any sequence of answers of `recv` delivering some
    first part of them in any pieces.  The client stays connected, and the requests handed over are exactly the first ones:
    as many as are complete in the bytes received.

    Missing: that the server reads at all, see `C27_refuted`.  The dispatcher is supposed to return what it does for commands
    other than STOP to a client which was not detached. -/
theorem C27_requests_partial {mem : Bytes} (hm : mem.length = 8192) {ret : List (List Arg) → Status}
    (hret : ∀ x, ret x = .success ∨ ret x = .abnormal) {reqs : List (List Bytes)} (hok : ∀ r ∈ reqs, OkReq r) {rs : List Recv}
    (hf : Fits ret (newConn mem) rs) (hu : Up rs) (hs : received rs <+: encAll reqs) :
    ∃ c k, serve ret (newConn mem) rs = .open c ∧ c.requests = reqs.take k ∧
      encAll (reqs.take k) <+: received rs ∧
      (k < reqs.length → (received rs).length < (encAll (reqs.take (k + 1))).length) := by
  obtain ⟨f, hs⟩ := hs
  have hi := newConn_inv (mem := mem) hm hok
  rw [← hs] at hi
  obtain ⟨c, l, h1, h2, _, h4⟩ := serve_fine hret hi (show 0 < bufSize by decide) (newConn_stuck mem) hf hu
  have hsum := h2.sum
  have happ : encAll reqs = encAll c.requests ++ encAll l := by rw [← hsum]; simp [encAll]
  have htake : reqs.take c.requests.length = c.requests := by rw [← hsum, List.take_left]
  refine ⟨c, c.requests.length, h1, htake.symm, ?_, ?_⟩
  · rw [htake]
    -- what was handed over is complete in what was received
    have hle : (encAll c.requests).length ≤ (received rs).length := by
      have e1 := congrArg List.length (hs.trans happ)
      have e2 : f.length ≤ (encAll l).length := by
        have hpos := h2.pos
        generalize hrest : c.buf.unread ++ f = rest at hpos
        have e3 := congrArg List.length hrest
        rw [List.length_append] at e3
        cases hpos with
        | empty _ => omega
        | @header done a todo rs' _ _ _ _ =>
          rw [encAll_cons, encReq]
          simp only [List.length_append, List.length_cons, List.flatMap_append, List.flatMap_cons] at e3 ⊢
          omega
        | @payload done a p w todo rs' _ _ _ _ hp _ =>
          have hw := congrArg List.length hp
          rw [encAll_cons, encReq]
          simp only [List.length_append, List.length_cons, List.flatMap_append, List.flatMap_cons, encArg, List.length_nil] at e3 hw ⊢
          omega
      simp only [List.length_append] at e1
      omega
    exact List.prefix_of_prefix_length_le ⟨encAll l, happ.symm⟩ ⟨f, hs⟩ hle
  · intro hk
    cases l with
    | nil =>
      rw [List.append_nil] at hsum
      rw [hsum] at hk; omega
    | cons r l =>
      have hnext := stuck_next h2 h4
      have hr : reqs.take (c.requests.length + 1) = c.requests ++ [r] := by
        rw [← hsum, List.take_append, List.take_of_length_le (by omega)]
        simp
      have e1 := congrArg List.length (hs.trans happ)
      rw [hr]
      have e2 : encAll (c.requests ++ [r]) = encAll c.requests ++ encReq r := by simp [encAll]
      rw [e2]
      rw [encAll_cons] at e1
      simp only [List.length_append] at e1 ⊢
      omega

/-- C27: when everything was received, every request was handed over, once and in order. -/
theorem C27_all_partial {mem : Bytes} (hm : mem.length = 8192) {ret : List (List Arg) → Status}
    (hret : ∀ x, ret x = .success ∨ ret x = .abnormal) {reqs : List (List Bytes)} (hok : ∀ r ∈ reqs, OkReq r) {rs : List Recv}
    (hf : Fits ret (newConn mem) rs) (hu : Up rs) (hs : received rs = encAll reqs) :
    ∃ c, serve ret (newConn mem) rs = .open c ∧ c.requests = reqs := by
  obtain ⟨c, k, h1, h2, h3, h4⟩ := C27_requests_partial hm hret hok hf hu ⟨[], by rw [hs, List.append_nil]⟩
  refine ⟨c, h1, ?_⟩
  rw [h2]
  by_cases hk : k < reqs.length
  · have := h4 hk
    rw [hs] at this
    have e : encAll reqs = encAll (reqs.take (k + 1)) ++ encAll (reqs.drop (k + 1)) := by
      unfold encAll
      rw [← List.flatMap_append, List.take_append_drop]
    rw [e, List.length_append] at this
    omega
  · exact List.take_of_length_le (by omega)

/-- C27: two ways of cutting the same bytes give the same requests, whatever was in the buffers before. -/
theorem C27_cuts_partial {mem mem' : Bytes} (hm : mem.length = 8192) (hm' : mem'.length = 8192) {ret : List (List Arg) → Status}
    (hret : ∀ x, ret x = .success ∨ ret x = .abnormal) {reqs : List (List Bytes)} (hok : ∀ r ∈ reqs, OkReq r)
    {rs rs' : List Recv} (hf : Fits ret (newConn mem) rs) (hf' : Fits ret (newConn mem') rs') (hu : Up rs) (hu' : Up rs')
    (hs : received rs <+: encAll reqs) (he : received rs' = received rs) :
    ∃ c c', serve ret (newConn mem) rs = .open c ∧ serve ret (newConn mem') rs' = .open c' ∧ c.requests = c'.requests := by
  obtain ⟨c, k, h1, h2, h3, h4⟩ := C27_requests_partial hm hret hok hf hu hs
  obtain ⟨c', k', h1', h2', h3', h4'⟩ := C27_requests_partial hm' hret hok hf' hu' (he ▸ hs)
  refine ⟨c, c', h1, h1', ?_⟩
  rw [he] at h3' h4'
  have mono : ∀ {a b : Nat}, a ≤ b → (encAll (reqs.take a)).length ≤ (encAll (reqs.take b)).length := by
    intro a b hab
    have : reqs.take a = (reqs.take b).take a := by rw [List.take_take, Nat.min_eq_left hab]
    rw [this]
    conv => rhs; rw [← List.take_append_drop a (reqs.take b)]
    simp only [encAll, List.flatMap_append, List.length_append]
    omega
  have lem : ∀ {a b : Nat}, (a < reqs.length → (received rs).length < (encAll (reqs.take (a + 1))).length) →
      encAll (reqs.take b) <+: received rs → b ≤ a ∨ reqs.length ≤ a := by
    intro a b h5 h6
    by_cases ha : a < reqs.length
    · left
      apply Classical.byContradiction
      intro hn
      have e1 := h5 ha
      have e2 := h6.length_le
      have e3 := mono (a := a + 1) (b := b) (by omega)
      omega
    · right; omega
  rw [h2, h2']
  rcases lem h4 h3' with h | h <;> rcases lem h4' h3 with h' | h'
  · rw [Nat.le_antisymm h h']
  · rw [List.take_of_length_le h', List.take_of_length_le (Nat.le_trans h' h)]
  · rw [List.take_of_length_le h, List.take_of_length_le (Nat.le_trans h h')]
  · rw [List.take_of_length_le h, List.take_of_length_le h']

/-- A case where the hypotheses hold, for all requests: the bytes come one by one. -/
theorem C27_bytewise {mem : Bytes} (hm : mem.length = 8192) {ret : List (List Arg) → Status}
    (hret : ∀ x, ret x = .success ∨ ret x = .abnormal) {reqs : List (List Bytes)} (hok : ∀ r ∈ reqs, OkReq r) :
    ∃ c, serve ret (newConn mem) ((encAll reqs).map fun b => .data [b]) = .open c ∧ c.requests = reqs := by
  refine C27_all_partial hm hret hok ?_ ?_ (received_bytes _)
  · refine fits_bytes (f := []) (all := reqs) (l := reqs) hret ?_ (show 0 < bufSize by decide)
    rw [List.append_nil]
    exact newConn_inv hm hok
  · intro r hr he
    obtain ⟨b, _, h⟩ := List.mem_map.1 hr
    rw [he] at h; cases h

/-- Two requests. -/
def exReqs : List (List Bytes) := [[str "SET", str "key", [13, 10, 0, 36]], [str "PING"]]

theorem exReqs_ok : ∀ r ∈ exReqs, OkReq r := by
  intro r hr
  simp only [exReqs, List.mem_cons, List.not_mem_nil, or_false] at hr
  rcases hr with h | h <;> subst h
  · exact ⟨by decide, by decide, by decide⟩
  · exact ⟨by decide, by decide, by decide⟩

/-- The two requests, one of whose arguments contains a line end, received one byte at a time. -/
theorem C27_example : ∃ c, serve (fun _ => .success) (newConn (List.replicate 8192 0))
    ((encAll exReqs).map fun b => .data [b]) = .open c ∧ c.requests = exReqs :=
  C27_bytewise List.length_replicate (fun _ => Or.inl rfl) exReqs_ok

/-! ## Reading the socket -/

/-- C27 for one event: everything is read and handed over if it fits in the buffer at once. -/
theorem C27_event_partial {mem : Bytes} (hm : mem.length = 8192) {ret : List (List Arg) → Status}
    (hret : ∀ x, ret x = .success ∨ ret x = .abnormal) {reqs : List (List Bytes)} (hok : ∀ r ∈ reqs, OkReq r) (hne : reqs ≠ [])
    (hl : (encAll reqs).length ≤ 8192) :
    ∃ c, drain ret 2 (newConn mem) (encAll reqs) = some (.open c, []) ∧ c.requests = reqs := by
  have hi := newConn_inv (mem := mem) hm hok
  rw [← List.append_nil (encAll reqs)] at hi
  have hE : encAll reqs ≠ [] := by
    cases reqs with
    | nil => exact absurd rfl hne
    | cons r l => rw [encAll_cons, encReq]; simp
  obtain ⟨c, v, l, h1, h2, h3, h4, h5⟩ :=
    parse_fine (v := .success) hret (hi.write hl) (Or.inl rfl) (fun h => absurd h (write_ne_nil hi.buf hE hl))
  refine ⟨c, ?_, ?_⟩
  · have htk : (encAll reqs).take (newConn mem).buf.remain = encAll reqs := List.take_of_length_le hl
    have hdr : (encAll reqs).drop (newConn mem).buf.remain = [] := List.drop_of_length_le hl
    rw [drain, if_neg (newConn_remain mem), if_neg hE]
    simp only [htk, hdr, h1]
    have hlast : drain ret 1 c [] = some (.open c, []) := by
      rw [drain, if_neg (by omega), if_pos rfl]
    rcases h2 with h | h | h | h <;> subst h
    · rfl
    · exact hlast
    · exact hlast
    · exact hlast
  · cases l with
    | nil => have := h3.sum; rwa [List.append_nil] at this
    | cons r l => exact absurd (stuck_next h3 h5) (by simp)

/-- C27 fails for the socket.  If requests fill the buffer exactly and the last one succeeds, `redis_chunk_read` returns
    without reading the rest `s` of what the socket holds.  The socket is watched for edges only (zdbd/socket_epoll.c:40), so
    these bytes stay there until something else happens on the socket, usually until the client sends more. -/
theorem C27_refuted {mem : Bytes} (hm : mem.length = 8192) {reqs : List (List Bytes)} (hok : ∀ r ∈ reqs, OkReq r)
    (hl : (encAll reqs).length = 8192) (s : Bytes) (fuel : Nat) :
    ∃ c, drain (fun _ => .success) (fuel + 1) (newConn mem) (encAll reqs ++ s) = some (.open c, s) ∧ c.requests = reqs := by
  have hret : ∀ x : List (List Arg), (fun _ => Status.success) x = .success ∨ (fun _ => Status.success) x = .abnormal :=
    fun _ => Or.inl rfl
  have hi := newConn_inv (mem := mem) hm hok
  rw [← List.append_nil (encAll reqs)] at hi
  have hrem : (encAll reqs).length ≤ (newConn mem).buf.remain := Nat.le_of_eq hl
  have hE : encAll reqs ≠ [] := by
    intro h; rw [h] at hl; cases hl
  have hun := write_ne_nil hi.buf hE hrem
  obtain ⟨c, v, l, h1, h2, h3, h4, h5⟩ :=
    parse_fine (v := .success) hret (hi.write hrem) (Or.inl rfl) (fun h => absurd h hun)
  have hl0 : l = [] := by
    cases l with
    | nil => rfl
    | cons r l => exact absurd (stuck_next h3 h5) (by simp)
  subst hl0
  have hpos := h3.pos
  rw [List.append_nil] at hpos
  have hst : c.req.state = .empty ∧ c.buf.unread = [] := by
    generalize hx : c.buf.unread = x at hpos
    cases hpos with
    | empty h => exact ⟨h, rfl⟩
  have hv : v = .success := parse_status hret (hi.write hrem) hun h1 hst.1 hst.2
  subst hv
  refine ⟨c, ?_, by have := h3.sum; rwa [List.append_nil] at this⟩
  have htk : (encAll reqs ++ s).take (newConn mem).buf.remain = encAll reqs := List.take_left' hl
  have hdr : (encAll reqs ++ s).drop (newConn mem).buf.remain = s := List.drop_left' hl
  rw [drain, if_neg (newConn_remain mem), if_neg (by simp [hE])]
  simp only [htk, hdr, h1]

/-- The case: one request of 8192 bytes, followed by another. -/
theorem C27_refuted_example : ∃ c, drain (fun _ => .success) 9 (newConn (List.replicate 8192 0))
    (encAll [[List.replicate 8179 120], [str "PING"]]) = some (.open c, encAll [[str "PING"]]) ∧
    c.requests = [[List.replicate 8179 120]] := by
  have hd : digits 8179 = [56, 49, 55, 57] := by
    rw [digits, if_neg (by decide), digits, if_neg (by decide), digits, if_neg (by decide), digits, if_pos (by decide)]; rfl
  have hd1 : digits 1 = [49] := by rw [digits, if_pos (by decide)]; rfl
  have h := C27_refuted (mem := List.replicate 8192 0) List.length_replicate (reqs := [[List.replicate 8179 120]])
    (by
      intro r hr
      rw [List.mem_singleton] at hr
      subst hr
      refine ⟨by decide, by decide, fun a ha => ?_⟩
      rw [List.mem_singleton] at ha
      subst ha
      rw [List.length_replicate]; omega)
    (by simp only [encAll, encReq, encArg, List.flatMap_cons, List.flatMap_nil, List.length_append, List.length_cons,
          List.length_nil, List.length_replicate, hd, hd1])
    (encAll [[str "PING"]]) 8
  rw [encAll_cons]
  rw [encAll_cons, show encAll [] = [] from rfl, List.append_nil] at h
  exact h

end Zdb.Resp
