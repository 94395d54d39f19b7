/-
C28: what reaches a command.
-/
import Verif.Lemmas.RespAny
import Verif.Spec.Example
namespace Zdb.Resp

/-- C28.  Whatever a new client sends, in any pieces, and whatever the commands return: the requests handed over come, in
    order, from consecutive pieces at the beginning of the bytes received (`ReqFrom`).  Each has 1 to 1024 arguments of at most
    8 MiB, and each argument was received to its last byte, with the two bytes after it.

    Missing: lengths may be negative (`C28_negative_refuted`), other requests do not always disconnect the client
    (`C28_kept_refuted`), and some make the server read outside its buffer (`C28_overread_refuted`); nothing is said about such
    a read (`crash`). -/
theorem C28_handled_partial {mem : Bytes} (hm : mem.length = 8192) {ret : List (List Arg) → Status} {rs : List Recv}
    (hf : Fits ret (newConn mem) rs) {c : Conn}
    (hc : serve ret (newConn mem) rs = .open c ∨ serve ret (newConn mem) rs = .closed c ∨ serve ret (newConn mem) rs = .stopped c) :
    ∃ s, s <+: received rs ∧ InOrder ReqFrom c.ran s := by
  have hc' : (serve ret (newConn mem) rs).conn = some c := by
    rcases hc with h | h | h <;> rw [h] <;> rfl
  obtain ⟨t, h1, _, p, q, h2, h3, _⟩ := serve_took (newConn_took hm) hf hc'
  refine ⟨p, ?_, h3⟩
  rw [List.nil_append] at h1
  exact List.IsPrefix.trans ⟨q ++ c.buf.unread, by rw [h2, List.append_assoc]⟩ h1

/-- C28: after a line which is refused without disconnecting the client, nothing that the client sends reaches a command, and
    it is disconnected when the buffer is full. -/
theorem C28_refused {mem : Bytes} (hm : mem.length = 8192) {ret : List (List Arg) → Status} {rs₀ rs : List Recv} {c : Conn}
    (hf₀ : Fits ret (newConn mem) rs₀) (h₀ : serve ret (newConn mem) rs₀ = .open c) (hr : Refused c) (hf : Fits ret c rs) :
    ∃ c', (serve ret c rs = .open c' ∨ serve ret c rs = .closed c') ∧ c'.ran = c.ran ∧
      (serve ret c rs = .open c' → c'.buf.remain = c.buf.remain - (received rs).length ∧
        (c.buf.remain ≤ (received rs).length → ∀ r, onRecv ret c' r = .closed c')) := by
  have hb : c.buf.Ok := by
    obtain ⟨_, _, hb, _⟩ := serve_took (newConn_took hm) hf₀ (by rw [h₀]; rfl)
    exact hb
  clear hf₀ h₀
  induction rs generalizing c with
  | nil =>
    refine ⟨c, Or.inl rfl, rfl, fun _ => ⟨by simp [received], fun h r => ?_⟩⟩
    simp only [received, List.length_nil] at h
    unfold onRecv
    rw [if_pos (by omega)]
  | cons r rs ih =>
    obtain ⟨hf1, hf2⟩ := hf
    by_cases h0 : c.buf.remain = 0
    · have hx : onRecv ret c r = .closed c := by unfold onRecv; rw [if_pos h0]
      refine ⟨c, Or.inr (by rw [serve, hx]), rfl, fun h => ?_⟩
      rw [serve, hx] at h; cases h
    · have same : ∀ r', onRecv ret c r = .open c → r = r' → received [r'] = [] →
          ∃ c', (serve ret c (r :: rs) = .open c' ∨ serve ret c (r :: rs) = .closed c') ∧ c'.ran = c.ran ∧
          (serve ret c (r :: rs) = .open c' → c'.buf.remain = c.buf.remain - (received (r :: rs)).length ∧
            (c.buf.remain ≤ (received (r :: rs)).length → ∀ r, onRecv ret c' r = .closed c')) := by
        intro r' hx he hn
        subst he
        rw [hx] at hf2
        rw [serve, hx, received_cons, hn, List.nil_append]
        exact ih hr hf2 hb
      cases r with
      | again => exact same .again (by unfold onRecv; rw [if_neg h0]) rfl rfl
      | error => exact same .error (by unfold onRecv; rw [if_neg h0]) rfl rfl
      | eof =>
        have hx : onRecv ret c .eof = .closed c := by unfold onRecv; rw [if_neg h0]
        refine ⟨c, Or.inr (by rw [serve, hx]), rfl, fun h => ?_⟩
        rw [serve, hx] at h; cases h
      | data d =>
        obtain ⟨c1, h1, h2, h3, h4, h5⟩ := refused_data (ret := ret) hb hr (hf1 d rfl).2 h0
        rw [h1] at hf2
        obtain ⟨c', g1, g2, g3⟩ := ih h3 hf2 h2
        rw [serve, h1]
        refine ⟨c', g1, g2.trans h4, fun h => ?_⟩
        obtain ⟨e1, e2⟩ := g3 h
        rw [received, List.length_append]
        have hle := (hf1 d rfl).2
        exact ⟨by omega, fun hh => e2 (by omega)⟩

/-- A new client whose memory is cleared receives some bytes at once. -/
def once (d : Bytes) : After := onRecv (fun _ => .success) (newConn (List.replicate 8192 0)) (.data d)

/-- What is seen of the loop after these bytes. -/
def seen (d : Bytes) : Option (List (List Arg) × List String × Phase × Bytes × Status) :=
  match parseN (fun _ => .success) 9 { newConn (List.replicate 8192 0) with buf := (newConn (List.replicate 8192 0)).buf.write d }
      .success with
  | some (some (c, v)) => some (c.ran, c.said, c.req.state, c.buf.unread, v)
  | _ => none

theorem once_eq {d : Bytes} {ran : List (List Arg)} {said : List String} {ph : Phase} {u : Bytes} {v : Status}
    (h : seen d = some (ran, said, ph, u, v)) (hv : v = .success ∨ v = .abnormal ∨ v = .continue) :
    ∃ c, once d = .open c ∧ c.ran = ran ∧ c.said = said ∧ c.req.state = ph ∧ c.buf.unread = u := by
  unfold seen at h
  split at h
  · rename_i c v' hp
    have hp := parseN_eq hp
    simp only [Option.some.injEq, Prod.mk.injEq] at h
    obtain ⟨h1, h2, h3, h4, h5⟩ := h
    subst h5
    refine ⟨c, ?_, h1, h2, h3, h4⟩
    unfold once onRecv
    rw [if_neg (newConn_remain _)]
    simp only [hp]
    rcases hv with h | h | h <;> subst h <;> rfl
  · cases h

/-- A case of `C28_handled_partial`: two arguments, and the beginning of something else. -/
theorem C28_example : ∃ c, once (str "*2\r\n$3\r\nGET\r\n$1\r\nk\r\n*") = .open c ∧
    c.ran = [[{ buffer := str "GET\r\n", length := 3, size := 5 }, { buffer := str "k\r\n", length := 1, size := 3 }]] := by
  obtain ⟨c, h1, h2, _⟩ := once_eq (d := str "*2\r\n$3\r\nGET\r\n$1\r\nk\r\n*")
    (ran := [[{ buffer := str "GET\r\n", length := 3, size := 5 }, { buffer := str "k\r\n", length := 1, size := 3 }]])
    (said := []) (ph := .empty) (u := [42]) (v := .continue) (by decide +kernel) (Or.inr (Or.inr rfl))
  exact ⟨c, h1, h2⟩

/-- C28 fails: a command gets an argument of negative length. -/
theorem C28_negative_refuted : ∃ c, once (str "*1\r\n$-1\r\nX") = .open c ∧
    c.ran = [[{ buffer := str "X", length := -1, size := 1 }]] := by
  obtain ⟨c, h1, h2, _⟩ := once_eq (d := str "*1\r\n$-1\r\nX") (ran := [[{ buffer := str "X", length := -1, size := 1 }]])
    (said := []) (ph := .empty) (u := []) (v := .success) (by decide +kernel) (Or.inl rfl)
  exact ⟨c, h1, h2⟩

/-- C28 fails: a request of no arguments gets an error, and the client stays connected. -/
theorem C28_kept_refuted : ∃ c, once (str "*0\r\n") = .open c ∧ c.said = ["Missing arguments"] ∧ c.ran = [] ∧ Refused c := by
  obtain ⟨c, h1, h2, h3, h4, h5⟩ := once_eq (d := str "*0\r\n") (ran := [])
    (said := ["Missing arguments"]) (ph := .empty) (u := [42, 48, 13, 10]) (v := .abnormal) (by decide +kernel) (Or.inr (Or.inl rfl))
  refine ⟨c, h1, h3, h2, 42, [48, 13], [], h5, by decide, Or.inl ⟨h4, rfl, 0, by decide, Or.inl rfl, ?_⟩⟩
  rw [digits, if_pos (by decide)]; rfl

theorem atollSkip_blank (n : Nat) : atollSkip (List.replicate n 32 ++ [10]) = [] := by
  induction n with
  | zero => rfl
  | succ n ih => rw [List.replicate_succ, List.cons_append, atollSkip, if_pos (Or.inl rfl)]; exact ih

/-- C28 fails: a line of blanks that fills the buffer makes `atoi` read past its end. -/
theorem C28_overread_refuted {mem : Bytes} (hm : mem.length = 8192) (ret : List (List Arg) → Status) :
    onRecv ret (newConn mem) (.data (42 :: (List.replicate 8190 32 ++ [10]))) = .crash := by
  generalize hd : (42 :: (List.replicate 8190 32 ++ [10]) : Bytes) = d
  have hlen : d.length = 8192 := by
    rw [← hd, List.length_cons, List.length_append, List.length_replicate]; rfl
  have hb0 := (newConn_took (mem := mem) hm).1
  have hw := hb0.write (d := d) (Nat.le_of_eq hlen)
  have hu : ((newConn mem).buf.write d).unread = 42 :: (List.replicate 8190 32 ++ 10 :: []) := by
    rw [hw.2, ← hd]; rfl
  have hg := hw.1.get hu
  have ha := hw.1.after hu
  have hend : ((newConn mem).buf.write d).mem.drop ((newConn mem).buf.write d).writer = [] := by
    apply List.drop_of_length_le
    rw [hw.1.len]
    show bufSize ≤ 0 + d.length
    rw [hlen]; decide
  rw [hend, List.append_nil] at ha
  have hfi : ((newConn mem).buf.write d).unread.findIdx? (· == 10) = some (42 :: List.replicate 8190 32 : Bytes).length := by
    rw [hu]
    refine findIdx_of_line (l := 42 :: List.replicate 8190 32) (r := []) ?_
    intro h
    rcases List.mem_cons.1 h with h | h
    · cases h
    · exact absurd (List.eq_of_mem_replicate h) (by decide)
  have hat : atoi (((newConn mem).buf.write d).mem.drop (((newConn mem).buf.write d).reader + 1)) = none := by
    rw [ha]
    unfold atoi
    rw [atollSkip_blank]
    rfl
  have ht : turn ret { newConn mem with buf := (newConn mem).buf.write d } .success = .crash := by
    have he : handleEmpty { newConn mem with buf := (newConn mem).buf.write d } = .crash := by
      unfold handleEmpty
      simp only [hfi, hg, hat]
      rfl
    have hs : ({ newConn mem with buf := (newConn mem).buf.write d } : Conn).req.state = .empty := rfl
    rw [turn, if_pos hs, he]
  have hlt : ((newConn mem).buf.write d).reader < ((newConn mem).buf.write d).writer := by
    show 0 < 0 + d.length
    omega
  have hp : parse ret { newConn mem with buf := (newConn mem).buf.write d } .success = none := by
    apply parseN_eq (n := 1)
    rw [parseN, if_pos hlt, ht]
  unfold onRecv
  rw [if_neg (newConn_remain _)]
  simp only [hp]

end Zdb.Resp
