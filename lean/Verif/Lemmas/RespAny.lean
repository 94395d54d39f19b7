/-
Reading any bytes.
-/
import Verif.Lemmas.Resp
namespace Zdb.Resp

theorem numberLine {b : Buffer} (hb : b.Ok) {x : UInt8} (hx : b.mem[b.reader]? = some x) (hx10 : x ≠ 10) {i : Nat}
    (hi : b.unread.findIdx? (· == 10) = some i) {n : Int} (hn : atoi (b.mem.drop (b.reader + 1)) = some n) :
    ∃ line u, b.unread = line ++ u ∧ line.length = i + 1 ∧ NumberLine x n line := by
  obtain ⟨l, r, h1, h2, h3⟩ := findIdx_line hi
  cases l with
  | nil =>
    have := hb.get (x := 10) (s := r) (by rw [h1]; rfl)
    rw [this] at hx
    injection hx with hx
    exact absurd hx.symm hx10
  | cons y t =>
    have hg := hb.get (x := y) (s := t ++ 10 :: r) (by rw [h1]; rfl)
    rw [hg] at hx
    injection hx with hx
    subst hx
    refine ⟨y :: (t ++ [10]), r, by rw [h1]; simp, by simp at h2 ⊢; omega, t, rfl, h3, fun k hk ht => ?_⟩
    have ha := hb.after (x := y) (s := t ++ 10 :: r) (by rw [h1]; rfl)
    subst ht
    rw [ha, show digits k ++ [13] ++ 10 :: r ++ b.mem.drop b.writer = digits k ++ 13 :: (10 :: r ++ b.mem.drop b.writer) from by simp,
      atoi_digits hk] at hn
    injection hn with hn
    exact hn.symm

/-- The bytes of the request being read. -/
inductive Cur : Request → Bytes → Prop where
  | empty {q : Request} (hs : q.state = .empty) : Cur q []
  | header {q : Request} {line t : Bytes} (hs : q.state = .header) (hl : NumberLine 42 q.argc line) (ht : InOrder ArgFrom q.argv t)
      (hf : q.fillin = q.argv.length) (hc : (q.fillin : Int) < q.argc) (hm : q.argc ≤ 1024) : Cur q (line ++ t)
  | payload {q : Request} {line t line' : Bytes} {l : List Arg} {a : Arg} (hs : q.state = .payload) (hl : NumberLine 42 q.argc line)
      (hv : q.argv = l ++ [a]) (ht : InOrder ArgFrom l t) (hf : q.fillin = l.length) (hc : (q.fillin : Int) < q.argc)
      (hm : q.argc ≤ 1024) (ha : NumberLine 36 a.length line') (hsz : a.size = a.length + 2) (hlen : a.length ≤ 8388608)
      (hb : (a.buffer.length : Int) ≤ a.size) : Cur q (line ++ t ++ (line' ++ a.buffer))

/-- The invariant: the bytes received are those of the requests handed over, of the current request, and those not read. -/
def Took (s : Bytes) (c : Conn) : Prop :=
  c.buf.Ok ∧ ∃ p q, s = p ++ q ++ c.buf.unread ∧ InOrder ReqFrom c.ran p ∧ Cur c.req q

def TurnTook (s : Bytes) : Turn → Prop
  | .go c _ => Took s c
  | .stop c _ => Took s c
  | .crash => True

theorem turnEnd_mid_took {ret : List (List Arg) → Status} {s : Bytes} {c : Conn} {v : Status} {line t p : Bytes} (hb : c.buf.Ok)
    (hs : c.req.state = .header) (hl : NumberLine 42 c.req.argc line) (ht : InOrder ArgFrom c.req.argv t)
    (hf : c.req.fillin = c.req.argv.length) (h1 : 1 ≤ c.req.fillin) (hc : (c.req.fillin : Int) ≤ c.req.argc)
    (hm : c.req.argc ≤ 1024) (hp : InOrder ReqFrom c.ran p) (hsum : s = p ++ (line ++ t) ++ c.buf.unread) :
    TurnTook s (turnEnd ret c v) := by
  unfold turnEnd
  by_cases he : (c.req.fillin : Int) = c.req.argc
  · rw [if_pos he]
    refine ⟨hb, p ++ (line ++ t), [], ?_, ?_, Cur.empty rfl⟩
    · show s = p ++ (line ++ t) ++ [] ++ c.buf.unread
      rw [List.append_nil]; exact hsum
    · refine InOrder.snoc hp ⟨line, t, ?_, rfl, ht, by omega, by omega⟩
      rw [← hf, he]; exact hl
  · rw [if_neg he]
    exact ⟨hb, p, line ++ t, hsum, hp, Cur.header hs hl ht hf (by omega) hm⟩

theorem getElem?_append_one (l : List Arg) (x : Arg) : (l ++ [x])[l.length]? = some x := by
  rw [List.getElem?_append_right (Nat.le_refl _)]
  simp

theorem set_append_one (l : List Arg) (x y : Arg) : (l ++ [x]).set l.length y = l ++ [y] := by
  rw [List.set_append_right _ _ (Nat.le_refl _)]
  simp

theorem turnPayload_took {ret : List (List Arg) → Status} {s : Bytes} {c : Conn} {v : Status} (h : Took s c)
    (hs : c.req.state = .payload) : TurnTook s (turnPayload ret c v) := by
  obtain ⟨hb, p, q, hsum, hp, hcur⟩ := h
  cases hcur with
  | empty h => rw [hs] at h; cases h
  | header h => rw [hs] at h; cases h
  | @payload line t line' l a _ hl hv ht hf hc hm ha hsz hlen hbl =>
    have hul := hb.unread_length
    have hlt : ¬ ((c.req.fillin : Int) = c.req.argc) := by omega
    rw [turnPayload, if_pos hs]
    unfold handlePayload
    simp only
    by_cases h0 : c.buf.writer - c.buf.reader = 0
    · rw [if_pos h0]
      by_cases hr : c.buf.remain = 0
      · rw [if_pos hr]
        simp only [ne_eq, reduceCtorEq, not_false_eq_true, if_true]
        have hsh := hb.shift
        refine ⟨hsh.1, p, _, ?_, hp, Cur.payload hs hl hv ht hf hc hm ha hsz hlen hbl⟩
        show s = _ ++ c.buf.shift.unread
        rw [hsh.2]; exact hsum
      · rw [if_neg hr]
        simp only [ne_eq, not_true_eq_false, if_false]
        rw [turnEnd, if_neg hlt]
        exact ⟨hb, p, _, hsum, hp, Cur.payload hs hl hv ht hf hc hm ha hsz hlen hbl⟩
    · rw [if_neg h0, hv, hf, getElem?_append_one]
      simp only
      by_cases hge : c.buf.writer - c.buf.reader ≥ (a.size - (a.buffer.length : Nat)).toNat
      · rw [if_pos hge]
        simp only [ne_eq, not_true_eq_false, if_false]
        generalize hk : (a.size - (a.buffer.length : Nat)).toNat = k at hge
        rw [set_append_one]
        have hadv := hb.advance (k := k) (by omega)
        have hcl := hadv.1.clear
        have hbuf : (if c.buf.writer - c.buf.reader = k then ({ c.buf with reader := c.buf.reader + k } : Buffer).clear
            else { c.buf with reader := c.buf.reader + k }).Ok ∧
            (if c.buf.writer - c.buf.reader = k then ({ c.buf with reader := c.buf.reader + k } : Buffer).clear
            else { c.buf with reader := c.buf.reader + k }).unread = c.buf.unread.drop k := by
          by_cases he : c.buf.writer - c.buf.reader = k
          · rw [if_pos he]
            refine ⟨hcl.1, ?_⟩
            rw [hcl.2, List.drop_of_length_le (by omega)]
          · rw [if_neg he]
            exact hadv
        have hnew : ArgFrom { a with buffer := a.buffer ++ c.buf.unread.take k } (line' ++ (a.buffer ++ c.buf.unread.take k)) := by
          refine ⟨line', ha, rfl, ?_, hlen⟩
          simp only [List.length_append, List.length_take]
          omega
        refine turnEnd_mid_took (line := line) (t := t ++ (line' ++ (a.buffer ++ c.buf.unread.take k))) (p := p) hbuf.1 rfl hl
          (InOrder.snoc ht hnew) ?_ ?_ ?_ hm hp ?_
        · show l.length + 1 = _
          simp
        · show 1 ≤ l.length + 1
          omega
        · show ((l.length + 1 : Nat) : Int) ≤ c.req.argc
          omega
        · show s = _ ++ Buffer.unread _
          rw [hbuf.2, hsum]
          conv => lhs; rw [← List.take_append_drop k c.buf.unread]
          simp only [List.append_assoc]
      · rw [if_neg hge]
        simp only [ne_eq, not_true_eq_false, if_false]
        rw [turnEnd, if_neg (show ¬ ((_ : Nat) : Int) = _ from by simpa [hf] using hlt)]
        have hcl := hb.clear
        rw [set_append_one]
        refine ⟨hcl.1, p, line ++ t ++ (line' ++ (a.buffer ++ c.buf.unread)), ?_, hp,
          Cur.payload (a := { a with buffer := a.buffer ++ c.buf.unread }) hs hl rfl ht rfl (by rw [← hf]; exact hc) hm ha hsz hlen ?_⟩
        · show s = _ ++ c.buf.clear.unread
          rw [hcl.2, hsum]
          simp only [List.append_assoc, List.append_nil]
        · simp only [List.length_append]
          omega

theorem turnHeader_took {ret : List (List Arg) → Status} {s : Bytes} {c : Conn} {v : Status} (h : Took s c)
    (hs : c.req.state ≠ .empty) : TurnTook s (turnHeader ret c v) := by
  unfold turnHeader
  by_cases hh : c.req.state = .header
  · rw [if_pos hh]
    obtain ⟨hb, p, q, hsum, hp, hcur⟩ := h
    cases hcur with
    | empty h => exact absurd h hs
    | payload h => rw [hh] at h; cases h
    | @header line t _ hl ht hf hc hm =>
      have hcur := Cur.header hh hl ht hf hc hm
      unfold handleHeader
      rw [if_neg (by have := hb.rw; omega)]
      cases hfi : c.buf.unread.findIdx? (· == 10) with
      | none =>
        simp only
        by_cases hr : c.buf.remain = 0
        · rw [if_pos hr]
          simp only [ne_eq, reduceCtorEq, not_false_eq_true, if_true]
          have hsh := hb.shift
          refine ⟨hsh.1, p, _, ?_, hp, hcur⟩
          show s = _ ++ c.buf.shift.unread
          rw [hsh.2]; exact hsum
        · rw [if_neg hr]
          simp only [ne_eq, reduceCtorEq, not_false_eq_true, if_true]
          exact ⟨hb, p, _, hsum, hp, hcur⟩
      | some i =>
        simp only
        by_cases hx : c.buf.mem[c.buf.reader]? ≠ some 36
        · rw [if_pos hx]
          simp only [ne_eq, reduceCtorEq, not_false_eq_true, if_true]
          exact ⟨hb, p, _, hsum, hp, hcur⟩
        · rw [if_neg hx]
          have hx := Classical.not_not.1 hx
          cases hn : atoi (c.buf.mem.drop (c.buf.reader + 1)) with
          | none => trivial
          | some n =>
            simp only
            by_cases hbig : n > maxPayload
            · rw [if_pos hbig]
              simp only [ne_eq, reduceCtorEq, not_false_eq_true, if_true]
              exact ⟨hb, p, _, hsum, hp, hcur⟩
            · rw [if_neg hbig]
              by_cases hneg : n + 2 < 0
              · rw [if_pos hneg]
                simp only [ne_eq, reduceCtorEq, not_false_eq_true, if_true]
                exact ⟨hb, p, _, hsum, hp, hcur⟩
              · rw [if_neg hneg]
                simp only [ne_eq, not_true_eq_false, if_false]
                obtain ⟨line', u, h1, h2, h3⟩ := numberLine hb hx (by decide) hfi hn
                have hadv := hb.advance (k := i + 1) (by rw [h1, List.length_append]; omega)
                rw [← Nat.add_assoc, h1, ← h2, List.drop_left] at hadv
                refine turnPayload_took ⟨?_, p, line ++ t ++ (line' ++ []), ?_, hp,
                  Cur.payload (l := c.req.argv) (a := { buffer := [], length := n, size := n + 2 }) rfl hl rfl ht hf hc hm h3 rfl ?_ ?_⟩ rfl
                · exact hadv.1
                · show s = _ ++ Buffer.unread _
                  rw [hadv.2, hsum, h1]
                  simp only [List.append_assoc, List.append_nil]
                · unfold maxPayload at hbig; show n ≤ _; omega
                · show ((0 : Nat) : Int) ≤ n + 2; omega
  · rw [if_neg hh]
    refine turnPayload_took h ?_
    cases hx : c.req.state with
    | empty => exact absurd hx hs
    | header => exact absurd hx hh
    | payload => rfl

theorem turn_took {ret : List (List Arg) → Status} {s : Bytes} {c : Conn} {v : Status} (h : Took s c) :
    TurnTook s (turn ret c v) := by
  unfold turn
  by_cases hh : c.req.state = .empty
  · rw [if_pos hh]
    obtain ⟨hb, p, q, hsum, hp, hcur⟩ := h
    cases hcur with
    | header h => rw [hh] at h; cases h
    | payload h => rw [hh] at h; cases h
    | empty _ =>
      unfold handleEmpty
      cases hfi : c.buf.unread.findIdx? (· == 10) with
      | none =>
        simp only
        by_cases hr : c.buf.remain = 0
        · rw [if_pos hr]
          simp only [ne_eq, reduceCtorEq, not_false_eq_true, if_true]
          have hsh := hb.shift
          refine ⟨hsh.1, p, _, ?_, hp, Cur.empty hh⟩
          show s = _ ++ c.buf.shift.unread
          rw [hsh.2]; exact hsum
        · rw [if_neg hr]
          simp only [ne_eq, reduceCtorEq, not_false_eq_true, if_true]
          exact ⟨hb, p, _, hsum, hp, Cur.empty hh⟩
      | some i =>
        simp only
        by_cases hx : c.buf.mem[c.buf.reader]? ≠ some 42
        · rw [if_pos hx]
          simp only [ne_eq, reduceCtorEq, not_false_eq_true, if_true]
          exact ⟨hb, p, _, hsum, hp, Cur.empty hh⟩
        · rw [if_neg hx]
          have hx := Classical.not_not.1 hx
          cases hn : atoi (c.buf.mem.drop (c.buf.reader + 1)) with
          | none => trivial
          | some n =>
            simp only
            by_cases hz : n = 0
            · rw [if_pos hz]
              simp only [ne_eq, reduceCtorEq, not_false_eq_true, if_true]
              exact ⟨hb, p, _, hsum, hp, Cur.empty hh⟩
            · rw [if_neg hz]
              by_cases hbig : n > 1024
              · rw [if_pos hbig]
                simp only [ne_eq, reduceCtorEq, not_false_eq_true, if_true]
                exact ⟨hb, p, _, hsum, hp, Cur.empty hh⟩
              · rw [if_neg hbig]
                by_cases hneg : n < 0
                · rw [if_pos hneg]
                  simp only [ne_eq, reduceCtorEq, not_false_eq_true, if_true]
                  exact ⟨hb, p, _, hsum, hp, Cur.empty hh⟩
                · rw [if_neg hneg]
                  simp only [ne_eq, not_true_eq_false, if_false]
                  obtain ⟨line, u, h1, h2, h3⟩ := numberLine hb hx (by decide) hfi hn
                  have hadv := hb.advance (k := i + 1) (by rw [h1, List.length_append]; omega)
                  rw [← Nat.add_assoc, h1, ← h2, List.drop_left] at hadv
                  refine turnHeader_took ⟨hadv.1, p, line ++ [], ?_, hp, Cur.header rfl h3 InOrder.nil rfl ?_ ?_⟩ (fun hx => by cases hx)
                  · show s = _ ++ Buffer.unread _
                    rw [hadv.2, hsum, h1]
                    simp only [List.append_assoc, List.append_nil, List.nil_append]
                  · show ((0 : Nat) : Int) < n; omega
                  · show n ≤ 1024; omega
  · rw [if_neg hh]
    exact turnHeader_took h hh

theorem parse_took {ret : List (List Arg) → Status} {s : Bytes} {c c' : Conn} {v v' : Status} (h : Took s c)
    (hp : parse ret c v = some (c', v')) : Took s c' := by
  generalize hw : c.weight = n
  induction n using Nat.strongRecOn generalizing c v with
  | ind n ih =>
    rw [parse] at hp
    by_cases hlt : c.buf.reader < c.buf.writer
    · rw [dif_pos hlt] at hp
      have ht := turn_took (ret := ret) (v := v) h
      split at hp
      · cases hp
      · rename_i c1 v1 hx
        rw [hx] at ht
        injection hp with hp
        injection hp with h1 _
        subst h1; exact ht
      · rename_i c1 v1 hx
        have hwt := turn_weight hlt hx
        rw [hx] at ht
        exact ih c1.weight (by omega) ht hp rfl
    · rw [dif_neg hlt] at hp
      injection hp with hp
      injection hp with h1 _
      subst h1; exact h

theorem onRecv_took {ret : List (List Arg) → Status} {s : Bytes} {c c' : Conn} {r : Recv} (h : Took s c)
    (hf : ∀ d, r = .data d → d ≠ [] ∧ d.length ≤ c.buf.remain) (hc : (onRecv ret c r).conn = some c') :
    (c.buf.remain = 0 ∧ Took s c') ∨ Took (s ++ received [r]) c' := by
  unfold onRecv at hc
  split at hc
  · rename_i h0
    injection hc with hc; subst hc; exact Or.inl ⟨h0, h⟩
  · right
    cases r with
    | again => injection hc with hc; subst hc; simpa [received] using h
    | error => injection hc with hc; subst hc; simpa [received] using h
    | eof => injection hc with hc; subst hc; simpa [received] using h
    | data d =>
      have hl := (hf d rfl).2
      obtain ⟨hb, p, q, hsum, hp, hcur⟩ := h
      have hw := hb.write hl
      have h2 : Took (s ++ received [.data d]) { c with buf := c.buf.write d } := by
        refine ⟨hw.1, p, q, ?_, hp, hcur⟩
        show s ++ (d ++ []) = _ ++ (c.buf.write d).unread
        rw [hw.2, List.append_nil, hsum, List.append_assoc]
      simp only at hc
      split at hc
      · cases hc
      all_goals
        rename_i hx
        injection hc with hc
        subst hc
        exact parse_took h2 hx

theorem newConn_took {mem : Bytes} (hm : mem.length = bufSize) : Took [] (newConn mem) :=
  ⟨⟨hm, Nat.le_refl _, Nat.zero_le _, rfl⟩, [], [], by simp [newConn, Buffer.unread], InOrder.nil, Cur.empty rfl⟩

theorem received_cons (r : Recv) (rs : List Recv) : received (r :: rs) = received [r] ++ received rs := by
  cases r <;> simp [received]

/-- The requests handed over come from a first part of the bytes received. -/
theorem serve_took {ret : List (List Arg) → Status} {rs : List Recv} {s : Bytes} {c c' : Conn} (h : Took s c)
    (hf : Fits ret c rs) (hc : (serve ret c rs).conn = some c') : ∃ t, t <+: s ++ received rs ∧ Took t c' := by
  induction rs generalizing c s with
  | nil => injection hc with hc; subst hc; exact ⟨s, ⟨[], by simp [received]⟩, h⟩
  | cons r rs ih =>
    obtain ⟨hf1, hf2⟩ := hf
    rw [serve] at hc
    have hon := fun (c1 : Conn) => onRecv_took (ret := ret) (c' := c1) h hf1
    cases hx : onRecv ret c r with
    | «open» c1 =>
      rw [hx] at hc hf2
      have hon := hon c1 (by rw [hx]; rfl)
      have hon : Took (s ++ received [r]) c1 := by
        rcases hon with ⟨h0, _⟩ | h1
        · unfold onRecv at hx; rw [if_pos h0] at hx; cases hx
        · exact h1
      obtain ⟨t, ht1, ht2⟩ := ih hon hf2 hc
      refine ⟨t, ?_, ht2⟩
      rw [received_cons, ← List.append_assoc]; exact ht1
    | closed c1 =>
      rw [hx] at hc
      injection hc with hc; subst hc
      rcases hon c1 (by rw [hx]; rfl) with ⟨_, h1⟩ | h1
      · exact ⟨s, ⟨_, rfl⟩, h1⟩
      · exact ⟨_, ⟨received rs, by rw [received_cons r rs, List.append_assoc]⟩, h1⟩
    | stopped c1 =>
      rw [hx] at hc
      injection hc with hc; subst hc
      rcases hon c1 (by rw [hx]; rfl) with ⟨_, h1⟩ | h1
      · exact ⟨s, ⟨_, rfl⟩, h1⟩
      · exact ⟨_, ⟨received rs, by rw [received_cons r rs, List.append_assoc]⟩, h1⟩
    | crash => rw [hx] at hc; cases hc

/-! ## Evaluation -/

/-- The loop, at most `n` turns. -/
def parseN (ret : List (List Arg) → Status) : Nat → Conn → Status → Option (Option (Conn × Status))
  | 0, _, _ => none
  | n + 1, c, v =>
    if c.buf.reader < c.buf.writer then
      match turn ret c v with
      | .crash => some none
      | .stop c v => some (some (c, v))
      | .go c v => parseN ret n c v
    else some (some (c, v))

theorem parseN_eq {ret : List (List Arg) → Status} {n : Nat} {c : Conn} {v : Status} {r : Option (Conn × Status)}
    (h : parseN ret n c v = some r) : parse ret c v = r := by
  induction n generalizing c v with
  | zero => cases h
  | succ n ih =>
    rw [parseN] at h
    rw [parse]
    by_cases hlt : c.buf.reader < c.buf.writer
    · rw [if_pos hlt] at h
      rw [dif_pos hlt]
      split
      · rename_i hx
        rw [hx] at h; injection h
      · rename_i hx
        rw [hx] at h; injection h
      · rename_i hx
        rw [hx] at h; exact ih h
    · rw [if_neg hlt] at h
      rw [dif_neg hlt]
      injection h

/-! ## A line which is refused -/

theorem findIdx_of_line {l r : Bytes} (h : (10 : UInt8) ∉ l) : (l ++ 10 :: r).findIdx? (· == 10) = some l.length := by
  rcases find_newline (u := l ++ 10 :: r) (f := []) (l := l) (x := r) (by simp) h with ⟨_, h2, _⟩ | ⟨h1, _⟩
  · exact absurd (by simp) h2
  · exact h1

theorem refused_turn {ret : List (List Arg) → Status} {c : Conn} {v : Status} (hb : c.buf.Ok) (h : Refused c) :
    ∃ c', turn ret c v = .stop c' .abnormal ∧ c'.buf = c.buf ∧ c'.req.state = c.req.state ∧ c'.ran = c.ran := by
  obtain ⟨x, t, u, h1, h2, h3⟩ := h
  have hfi : c.buf.unread.findIdx? (· == 10) = some (x :: t).length := by
    rw [h1]; exact findIdx_of_line (l := x :: t) h2
  have hg := hb.get h1
  have ha := hb.after h1
  rcases h3 with ⟨hs, hx, k, hk, hbad, ht⟩ | ⟨hs, hx⟩
  · subst hx
    subst ht
    have hat : atoi (c.buf.mem.drop (c.buf.reader + 1)) = some (k : Int) := by
      rw [ha, show digits k ++ [13] ++ 10 :: u ++ c.buf.mem.drop c.buf.writer =
        digits k ++ 13 :: (10 :: u ++ c.buf.mem.drop c.buf.writer) from by simp]
      exact atoi_digits hk _
    rw [turn, if_pos hs, handleEmpty, hfi]
    simp only
    rw [hg, if_neg (by simp), hat]
    simp only
    by_cases h0 : (k : Int) = 0
    · rw [if_pos h0]
      simp only [ne_eq, reduceCtorEq, not_false_eq_true, if_true]
      exact ⟨_, rfl, rfl, rfl, rfl⟩
    · rw [if_neg h0, if_pos (by omega)]
      simp only [ne_eq, reduceCtorEq, not_false_eq_true, if_true]
      exact ⟨_, rfl, rfl, rfl, rfl⟩
  · rw [turn, if_neg (by rw [hs]; decide), turnHeader, if_pos hs, handleHeader, if_neg (by have := hb.rw; omega), hfi]
    simp only
    rw [hg, if_pos (by simpa using hx)]
    simp only [ne_eq, reduceCtorEq, not_false_eq_true, if_true]
    exact ⟨_, rfl, rfl, rfl, rfl⟩

theorem refused_data {ret : List (List Arg) → Status} {c : Conn} {d : Bytes} (hb : c.buf.Ok) (h : Refused c)
    (hl : d.length ≤ c.buf.remain) (h0 : c.buf.remain ≠ 0) :
    ∃ c', onRecv ret c (.data d) = .open c' ∧ c'.buf.Ok ∧ Refused c' ∧ c'.ran = c.ran ∧ c'.buf.remain = c.buf.remain - d.length := by
  have hw := hb.write hl
  have hr : Refused { c with buf := c.buf.write d } := by
    obtain ⟨x, t, u, h1, h2, h3⟩ := h
    refine ⟨x, t, u ++ d, ?_, h2, h3⟩
    show (c.buf.write d).unread = _
    rw [hw.2, h1]; simp
  have hne : (c.buf.write d).reader < (c.buf.write d).writer := by
    apply Classical.byContradiction
    intro hx
    have := (unread_nil_iff hw.1).2 hx
    obtain ⟨x, t, u, h1, _⟩ := hr
    have h1' : (c.buf.write d).unread = _ := h1
    rw [this] at h1'; cases h1'
  obtain ⟨c', h1, h2, h3, h4⟩ := refused_turn (ret := ret) (v := .success) (c := { c with buf := c.buf.write d }) hw.1 hr
  have hp : parse ret { c with buf := c.buf.write d } .success = some (c', .abnormal) := by
    apply parseN_eq (n := 1)
    rw [parseN, if_pos hne, h1]
  refine ⟨c', ?_, h2 ▸ hw.1, ?_, h4, by rw [h2]; rfl⟩
  · unfold onRecv
    rw [if_neg h0]
    simp only [hp]
  · obtain ⟨x, t, u, g1, g2, g3⟩ := hr
    exact ⟨x, t, u, by rw [h2]; exact g1, g2, by rw [h3]; exact g3⟩

end Zdb.Resp
