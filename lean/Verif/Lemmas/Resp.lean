/-
Reading well-formed requests, in any pieces.
-/
import Verif.Lemmas.RespBase
namespace Zdb.Resp

/-- An argument completely received. -/
def full (a : Bytes) : Arg := { buffer := a ++ [13, 10], length := a.length, size := a.length + 2 }

theorem full_content (a : Bytes) : (full a).content = a := by
  simp [full, Arg.content]

theorem full_map (l : List Bytes) : (l.map full).map Arg.content = l := by
  induction l with
  | nil => rfl
  | cons a l ih => rw [List.map_cons, List.map_cons, ih, full_content]

/-- Where the parser is: the bytes still to come, and the requests not handed over yet. -/
inductive At : Request → Bytes → List (List Bytes) → Prop where
  | empty {q : Request} {rs : List (List Bytes)} (hs : q.state = .empty) : At q (encAll rs) rs
  | header {q : Request} {done : List Bytes} {a : Bytes} {todo : List Bytes} {rs : List (List Bytes)} (hs : q.state = .header)
      (hc : q.argc = ((done ++ a :: todo).length : Nat)) (hf : q.fillin = done.length) (hv : q.argv = done.map full) :
      At q (encArg a ++ (todo.flatMap encArg ++ encAll rs)) ((done ++ a :: todo) :: rs)
  | payload {q : Request} {done : List Bytes} {a p w : Bytes} {todo : List Bytes} {rs : List (List Bytes)}
      (hs : q.state = .payload) (hc : q.argc = ((done ++ a :: todo).length : Nat)) (hf : q.fillin = done.length)
      (hv : q.argv = done.map full ++ [{ buffer := p, length := a.length, size := a.length + 2 }])
      (hp : a ++ [13, 10] = p ++ w) (hw : w ≠ []) :
      At q (w ++ (todo.flatMap encArg ++ encAll rs)) ((done ++ a :: todo) :: rs)

/-- The invariant: what is unread and what comes later (`f`) is what the parser waits for. -/
structure Inv (f : Bytes) (all : List (List Bytes)) (c : Conn) (rs : List (List Bytes)) : Prop where
  buf : c.buf.Ok
  pos : At c.req (c.buf.unread ++ f) rs
  sum : c.requests ++ rs = all
  ok : ∀ r ∈ rs, OkReq r
  quiet : c.said = []

/-- Nothing more can be done with the bytes received. -/
def Stuck (c : Conn) : Prop := 10 ∉ c.buf.unread ∧ (c.req.state = .payload → c.buf.unread = [])

/-- The statuses met with well-formed requests. -/
def Calm (v : Status) : Prop := v = .success ∨ v = .abnormal ∨ v = .continue ∨ v = .reset

/-- What a turn may lead to. -/
def Fine (f : Bytes) (all : List (List Bytes)) : Turn → Prop
  | .go c v => (∃ rs, Inv f all c rs) ∧ Calm v ∧ (c.buf.unread = [] → 0 < c.buf.remain)
  | .stop c v => (∃ rs, Inv f all c rs) ∧ Calm v ∧ 0 < c.buf.remain ∧ Stuck c
  | .crash => False

theorem shift_remain {b : Buffer} (h : b.Ok) (h0 : b.remain = 0) (hu : b.unread.length < bufSize) : 0 < b.shift.remain := by
  have h1 := h.unread_length
  have h2 := h.rem
  have h3 := h.wb
  unfold Buffer.shift
  split
  · omega
  · simp only; omega

theorem getElem?_map_append (l : List Bytes) (x : Arg) : (l.map full ++ [x])[l.length]? = some x := by
  rw [List.getElem?_append_right (by simp)]
  simp

theorem set_map_append (l : List Bytes) (x y : Arg) : (l.map full ++ [x]).set l.length y = l.map full ++ [y] := by
  rw [List.set_append_right _ _ (by simp)]
  simp

/-- The end of a turn with an argument completed. -/
theorem turnEnd_mid {ret : List (List Arg) → Status} (hret : ∀ x, ret x = .success ∨ ret x = .abnormal) {f : Bytes}
    {all : List (List Bytes)} {c : Conn} {done todo : List Bytes} {rs : List (List Bytes)} (hb : c.buf.Ok)
    (hs : c.req.state = .header) (hc : c.req.argc = ((done ++ todo).length : Nat)) (hf : c.req.fillin = done.length)
    (hv : c.req.argv = done.map full) (hu : c.buf.unread ++ f = todo.flatMap encArg ++ encAll rs)
    (hsum : c.requests ++ (done ++ todo) :: rs = all) (hok : ∀ r ∈ (done ++ todo) :: rs, OkReq r)
    (hr : c.buf.unread = [] → 0 < c.buf.remain) (hq : c.said = []) : Fine f all (turnEnd ret c .continue) := by
  unfold turnEnd
  cases todo with
  | nil =>
    rw [List.append_nil] at hc hsum hok
    rw [if_pos (by rw [hc, hf])]
    refine ⟨⟨rs, ⟨hb, ?_, ?_, fun r hr => hok r (List.mem_cons_of_mem _ hr), hq⟩⟩, ?_, hr⟩
    · have : c.buf.unread ++ f = encAll rs := by simpa using hu
      show At _ (c.buf.unread ++ f) rs
      rw [this]
      exact At.empty rfl
    · rw [← hsum]
      simp only [Conn.requests, finished, hv, List.map_append, List.map_cons, List.map_nil, full_map, List.append_assoc,
        List.singleton_append]
    · rcases hret (c.ran ++ [c.req.argv]) with h | h
      · exact Or.inl h
      · exact Or.inr (Or.inl h)
  | cons a todo =>
    rw [if_neg (by rw [hc, hf, List.length_append, List.length_cons]; omega)]
    refine ⟨⟨_, ⟨hb, ?_, hsum, hok, hq⟩⟩, Or.inr (Or.inr (Or.inl rfl)), hr⟩
    rw [hu, List.flatMap_cons, List.append_assoc]
    exact At.header hs hc hf hv

/-- The part of a turn about payloads. -/
theorem turnPayload_fine {ret : List (List Arg) → Status} (hret : ∀ x, ret x = .success ∨ ret x = .abnormal) {f : Bytes}
    {all : List (List Bytes)} {c : Conn} {v : Status} {rs : List (List Bytes)} (hi : Inv f all c rs)
    (hs : c.req.state = .payload) : Fine f all (turnPayload ret c v) := by
  obtain ⟨hb, hpos, hsum, hok, hq⟩ := hi
  generalize hrest : c.buf.unread ++ f = rest at hpos
  cases hpos with
  | empty h => rw [hs] at h; cases h
  | header h => rw [hs] at h; cases h
  | @payload done a p w todo rs _ hc hf hv hp hw =>
    have hlt : ¬ ((c.req.fillin : Int) = c.req.argc) := by rw [hc, hf, List.length_append, List.length_cons]; omega
    have hul := hb.unread_length
    have hlen : p.length + w.length = a.length + 2 := by
      have := congrArg List.length hp
      simp only [List.length_append, List.length_cons, List.length_nil] at this
      omega
    have hwp : 0 < w.length := List.length_pos_iff.2 hw
    rw [turnPayload, if_pos hs]
    unfold handlePayload
    simp only
    by_cases h0 : c.buf.writer - c.buf.reader = 0
    · rw [if_pos h0]
      have hue : c.buf.unread = [] := List.length_eq_zero_iff.1 (by omega)
      by_cases hr : c.buf.remain = 0
      · rw [if_pos hr]
        simp only [ne_eq, reduceCtorEq, not_false_eq_true, if_true]
        have hsh := hb.shift
        refine ⟨⟨_, ⟨hsh.1, ?_, hsum, hok, hq⟩⟩, Or.inr (Or.inr (Or.inr rfl)), ?_, ?_⟩
        · show At c.req (c.buf.shift.unread ++ f) _
          rw [hsh.2, hrest]
          exact At.payload hs hc hf hv hp hw
        · exact shift_remain hb hr (by rw [hue]; decide)
        · refine ⟨?_, fun _ => ?_⟩
          · show 10 ∉ c.buf.shift.unread
            rw [hsh.2, hue]; simp
          · show c.buf.shift.unread = []
            rw [hsh.2, hue]
      · rw [if_neg hr]
        simp only [ne_eq, not_true_eq_false, if_false]
        rw [turnEnd, if_neg hlt]
        refine ⟨⟨_, ⟨hb, ?_, hsum, hok, hq⟩⟩, Or.inr (Or.inr (Or.inl rfl)), fun _ => by omega⟩
        rw [hrest]
        exact At.payload hs hc hf hv hp hw
    · rw [if_neg h0, hv, hf, getElem?_map_append]
      simp only
      have hneed : ((a.length : Int) + 2 - (p.length : Nat)).toNat = w.length := by omega
      rw [hneed]
      by_cases hge : c.buf.writer - c.buf.reader ≥ w.length
      · rw [if_pos hge]
        simp only [ne_eq, not_true_eq_false, if_false]
        have hsplit : c.buf.unread.take w.length = w ∧ c.buf.unread.drop w.length ++ f = todo.flatMap encArg ++ encAll rs := by
          have h1 : (c.buf.unread ++ f).take w.length = w := by rw [hrest, List.take_left]
          have h2 : (c.buf.unread ++ f).drop w.length = todo.flatMap encArg ++ encAll rs := by rw [hrest, List.drop_left]
          rw [List.take_append_of_le_length (by omega)] at h1
          rw [List.drop_append_of_le_length (by omega)] at h2
          exact ⟨h1, h2⟩
        rw [hsplit.1, set_map_append]
        have hadv := hb.advance (k := w.length) (by omega)
        have hcl := hadv.1.clear
        have hbuf : (if c.buf.writer - c.buf.reader = w.length then
            ({ c.buf with reader := c.buf.reader + w.length } : Buffer).clear
            else { c.buf with reader := c.buf.reader + w.length }).Ok ∧
            (if c.buf.writer - c.buf.reader = w.length then
            ({ c.buf with reader := c.buf.reader + w.length } : Buffer).clear
            else { c.buf with reader := c.buf.reader + w.length }).unread = c.buf.unread.drop w.length ∧
            ((if c.buf.writer - c.buf.reader = w.length then
            ({ c.buf with reader := c.buf.reader + w.length } : Buffer).clear
            else { c.buf with reader := c.buf.reader + w.length }).unread = [] →
            0 < (if c.buf.writer - c.buf.reader = w.length then
            ({ c.buf with reader := c.buf.reader + w.length } : Buffer).clear
            else { c.buf with reader := c.buf.reader + w.length }).remain) := by
          by_cases he : c.buf.writer - c.buf.reader = w.length
          · rw [if_pos he]
            refine ⟨hcl.1, ?_, fun _ => by simp [Buffer.clear, bufSize]⟩
            rw [hcl.2, List.drop_of_length_le (by omega)]
          · rw [if_neg he]
            refine ⟨hadv.1, hadv.2, fun h => ?_⟩
            rw [hadv.2] at h
            have := congrArg List.length h
            rw [List.length_drop, List.length_nil] at this
            omega
        refine turnEnd_mid hret (done := done ++ [a]) (todo := todo) (rs := rs) hbuf.1 rfl ?_ ?_ ?_ ?_ ?_ ?_ hbuf.2.2 hq
        · show c.req.argc = _
          rw [hc]; simp
        · show done.length + 1 = _
          simp
        · show done.map full ++ [_] = _
          rw [List.map_append, ← hp]; rfl
        · show Buffer.unread _ ++ f = _
          rw [hbuf.2.1]; exact hsplit.2
        · rw [← hsum]; simp [Conn.requests]
        · simpa using hok
      · rw [if_neg hge]
        simp only [ne_eq, not_true_eq_false, if_false]
        rw [turnEnd, if_neg (show ¬ ((_ : Nat) : Int) = _ from by simpa [hf] using hlt)]
        have hcl := hb.clear
        have hsplit : w = c.buf.unread ++ w.drop c.buf.unread.length ∧
            f = w.drop c.buf.unread.length ++ (todo.flatMap encArg ++ encAll rs) := by
          have h1 := congrArg (List.take c.buf.unread.length) hrest
          have h2 := congrArg (List.drop c.buf.unread.length) hrest
          rw [List.take_left, List.take_append_of_le_length (by omega)] at h1
          rw [List.drop_left, List.drop_append_of_le_length (by omega)] at h2
          refine ⟨?_, h2⟩
          conv => lhs; rw [← List.take_append_drop c.buf.unread.length w, ← h1]
        refine ⟨⟨(done ++ a :: todo) :: rs, ⟨hcl.1, ?_, hsum, hok, hq⟩⟩, Or.inr (Or.inr (Or.inl rfl)), fun _ => by simp [Buffer.clear, bufSize]⟩
        show At _ (c.buf.clear.unread ++ f) _
        rw [hcl.2, List.nil_append, hsplit.2]
        refine At.payload (p := p ++ c.buf.unread) hs hc rfl ?_ ?_ ?_
        · show List.set _ _ _ = _
          rw [set_map_append]
        · rw [hp, List.append_assoc, ← hsplit.1]
        · intro h
          have := congrArg List.length h
          rw [List.length_drop, List.length_nil] at this
          omega

theorem line_short {n : Nat} (h : n ≤ 8388608) : (digits n).length ≤ 7 := digits_length (by decide) (by omega)

theorem notin_line (x : UInt8) (hx : x ≠ 10) (n : Nat) : (10 : UInt8) ∉ x :: (digits n ++ [13]) := by
  simp only [List.mem_cons, List.mem_append, List.mem_singleton, not_or]
  exact ⟨fun h => hx h.symm, digits_no_newline n, by decide, by simp⟩

/-- The part of a turn about headers. -/
theorem turnHeader_fine {ret : List (List Arg) → Status} (hret : ∀ x, ret x = .success ∨ ret x = .abnormal) {f : Bytes}
    {all : List (List Bytes)} {c : Conn} {v : Status} {rs : List (List Bytes)} (hi : Inv f all c rs)
    (hs : c.req.state ≠ .empty) : Fine f all (turnHeader ret c v) := by
  unfold turnHeader
  by_cases hh : c.req.state = .header
  · rw [if_pos hh]
    obtain ⟨hb, hpos, hsum, hok, hq⟩ := hi
    generalize hrest : c.buf.unread ++ f = rest at hpos
    cases hpos with
    | empty h => exact absurd h hs
    | payload h => rw [hh] at h; cases h
    | @header done a todo rs _ hc hf hv =>
      have ha : a.length ≤ 8388608 := (hok _ List.mem_cons_self).2.2 a (by simp)
      have hshort := line_short ha
      have hline : c.buf.unread ++ f =
          (36 :: (digits a.length ++ [13])) ++ 10 :: ((a ++ [13, 10]) ++ (todo.flatMap encArg ++ encAll rs)) := by
        rw [hrest]; simp [encArg]
      unfold handleHeader
      rw [if_neg (by have := hb.rw; omega)]
      rcases find_newline hline (notin_line 36 (by decide) _) with ⟨h1, h2, h3⟩ | ⟨h1, u', h2, h3⟩
      · rw [h1]
        simp only
        have hst : c.req.state ≠ .payload := by rw [hh]; decide
        have hlt : c.buf.unread.length < bufSize := by
          simp only [List.length_cons, List.length_append, List.length_nil] at h3
          unfold bufSize; omega
        have hpos' : At c.req (c.buf.unread ++ f) ((done ++ a :: todo) :: rs) := by
          rw [hrest]; exact At.header hh hc hf hv
        by_cases hr : c.buf.remain = 0
        · rw [if_pos hr]
          simp only [ne_eq, reduceCtorEq, not_false_eq_true, if_true]
          have hsh := hb.shift
          refine ⟨⟨_, ⟨hsh.1, ?_, hsum, hok, hq⟩⟩, Or.inr (Or.inr (Or.inr rfl)), shift_remain hb hr hlt, ?_, fun h => absurd h hst⟩
          · show At c.req (c.buf.shift.unread ++ f) _
            rw [hsh.2]; exact hpos'
          · show 10 ∉ c.buf.shift.unread
            rw [hsh.2]; exact h2
        · rw [if_neg hr]
          simp only [ne_eq, reduceCtorEq, not_false_eq_true, if_true]
          exact ⟨⟨_, ⟨hb, hpos', hsum, hok, hq⟩⟩, Or.inr (Or.inl rfl), by omega, h2, fun h => absurd h hst⟩
      · rw [h1]
        simp only
        have hget := hb.get (x := 36) (s := digits a.length ++ [13] ++ 10 :: u') (by rw [h2]; simp)
        have haft := hb.after (x := 36) (s := digits a.length ++ [13] ++ 10 :: u') (by rw [h2]; simp)
        rw [hget, if_neg (by simp), haft]
        have hat := atoi_digits (n := a.length) (by omega) (10 :: u' ++ c.buf.mem.drop c.buf.writer)
        rw [show digits a.length ++ [13] ++ 10 :: u' ++ c.buf.mem.drop c.buf.writer =
          digits a.length ++ 13 :: (10 :: u' ++ c.buf.mem.drop c.buf.writer) from by simp, hat]
        simp only
        rw [if_neg (by unfold maxPayload; omega), if_neg (by omega)]
        simp only [ne_eq, not_true_eq_false, if_false]
        have hadv := hb.advance (k := (36 :: (digits a.length ++ [13])).length + 1)
          (by rw [h2, List.length_append, List.length_cons (as := u')]; omega)
        have hun : c.buf.unread.drop ((36 :: (digits a.length ++ [13])).length + 1) = u' := by
          rw [h2, ← List.drop_drop, List.drop_left]; rfl
        rw [hun, ← Nat.add_assoc] at hadv
        refine turnPayload_fine hret (rs := (done ++ a :: todo) :: rs) ⟨hadv.1, ?_, hsum, hok, hq⟩ rfl
        show At _ (Buffer.unread _ ++ f) _
        rw [hadv.2, h3]
        refine At.payload (p := []) rfl hc hf ?_ rfl (by simp)
        show c.req.argv ++ [_] = _
        rw [hv]
  · rw [if_neg hh]
    refine turnPayload_fine hret hi ?_
    cases hx : c.req.state with
    | empty => exact absurd hx hs
    | header => exact absurd hx hh
    | payload => rfl

theorem encAll_cons (r : List Bytes) (rs : List (List Bytes)) : encAll (r :: rs) = encReq r ++ encAll rs := by
  simp [encAll]

/-- One turn. -/
theorem turn_fine {ret : List (List Arg) → Status} (hret : ∀ x, ret x = .success ∨ ret x = .abnormal) {f : Bytes}
    {all : List (List Bytes)} {c : Conn} {v : Status} {rs : List (List Bytes)} (hi : Inv f all c rs)
    (hu : c.buf.unread ≠ []) : Fine f all (turn ret c v) := by
  unfold turn
  by_cases hh : c.req.state = .empty
  · rw [if_pos hh]
    obtain ⟨hb, hpos, hsum, hok, hq⟩ := hi
    generalize hrest : c.buf.unread ++ f = rest at hpos
    cases hpos with
    | header h => rw [hh] at h; cases h
    | payload h => rw [hh] at h; cases h
    | empty _ =>
      have hst : c.req.state ≠ .payload := by rw [hh]; decide
      cases rs with
      | nil =>
        simp [encAll] at hrest
        exact absurd hrest.1 hu
      | cons r rs =>
        have hr := hok r List.mem_cons_self
        have hshort := line_short (n := r.length) (by have := hr.2.1; omega)
        have hline : c.buf.unread ++ f = (42 :: (digits r.length ++ [13])) ++ 10 :: (r.flatMap encArg ++ encAll rs) := by
          rw [hrest, encAll_cons]; simp [encReq]
        unfold handleEmpty
        rcases find_newline hline (notin_line 42 (by decide) _) with ⟨h1, h2, h3⟩ | ⟨h1, u', h2, h3⟩
        · rw [h1]
          simp only
          have hlt : c.buf.unread.length < bufSize := by
            simp only [List.length_cons, List.length_append, List.length_nil] at h3
            unfold bufSize; omega
          have hpos' : At c.req (c.buf.unread ++ f) (r :: rs) := by
            rw [hrest]; exact At.empty hh
          by_cases hr : c.buf.remain = 0
          · rw [if_pos hr]
            simp only [ne_eq, reduceCtorEq, not_false_eq_true, if_true]
            have hsh := hb.shift
            refine ⟨⟨_, ⟨hsh.1, ?_, hsum, hok, hq⟩⟩, Or.inr (Or.inr (Or.inr rfl)), shift_remain hb hr hlt, ?_, fun h => absurd h hst⟩
            · show At c.req (c.buf.shift.unread ++ f) _
              rw [hsh.2]; exact hpos'
            · show 10 ∉ c.buf.shift.unread
              rw [hsh.2]; exact h2
          · rw [if_neg hr]
            simp only [ne_eq, reduceCtorEq, not_false_eq_true, if_true]
            exact ⟨⟨_, ⟨hb, hpos', hsum, hok, hq⟩⟩, Or.inr (Or.inr (Or.inl rfl)), by omega, h2, fun h => absurd h hst⟩
        · rw [h1]
          simp only
          have hget := hb.get (x := 42) (s := digits r.length ++ [13] ++ 10 :: u') (by rw [h2]; simp)
          have haft := hb.after (x := 42) (s := digits r.length ++ [13] ++ 10 :: u') (by rw [h2]; simp)
          rw [hget, if_neg (by simp), haft]
          have h1024 := hr.2.1
          have h1' := hr.1
          have hat := atoi_digits (n := r.length) (by omega) (10 :: u' ++ c.buf.mem.drop c.buf.writer)
          rw [show digits r.length ++ [13] ++ 10 :: u' ++ c.buf.mem.drop c.buf.writer =
            digits r.length ++ 13 :: (10 :: u' ++ c.buf.mem.drop c.buf.writer) from by simp, hat]
          simp only
          rw [if_neg (by omega), if_neg (by omega), if_neg (by omega)]
          simp only [ne_eq, not_true_eq_false, if_false]
          have hadv := hb.advance (k := (42 :: (digits r.length ++ [13])).length + 1)
            (by rw [h2, List.length_append, List.length_cons (as := u')]; omega)
          have hun : c.buf.unread.drop ((42 :: (digits r.length ++ [13])).length + 1) = u' := by
            rw [h2, ← List.drop_drop, List.drop_left]; rfl
          rw [hun, ← Nat.add_assoc] at hadv
          refine turnHeader_fine hret (rs := r :: rs) ⟨hadv.1, ?_, hsum, hok, hq⟩ (fun h => by cases h)
          show At _ (Buffer.unread _ ++ f) _
          rw [hadv.2, h3]
          cases r with
          | nil => simp at h1'
          | cons a todo =>
            rw [List.flatMap_cons, List.append_assoc]
            exact At.header (done := []) rfl rfl rfl rfl
  · rw [if_neg hh]
    exact turnHeader_fine hret hi hh

theorem unread_nil_iff {b : Buffer} (h : b.Ok) : b.unread = [] ↔ ¬ b.reader < b.writer := by
  have h1 := h.unread_length
  have h2 := h.rw
  rw [← List.length_eq_zero_iff]; omega

/-- The loop. -/
theorem parse_fine {ret : List (List Arg) → Status} (hret : ∀ x, ret x = .success ∨ ret x = .abnormal) {f : Bytes}
    {all : List (List Bytes)} {c : Conn} {v : Status} {rs : List (List Bytes)} (hi : Inv f all c rs) (hv : Calm v)
    (hr : c.buf.unread = [] → 0 < c.buf.remain) :
    ∃ c' v' rs', parse ret c v = some (c', v') ∧ Calm v' ∧ Inv f all c' rs' ∧ 0 < c'.buf.remain ∧ Stuck c' := by
  generalize hw : c.weight = n
  induction n using Nat.strongRecOn generalizing c v rs with
  | ind n ih =>
    rw [parse]
    by_cases h : c.buf.reader < c.buf.writer
    · rw [dif_pos h]
      have ht := turn_fine (v := v) hret hi (fun hn => (unread_nil_iff hi.buf).1 hn h)
      split
      · rename_i hx; rw [hx] at ht; exact ht.elim
      · rename_i c' v' hx
        rw [hx] at ht
        obtain ⟨⟨rs', h1⟩, h2, h3, h4⟩ := ht
        exact ⟨c', v', rs', rfl, h2, h1, h3, h4⟩
      · rename_i c' v' hx
        have hlt := turn_weight h hx
        rw [hx] at ht
        obtain ⟨⟨rs', h1⟩, h2, h3⟩ := ht
        exact ih c'.weight (by omega) h1 h2 h3 rfl
    · rw [dif_neg h]
      have hn := (unread_nil_iff hi.buf).2 h
      exact ⟨c, v, rs, rfl, hv, hi, hr hn, by rw [hn]; simp, fun _ => hn⟩

/-- When the parser is stuck, the next request is not complete. -/
theorem stuck_next {f : Bytes} {all : List (List Bytes)} {c : Conn} {r : List Bytes} {rs : List (List Bytes)}
    (hi : Inv f all c (r :: rs)) (hst : Stuck c) : (encAll rs).length < f.length := by
  have key : ∀ {l x : Bytes}, c.buf.unread ++ f = l ++ 10 :: x ++ encAll rs → (encAll rs).length < f.length := by
    intro l x h
    apply Classical.byContradiction
    intro hn
    have hl := congrArg List.length h
    simp only [List.length_append, List.length_cons] at hl
    have h2 := congrArg (List.take (l ++ 10 :: x).length) h
    rw [List.take_left, List.take_append_of_le_length (by simp only [List.length_append, List.length_cons]; omega)] at h2
    have : (10 : UInt8) ∈ c.buf.unread.take (l ++ 10 :: x).length := by rw [h2]; simp
    exact hst.1 (List.mem_of_mem_take this)
  have hpos := hi.pos
  generalize hrest : c.buf.unread ++ f = rest at hpos
  cases hpos with
  | empty hs =>
    refine key (l := 42 :: (digits r.length ++ [13])) (x := r.flatMap encArg) ?_
    rw [hrest, encAll_cons]; simp [encReq]
  | @header done a todo _ hs hc hf hv =>
    refine key (l := 36 :: (digits a.length ++ [13])) (x := a ++ [13, 10] ++ todo.flatMap encArg) ?_
    rw [hrest]; simp [encArg]
  | @payload done a p w todo _ hs hc hf hv hp hw =>
    rw [hst.2 hs, List.nil_append] at hrest
    rw [hrest, List.length_append, List.length_append]
    have := List.length_pos_iff.2 hw
    omega

/-! ## Several reads -/

/-- The dispatcher returns what commands other than STOP return to an attached client. -/
def Ordinary (ret : List (List Arg) → Status) : Prop := ∀ x, ret x = .success ∨ ret x = .abnormal

theorem newConn_inv {mem : Bytes} (hm : mem.length = bufSize) {reqs : List (List Bytes)} (hok : ∀ r ∈ reqs, OkReq r) :
    Inv (encAll reqs) reqs (newConn mem) reqs :=
  ⟨⟨hm, Nat.le_refl _, Nat.zero_le _, rfl⟩, by simp only [newConn, Buffer.unread]; exact At.empty rfl, rfl, hok, rfl⟩

theorem newConn_remain (mem : Bytes) : ¬ (newConn mem).buf.remain = 0 := show ¬ bufSize = 0 by decide

theorem newConn_stuck (mem : Bytes) : Stuck (newConn mem) := by
  constructor
  · simp [newConn, Buffer.unread]
  · intro h; cases h

theorem Inv.write {d f : Bytes} {all : List (List Bytes)} {c : Conn} {l : List (List Bytes)} (hi : Inv (d ++ f) all c l)
    (hd : d.length ≤ c.buf.remain) : Inv f all { c with buf := c.buf.write d } l := by
  have hw := hi.buf.write hd
  refine ⟨hw.1, ?_, hi.sum, hi.ok, hi.quiet⟩
  show At c.req ((c.buf.write d).unread ++ f) l
  rw [hw.2, List.append_assoc]; exact hi.pos

theorem write_ne_nil {c : Conn} (h : c.buf.Ok) {d : Bytes} (hd : d ≠ []) (hl : d.length ≤ c.buf.remain) :
    (c.buf.write d).unread ≠ [] := by
  rw [(h.write hl).2]; simp [hd]

theorem onRecv_fine {ret : List (List Arg) → Status} (hret : Ordinary ret) {d f : Bytes} {all : List (List Bytes)} {c : Conn}
    {l : List (List Bytes)} (hi : Inv (d ++ f) all c l) (hr : 0 < c.buf.remain) (hd : d ≠ []) (hl : d.length ≤ c.buf.remain) :
    ∃ c' l', onRecv ret c (.data d) = .open c' ∧ Inv f all c' l' ∧ 0 < c'.buf.remain ∧ Stuck c' := by
  obtain ⟨c', v', l', h1, h2, h3, h4, h5⟩ :=
    parse_fine (v := .success) hret (hi.write hl) (Or.inl rfl) (fun h => absurd h (write_ne_nil hi.buf hd hl))
  refine ⟨c', l', ?_, h3, h4, h5⟩
  unfold onRecv
  rw [if_neg (by omega)]
  simp only [h1]
  rcases h2 with h | h | h | h <;> subst h <;> rfl

theorem serve_fine {ret : List (List Arg) → Status} (hret : Ordinary ret) {rs : List Recv} {f : Bytes} {all : List (List Bytes)}
    {c : Conn} {l : List (List Bytes)} (hi : Inv (received rs ++ f) all c l) (hr : 0 < c.buf.remain) (hst : Stuck c)
    (hf : Fits ret c rs) (hu : Up rs) :
    ∃ c' l', serve ret c rs = .open c' ∧ Inv f all c' l' ∧ 0 < c'.buf.remain ∧ Stuck c' := by
  induction rs generalizing c l with
  | nil => exact ⟨c, l, rfl, hi, hr, hst⟩
  | cons r rs ih =>
    have hu' : Up rs := fun x hx => hu x (List.mem_cons_of_mem _ hx)
    have h0 : ¬ c.buf.remain = 0 := by omega
    obtain ⟨hf1, hf2⟩ := hf
    cases r with
    | eof => exact absurd rfl (hu .eof List.mem_cons_self)
    | again =>
      have he : onRecv ret c .again = .open c := by unfold onRecv; rw [if_neg h0]
      rw [serve, he]
      rw [he] at hf2
      exact ih hi hr hst hf2 hu'
    | error =>
      have he : onRecv ret c .error = .open c := by unfold onRecv; rw [if_neg h0]
      rw [serve, he]
      rw [he] at hf2
      exact ih hi hr hst hf2 hu'
    | data d =>
      obtain ⟨h1, h2⟩ := hf1 d rfl
      have hi' : Inv (d ++ (received rs ++ f)) all c l := by
        rw [← List.append_assoc]; exact hi
      obtain ⟨c', l', h3, h4, h5, h6⟩ := onRecv_fine hret hi' hr h1 h2
      rw [serve, h3]
      rw [h3] at hf2
      exact ih h4 h5 h6 hf2 hu'

/-- One byte at a time always fits. -/
theorem fits_bytes {ret : List (List Arg) → Status} (hret : Ordinary ret) {s f : Bytes} {all : List (List Bytes)} {c : Conn}
    {l : List (List Bytes)} (hi : Inv (s ++ f) all c l) (hr : 0 < c.buf.remain) :
    Fits ret c (s.map fun b => .data [b]) := by
  induction s generalizing c l with
  | nil => trivial
  | cons b s ih =>
    refine ⟨fun d hd => ?_, ?_⟩
    · injection hd with hd
      subst hd
      exact ⟨by simp, hr⟩
    · obtain ⟨c', l', h3, h4, h5, _⟩ := onRecv_fine (d := [b]) (f := s ++ f) hret hi hr (by simp) hr
      rw [h3]
      exact ih h4 h5

theorem received_bytes (s : Bytes) : received (s.map fun b => .data [b]) = s := by
  induction s with
  | nil => rfl
  | cons b s ih => rw [List.map_cons, received, ih]; rfl

/-! ## The status of a read that ends with a request -/

theorem turnEnd_status {ret : List (List Arg) → Status} {c c' : Conn} {v v' : Status} (h : turnEnd ret c v = .go c' v')
    (hs : c.req.state ≠ .empty) (he : c'.req.state = .empty) : v' = ret c'.ran := by
  unfold turnEnd at h
  split at h
  · injection h with h1 h2
    subst h1; subst h2; rfl
  · injection h with h1 _
    subst h1
    exact absurd he hs

theorem handlePayload_state {c c' : Conn} {v : Status} (h : handlePayload c = .ok c' v) (hs : c.req.state ≠ .empty) :
    c'.req.state ≠ .empty := by
  unfold handlePayload at h
  simp only at h
  repeat' split at h
  all_goals first
    | (cases h; done)
    | (injection h with h1 _
       subst h1
       first
         | exact hs
         | (intro hx; cases hx))

theorem handleHeader_state {c c' : Conn} {v : Status} (h : handleHeader c = .ok c' v) (hs : c.req.state ≠ .empty) :
    c'.req.state ≠ .empty := by
  unfold handleHeader at h
  repeat' split at h
  all_goals first
    | (cases h; done)
    | (injection h with h1 _
       subst h1
       first
         | exact hs
         | (intro hx; cases hx))

theorem turnPayload_status {ret : List (List Arg) → Status} {c : Conn} {v : Status} (hs : c.req.state ≠ .empty) :
    (∀ c' v', turnPayload ret c v = .go c' v' → c'.req.state = .empty → v' = ret c'.ran) ∧
      ∀ c' v', turnPayload ret c v = .stop c' v' → c'.req.state ≠ .empty := by
  unfold turnPayload
  split
  · split
    · exact ⟨fun _ _ h => (by cases h), fun _ _ h => (by cases h)⟩
    · rename_i c1 v1 h1
      have h2 := handlePayload_state h1 hs
      split
      · refine ⟨fun _ _ h => (by cases h), fun c' v' h => ?_⟩
        injection h with h _
        subst h; exact h2
      · refine ⟨fun c' v' h => turnEnd_status h h2, fun c' v' h => ?_⟩
        unfold turnEnd at h
        split at h <;> cases h
  · refine ⟨fun c' v' h => turnEnd_status h hs, fun c' v' h => ?_⟩
    unfold turnEnd at h
    split at h <;> cases h

theorem turnHeader_status {ret : List (List Arg) → Status} {c : Conn} {v : Status} (hs : c.req.state ≠ .empty) :
    (∀ c' v', turnHeader ret c v = .go c' v' → c'.req.state = .empty → v' = ret c'.ran) ∧
      ∀ c' v', turnHeader ret c v = .stop c' v' → c'.req.state ≠ .empty := by
  unfold turnHeader
  split
  · split
    · exact ⟨fun _ _ h => (by cases h), fun _ _ h => (by cases h)⟩
    · rename_i c1 v1 h1
      have h2 := handleHeader_state h1 hs
      split
      · refine ⟨fun _ _ h => (by cases h), fun c' v' h => ?_⟩
        injection h with h _
        subst h; exact h2
      · exact turnPayload_status h2
  · exact turnPayload_status hs

theorem handleEmpty_status {c c' : Conn} {v : Status} (hb : c.buf.Ok) (h : handleEmpty c = .ok c' v) :
    (v = .success → c'.req.state ≠ .empty) ∧ (v ≠ .success → c'.buf.unread = c.buf.unread) := by
  unfold handleEmpty at h
  repeat' split at h
  all_goals first
    | (cases h; done)
    | (injection h with h1 h2
       subst h1; subst h2
       first
         | exact ⟨fun hx => (by cases hx), fun _ => rfl⟩
         | exact ⟨fun hx => (by cases hx), fun _ => hb.shift.2⟩
         | exact ⟨fun _ hx => (by cases hx), fun hx => absurd rfl hx⟩)

theorem turn_status {ret : List (List Arg) → Status} {c : Conn} {v : Status} (hb : c.buf.Ok) :
    (∀ c' v', turn ret c v = .go c' v' → c'.req.state = .empty → v' = ret c'.ran) ∧
      ∀ c' v', turn ret c v = .stop c' v' → c'.req.state = .empty → c'.buf.unread = c.buf.unread := by
  unfold turn
  split
  · split
    · exact ⟨fun _ _ h => (by cases h), fun _ _ h => (by cases h)⟩
    · rename_i c1 v1 h1
      have h2 := handleEmpty_status hb h1
      split
      · rename_i hv
        refine ⟨fun _ _ h => (by cases h), fun c' v' h _ => ?_⟩
        injection h with h _
        subst h; exact h2.2 hv
      · rename_i hv
        have h3 := turnHeader_status (ret := ret) (v := v1) (h2.1 (Classical.not_not.1 hv))
        exact ⟨h3.1, fun c' v' h he => absurd he (h3.2 c' v' h)⟩
  · rename_i hs
    have h3 := turnHeader_status (ret := ret) (v := v) hs
    exact ⟨h3.1, fun c' v' h he => absurd he (h3.2 c' v' h)⟩

theorem parse_status {ret : List (List Arg) → Status} (hret : Ordinary ret) {f : Bytes} {all : List (List Bytes)} {c c' : Conn}
    {v v' : Status} {rs : List (List Bytes)} (hi : Inv f all c rs) (hu : c.buf.unread ≠ []) (h : parse ret c v = some (c', v'))
    (he : c'.req.state = .empty) (hn : c'.buf.unread = []) : v' = ret c'.ran := by
  generalize hw : c.weight = n
  induction n using Nat.strongRecOn generalizing c v rs with
  | ind n ih =>
    have hlt : c.buf.reader < c.buf.writer :=
      Classical.byContradiction fun hx => hu ((unread_nil_iff hi.buf).2 hx)
    rw [parse, dif_pos hlt] at h
    have ht := turn_fine (v := v) hret hi hu
    have hst := turn_status (ret := ret) (v := v) hi.buf
    split at h
    · cases h
    · rename_i c1 v1 hx
      injection h with h
      injection h with h1 h2
      subst h1; subst h2
      rw [hst.2 _ _ hx he] at hn
      exact absurd hn hu
    · rename_i c1 v1 hx
      have hwt := turn_weight hlt hx
      have hgo := hst.1 _ _ hx
      rw [hx] at ht
      obtain ⟨⟨rs', h1⟩, _, _⟩ := ht
      by_cases hu1 : c1.buf.unread = []
      · rw [parse, dif_neg ((unread_nil_iff h1.buf).1 hu1)] at h
        injection h with h
        injection h with h2 h3
        subst h2; subst h3
        exact hgo he
      · exact ih c1.weight (by omega) h1 hu1 h rfl

/-- The state of the client, if the process goes on. -/
def After.conn : After → Option Conn
  | .open c => some c
  | .closed c => some c
  | .stopped c => some c
  | .crash => none

end Zdb.Resp
