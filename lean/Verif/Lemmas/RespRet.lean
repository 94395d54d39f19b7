/-
Reading requests: what only grows, and how far the parser depends on what the dispatcher returns.
-/
import Verif.Lemmas.Resp
import Verif.Lemmas.Wire
namespace Zdb.Resp

open Zdb.Wire (Plain chars)

/-- Error messages were added, each of them a line. -/
def SaidFrom (c c' : Conn) : Prop := ∃ l, c'.said = c.said ++ l ∧ ∀ s ∈ l, Plain (chars s)

theorem SaidFrom.refl (c : Conn) : SaidFrom c c := ⟨[], by simp, by simp⟩

theorem SaidFrom.trans {a b c : Conn} (h1 : SaidFrom a b) (h2 : SaidFrom b c) : SaidFrom a c := by
  obtain ⟨l1, h1, g1⟩ := h1
  obtain ⟨l2, h2, g2⟩ := h2
  refine ⟨l1 ++ l2, by rw [h2, h1, List.append_assoc], fun s hs => ?_⟩
  rcases List.mem_append.1 hs with h | h
  · exact g1 s h
  · exact g2 s h

/-- No request was handed over. -/
def Keeps (c c' : Conn) : Prop := c'.ran = c.ran ∧ SaidFrom c c'

theorem keeps_say {c c' : Conn} {s : String} (hr : c'.ran = c.ran) (hs : c'.said = c.said ++ [s]) (hp : Plain (chars s)) : Keeps c c' :=
  ⟨hr, [s], hs, fun x hx => by rw [List.mem_singleton] at hx; rw [hx]; exact hp⟩

theorem keeps_same {c c' : Conn} (hr : c'.ran = c.ran) (hs : c'.said = c.said) : Keeps c c' :=
  ⟨hr, [], by rw [hs, List.append_nil], by simp⟩

theorem handleEmpty_keeps {c c' : Conn} {v : Status} (h : handleEmpty c = .ok c' v) : Keeps c c' := by
  unfold handleEmpty at h
  simp only at h
  repeat' split at h
  all_goals first
    | (cases h; done)
    | (injection h with h1 _
       subst h1
       first
         | exact keeps_same rfl rfl
         | exact keeps_say rfl rfl (by decide))

theorem handleHeader_keeps {c c' : Conn} {v : Status} (h : handleHeader c = .ok c' v) : Keeps c c' := by
  unfold handleHeader at h
  repeat' split at h
  all_goals first
    | (cases h; done)
    | (injection h with h1 _
       subst h1
       first
         | exact keeps_same rfl rfl
         | exact keeps_say rfl rfl (by decide))

theorem handlePayload_keeps {c c' : Conn} {v : Status} (h : handlePayload c = .ok c' v) : Keeps c c' := by
  unfold handlePayload at h
  simp only at h
  repeat' split at h
  all_goals first
    | (cases h; done)
    | (injection h with h1 _
       subst h1
       exact keeps_same rfl rfl)

/-- The same turn with another dispatcher: it ends in the same way, except for what the dispatcher returns. -/
def Agree (ret ret' : List (List Arg) → Status) (c : Conn) : Turn → Turn → Prop
  | .go c1 v1, t => SaidFrom c c1 ∧ ((c1.ran = c.ran ∧ t = .go c1 v1) ∨
      ((∃ r, c1.ran = c.ran ++ [r]) ∧ v1 = ret c1.ran ∧ t = .go c1 (ret' c1.ran)))
  | .stop c1 v1, t => Keeps c c1 ∧ t = .stop c1 v1
  | .crash, t => t = .crash

theorem Agree.from {ret ret' : List (List Arg) → Status} {c0 c : Conn} (h : Keeps c0 c) {t t' : Turn} (ha : Agree ret ret' c t t') :
    Agree ret ret' c0 t t' := by
  cases t with
  | go c1 v1 =>
    obtain ⟨h1, h2⟩ := ha
    refine ⟨h.2.trans h1, ?_⟩
    rw [h.1] at h2
    exact h2
  | stop c1 v1 => exact ⟨⟨ha.1.1.trans h.1, h.2.trans ha.1.2⟩, ha.2⟩
  | crash => exact ha

theorem turnEnd_agree (ret ret' : List (List Arg) → Status) (c : Conn) (v : Status) :
    Agree ret ret' c (turnEnd ret c v) (turnEnd ret' c v) := by
  unfold turnEnd
  split
  · exact ⟨(keeps_same (c' := { c with ran := c.ran }) rfl rfl).2, Or.inr ⟨⟨_, rfl⟩, rfl, rfl⟩⟩
  · exact ⟨SaidFrom.refl c, Or.inl ⟨rfl, rfl⟩⟩

theorem turnPayload_agree (ret ret' : List (List Arg) → Status) (c : Conn) (v : Status) :
    Agree ret ret' c (turnPayload ret c v) (turnPayload ret' c v) := by
  unfold turnPayload
  split
  · split
    · exact rfl
    · rename_i c1 v1 h1
      split
      · exact ⟨handlePayload_keeps h1, rfl⟩
      · exact (turnEnd_agree ret ret' c1 v1).from (handlePayload_keeps h1)
  · exact turnEnd_agree ret ret' c v

theorem turnHeader_agree (ret ret' : List (List Arg) → Status) (c : Conn) (v : Status) :
    Agree ret ret' c (turnHeader ret c v) (turnHeader ret' c v) := by
  unfold turnHeader
  split
  · split
    · exact rfl
    · rename_i c1 v1 h1
      split
      · exact ⟨handleHeader_keeps h1, rfl⟩
      · exact (turnPayload_agree ret ret' c1 v1).from (handleHeader_keeps h1)
  · exact turnPayload_agree ret ret' c v

theorem turn_agree (ret ret' : List (List Arg) → Status) (c : Conn) (v : Status) :
    Agree ret ret' c (turn ret c v) (turn ret' c v) := by
  unfold turn
  split
  · split
    · exact rfl
    · rename_i c1 v1 h1
      split
      · exact ⟨handleEmpty_keeps h1, rfl⟩
      · exact (turnHeader_agree ret ret' c1 v1).from (handleEmpty_keeps h1)
  · exact turnHeader_agree ret ret' c v

/-- Requests and error messages are only added. -/
theorem parse_grows {ret : List (List Arg) → Status} {c c' : Conn} {v v' : Status} (h : parse ret c v = some (c', v')) :
    c.ran <+: c'.ran ∧ SaidFrom c c' := by
  generalize hw : c.weight = n
  induction n using Nat.strongRecOn generalizing c v with
  | ind n ih =>
    rw [parse] at h
    split at h
    · rename_i hb
      have ha := turn_agree ret ret c v
      split at h
      · cases h
      · rename_i c1 v1 hx
        rw [hx] at ha
        simp only [Option.some.injEq, Prod.mk.injEq] at h
        rw [← h.1]
        exact ⟨by rw [ha.1.1]; exact List.prefix_refl _, ha.1.2⟩
      · rename_i c1 v1 hx
        have hlt := turn_weight hb hx
        rw [hx] at ha
        obtain ⟨h1, h2⟩ := ih c1.weight (by omega) h rfl
        refine ⟨?_, ha.1.trans h2⟩
        rcases ha.2 with ⟨g, _⟩ | ⟨⟨r, g⟩, _⟩
        · rw [← g]; exact h1
        · rw [g] at h1
          exact (List.prefix_append _ _).trans h1
    · simp only [Option.some.injEq, Prod.mk.injEq] at h
      rw [← h.1]
      exact ⟨List.prefix_refl _, SaidFrom.refl c⟩

theorem onRecv_grows {ret : List (List Arg) → Status} {c c' : Conn} {r : Recv} (h : (onRecv ret c r).conn = some c') :
    c.ran <+: c'.ran ∧ SaidFrom c c' := by
  unfold onRecv at h
  split at h
  · injection h with h; subst h; exact ⟨List.prefix_refl _, SaidFrom.refl _⟩
  · split at h
    · injection h with h; subst h; exact ⟨List.prefix_refl _, SaidFrom.refl _⟩
    · injection h with h; subst h; exact ⟨List.prefix_refl _, SaidFrom.refl _⟩
    · injection h with h; subst h; exact ⟨List.prefix_refl _, SaidFrom.refl _⟩
    · rename_i d
      have hg : ∀ c1 v1, parse ret { c with buf := c.buf.write d } .success = some (c1, v1) →
          c.ran <+: c1.ran ∧ SaidFrom c c1 := by
        intro c1 v1 hp
        have := parse_grows hp
        exact this
      split at h
      · cases h
      all_goals (rename_i hp; injection h with h; subst h; exact hg _ _ hp)

/-! ### any dispatcher -/

theorem turn_v (ret : List (List Arg) → Status) (c : Conn) (v w : Status) : turn ret c v = turn ret c w := by
  unfold turn
  split
  · rfl
  · rename_i h1
    unfold turnHeader
    split
    · rfl
    · rename_i h2
      unfold turnPayload
      split
      · rfl
      · rename_i h3
        cases h : c.req.state
        · exact absurd h h1
        · exact absurd h h2
        · exact absurd h h3

/-- What the dispatcher returns changes only what the loop returns: with one that always returns success the loop hands over
    the same requests and leaves the same bytes. -/
theorem parse_success {ret : List (List Arg) → Status} {c c' : Conn} {v v' w : Status} (h : parse ret c v = some (c', v'))
    (hw : w = v ∨ w = .success) : ∃ w', parse (fun _ => .success) c w = some (c', w') ∧ (w' = v' ∨ w' = .success) := by
  generalize hn : c.weight = n
  induction n using Nat.strongRecOn generalizing c v w with
  | ind n ih =>
    rw [parse] at h ⊢
    split at h
    · rename_i hb
      rw [dif_pos hb]
      have ha := turn_agree ret (fun _ => .success) c v
      rw [turn_v _ c v w] at ha
      split at h
      · cases h
      · rename_i c1 v1 hx
        rw [turn_v _ c v w] at hx
        rw [hx] at ha
        have hx' : turn (fun _ => .success) c w = .stop c1 v1 := by rw [← ha.2, turn_v _ c v w]
        simp only [Option.some.injEq, Prod.mk.injEq] at h
        split
        · rename_i hy; rw [hx'] at hy; cases hy
        · rename_i hy; rw [hx'] at hy; injection hy with h1 h2
          exact ⟨_, by rw [← h1, ← h2, h.1], Or.inl (by rw [← h.2])⟩
        · rename_i hy; rw [hx'] at hy; cases hy
      · rename_i c1 v1 hx
        have hlt := turn_weight hb hx
        rw [turn_v _ c v w] at hx
        rw [hx] at ha
        have hx' : ∃ w1, turn (fun _ => .success) c w = .go c1 w1 ∧ (w1 = v1 ∨ w1 = .success) := by
          rcases ha.2 with ⟨_, g2⟩ | ⟨_, _, g3⟩
          · exact ⟨v1, by rw [← g2, turn_v _ c v w], Or.inl rfl⟩
          · exact ⟨.success, by rw [← g3, turn_v _ c v w], Or.inr rfl⟩
        obtain ⟨w1, hx', hw1⟩ := hx'
        have := ih c1.weight (by omega) h hw1 rfl
        split
        · rename_i hy; rw [hx'] at hy; cases hy
        · rename_i hy; rw [hx'] at hy; cases hy
        · rename_i hy; rw [hx'] at hy; injection hy with h1 h2; rw [← h1, ← h2]; exact this
    · rename_i hb
      rw [dif_neg hb]
      simp only [Option.some.injEq, Prod.mk.injEq] at h
      rw [← h.1, ← h.2]
      exact ⟨w, rfl, hw⟩

/-- A client that stays connected is read as if the dispatcher always returned success. -/
theorem onRecv_success {ret : List (List Arg) → Status} {c c' : Conn} {r : Recv} (h : onRecv ret c r = .open c') :
    onRecv (fun _ => .success) c r = .open c' := by
  unfold onRecv at h ⊢
  split at h
  · cases h
  · rename_i h0
    rw [if_neg h0]
    cases r with
    | again => exact h
    | error => exact h
    | eof => exact h
    | data d =>
      simp only at h ⊢
      cases hp : parse ret { c with buf := c.buf.write d } .success with
      | none => rw [hp] at h; cases h
      | some x =>
        obtain ⟨c1, v1⟩ := x
        rw [hp] at h
        obtain ⟨w, h1, h2⟩ := parse_success hp (Or.inl rfl)
        rw [h1]
        have hc : c1 = c' := by cases v1 <;> first | (injection h) | (cases h)
        subst hc
        rcases h2 with rfl | rfl
        · exact h
        · rfl

/-- A read that ends with a request returns what the dispatcher returned for this request. -/
theorem parse_last {ret : List (List Arg) → Status} {f : Bytes} {all : List (List Bytes)} {c c' : Conn}
    {v v' : Status} {rs : List (List Bytes)} (hi : Inv f all c rs) (hu : c.buf.unread ≠ []) (h : parse ret c v = some (c', v'))
    (he : c'.req.state = .empty) (hn : c'.buf.unread = []) : v' = ret c'.ran := by
  generalize hw : c.weight = n
  induction n using Nat.strongRecOn generalizing c v rs with
  | ind n ih =>
    have hlt : c.buf.reader < c.buf.writer :=
      Classical.byContradiction fun hx => hu ((unread_nil_iff hi.buf).2 hx)
    rw [parse, dif_pos hlt] at h
    have ht := turn_fine (ret := fun _ => .success) (v := v) (fun _ => Or.inl rfl) hi hu
    have hst := turn_status (ret := ret) (v := v) hi.buf
    have ha := turn_agree ret (fun _ => .success) c v
    split at h
    · cases h
    · rename_i c1 v1 hx
      injection h with h
      injection h with h1 h2
      subst h1; subst h2
      rw [hst.2 _ _ hx he] at hn
      exact absurd hn hu
    · rename_i c1 v1 hx
      have hwt := turn_weight hlt hx
      have hgo := hst.1 _ _ hx
      rw [hx] at ha
      have h1 : ∃ rs', Inv f all c1 rs' := by
        rcases ha.2 with ⟨_, g⟩ | ⟨_, _, g⟩ <;> (rw [g] at ht; exact ht.1)
      obtain ⟨rs', h1⟩ := h1
      by_cases hu1 : c1.buf.unread = []
      · rw [parse, dif_neg ((unread_nil_iff h1.buf).1 hu1)] at h
        injection h with h
        injection h with h2 h3
        subst h2; subst h3
        exact hgo he
      · exact ih c1.weight (by omega) h1 hu1 h rfl

/-! ### one more read -/

theorem serve_snoc {ret : List (List Arg) → Status} {c c1 : Conn} {rs : List Recv} {r : Recv} (h : serve ret c rs = .open c1) :
    serve ret c (rs ++ [r]) = onRecv ret c1 r := by
  induction rs generalizing c with
  | nil =>
    injection h with h
    subst h
    rw [List.nil_append, serve]
    cases onRecv ret c r <;> rfl
  | cons x rs ih =>
    rw [serve] at h
    rw [List.cons_append, serve]
    cases hx : onRecv ret c x with
    | «open» c2 => rw [hx] at h; exact ih h
    | closed c2 => rw [hx] at h; cases h
    | stopped c2 => rw [hx] at h; cases h
    | crash => rw [hx] at h; cases h

theorem fits_snoc {ret : List (List Arg) → Status} {c c1 : Conn} {rs : List Recv} {r : Recv} (h : serve ret c rs = .open c1)
    (hf : Fits ret c rs) (hr : ∀ d, r = .data d → d ≠ [] ∧ d.length ≤ c1.buf.remain) : Fits ret c (rs ++ [r]) := by
  induction rs generalizing c with
  | nil =>
    injection h with h
    subst h
    refine ⟨hr, ?_⟩
    cases onRecv ret c r <;> trivial
  | cons x rs ih =>
    rw [serve] at h
    refine ⟨hf.1, ?_⟩
    have h2 := hf.2
    cases hx : onRecv ret c x with
    | «open» c2 => rw [hx] at h h2; exact ih h h2
    | closed c2 => rw [hx] at h; cases h
    | stopped c2 => rw [hx] at h; cases h
    | crash => rw [hx] at h; cases h

end Zdb.Resp
