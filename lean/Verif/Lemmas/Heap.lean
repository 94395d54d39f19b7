/-
Weakest preconditions for programs over memory, and the bookkeeping of owners.
-/
import Verif.Spec.Heap
namespace Zdb.Heap

/-- Every execution avoids `bad`, and when it returns it returns with `Q`. -/
def wp (l : Level) {α : Type} : Prog α → (α → Mem → Prop) → Mem → Prop
  | .ret a, Q, M => Q a M
  | .alloc k, Q, M => ∀ b, M b = .gone → wp l (k b) Q (M.set b .live)
  | .free none k, Q, M => wp l k Q M
  | .free (some b) k, Q, M => M b = .live ∧ wp l k Q (M.set b .gone)
  | .use none _, _, _ => False
  | .use (some b) k, Q, M => M b = .live ∧ wp l k Q M
  | .askf k, Q, M => ∀ a, wp l (k a) Q M
  | .lose b k, Q, M => l ≠ .clean → M b = .live → wp l k Q (M.set b .lost)
  | .hazard _ k, Q, M => l = .any → wp l k Q M
  | .die, _, _ => True

theorem wp_sound {l : Level} {α : Type} {p : Prog α} {M : Mem} {r : Res α} (h : Exec l p M r) :
    ∀ {Q : α → Mem → Prop}, wp l p Q M → r = .died ∨ ∃ a M', r = .done a M' ∧ Q a M' := by
  induction h with
  | ret a M => intro Q hw; exact .inr ⟨a, M, rfl, hw⟩
  | alloc k M b r hb _ ih => intro Q hw; exact ih (hw b hb)
  | freed b k M r hb _ ih => intro Q hw; exact ih hw.2
  | freeNull k M r _ ih => intro Q hw; exact ih hw
  | freeBad b k M hb => intro Q hw; exact absurd hw.1 hb
  | used b k M r hb _ ih => intro Q hw; exact ih hw.2
  | useNull k M => intro Q hw; exact hw.elim
  | useBad b k M hb => intro Q hw; exact absurd hw.1 hb
  | asked k M a r _ ih => intro Q hw; exact ih (hw a)
  | lost b k M r hl hb _ ih => intro Q hw; exact ih (hw hl hb)
  | hazard g k M r hl _ ih => intro Q hw; exact ih (hw hl)
  | died M => intro Q _; exact .inl rfl

theorem wp_mono {l : Level} {α : Type} {p : Prog α} :
    ∀ {M : Mem} {Q Q' : α → Mem → Prop}, wp l p Q M → (∀ a M, Q a M → Q' a M) → wp l p Q' M := by
  induction p with
  | ret a => intro M Q Q' h hq; exact hq _ _ h
  | alloc k ih => intro M Q Q' h hq; exact fun b hb => ih b (h b hb) hq
  | free p k ih =>
    intro M Q Q' h hq
    cases p with
    | none => exact ih (M := M) h hq
    | some b => exact ⟨h.1, ih h.2 hq⟩
  | use p k ih =>
    intro M Q Q' h hq
    cases p with
    | none => exact h.elim
    | some b => exact ⟨h.1, ih h.2 hq⟩
  | askf k ih => intro M Q Q' h hq; exact fun a => ih a (M := M) (h a) hq
  | lose b k ih => intro M Q Q' h hq; exact fun hl hb => ih (h hl hb) hq
  | hazard g k ih => intro M Q Q' h hq; exact fun hl => ih (M := M) (h hl) hq
  | die => intro M Q Q' _ _; trivial

theorem wp_bind' {l : Level} {α β : Type} {p : Prog α} {f : α → Prog β} {Q : β → Mem → Prop} :
    ∀ {M : Mem}, wp l (p.bind f) Q M ↔ wp l p (fun a M => wp l (f a) Q M) M := by
  induction p with
  | ret a => intro M; exact Iff.rfl
  | alloc k ih => intro M; exact forall_congr' fun b => imp_congr Iff.rfl (ih b)
  | free p k ih =>
    intro M
    cases p with
    | none => exact ih (M := M)
    | some b => exact and_congr Iff.rfl ih
  | use p k ih =>
    intro M
    cases p with
    | none => exact Iff.rfl
    | some b => exact and_congr Iff.rfl ih
  | askf k ih => intro M; exact forall_congr' fun a => ih a (M := M)
  | lose b k ih => intro M; exact imp_congr Iff.rfl (imp_congr Iff.rfl ih)
  | hazard g k ih => intro M; exact imp_congr Iff.rfl (ih (M := M))
  | die => intro M; exact Iff.rfl

theorem wp_bind {l : Level} {α β : Type} {M : Mem} {p : Prog α} {f : α → Prog β} {Q : β → Mem → Prop} :
    wp l (p >>= f) Q M ↔ wp l p (fun a M => wp l (f a) Q M) M := wp_bind'

/-! ### owners -/

/-- How many variables hold each block. -/
abbrev Own : Type := Nat → Nat

instance : Add Own := ⟨fun o p => fun x => o x + p x⟩
instance : Sub Own := ⟨fun o p => fun x => o x - p x⟩

/-- The owners in a list of variables. -/
def cnt (l : List Nat) : Own := fun x => l.count x

/-- One variable. -/
def one (b : Nat) : Own := fun x => if x = b then 1 else 0

theorem add_ap (o p : Own) (x : Nat) : (o + p) x = o x + p x := rfl
theorem sub_ap (o p : Own) (x : Nat) : (o - p) x = o x - p x := rfl
theorem one_self (b : Nat) : one b b = 1 := by simp [one]
theorem cnt_nil (x : Nat) : cnt [] x = 0 := rfl
theorem cnt_cons (b : Nat) (l : List Nat) (x : Nat) : cnt (b :: l) x = one b x + cnt l x := by
  simp only [cnt, one, List.count_cons, beq_iff_eq, eq_comm (a := b)]
  split <;> omega
theorem cnt_append (l m : List Nat) (x : Nat) : cnt (l ++ m) x = cnt l x + cnt m x := by simp [cnt, List.count_append]
theorem cnt_toList_none (x : Nat) : cnt (none : Option Nat).toList x = 0 := rfl
theorem cnt_toList_some (b x : Nat) : cnt (some b).toList x = one b x := by
  rw [Option.toList_some, cnt_cons, cnt_nil]; rfl

theorem own_ext {o p : Own} (h : ∀ x, o x = p x) : o = p := funext h

/-- Arithmetic of owners, at a block. -/
macro "owna" : tactic => `(tactic| ((try simp only [add_ap, sub_ap, cnt_cons, cnt_nil, cnt_append, one_self, cnt_toList_none,
  cnt_toList_some, List.flatMap_cons, List.flatMap_nil, Nat.add_zero, Nat.zero_add] at *) <;> omega))

/-- The same at every block. -/
macro "own" : tactic => `(tactic| (intro x; owna))

/-- Memory is as the owners say: a block is alive and known exactly when one variable holds it, and no block is held by
    two. At the clean level no block is lost. -/
def Holds (l : Level) (o : Own) (M : Mem) : Prop :=
  ∀ b, o b = (if M b = .live then 1 else 0) ∧ (l = .clean → M b ≠ .lost)

theorem Holds.re {l : Level} {o o' : Own} {M : Mem} (h : Holds l o M) (e : ∀ x, o' x = o x) : Holds l o' M := by
  rw [own_ext e]; exact h

theorem Holds.live {l : Level} {o : Own} {M : Mem} (h : Holds l o M) {b : Nat} (hb : 1 ≤ o b) : M b = .live := by
  have := (h b).1
  split at this
  · assumption
  · omega

theorem Holds.le {l : Level} {o : Own} {M : Mem} (h : Holds l o M) (b : Nat) : o b ≤ 1 := by
  have := (h b).1
  split at this <;> omega

theorem Holds.set_live {l : Level} {o : Own} {M : Mem} (h : Holds l o M) {b : Nat} (hb : M b = .gone) :
    Holds l (one b + o) (M.set b .live) := by
  intro x
  have hx := h x
  rw [add_ap]
  by_cases e : x = b
  · subst e
    rw [hb] at hx
    simpa [one, Mem.set] using hx.1
  · simpa [one, Mem.set, e] using hx

theorem Holds.set_dead {l : Level} {o : Own} {M : Mem} (h : Holds l o M) {b : Nat} (hb : 1 ≤ o b) {c : Cell}
    (hc : c = .gone ∨ c = .lost ∧ l ≠ .clean) : Holds l (o - one b) (M.set b c) := by
  intro x
  have hx := h x
  rw [sub_ap]
  by_cases e : x = b
  · subst e
    rw [h.live hb] at hx
    have hx1 : o x = 1 := by simpa using hx.1
    obtain rfl | ⟨rfl, hl⟩ := hc
    · simp [one, Mem.set, hx1]
    · simp [one, Mem.set, hx1, hl]
  · simpa [one, Mem.set, e] using hx

/-! ### rules -/

section rules
variable {l : Level} {α β : Type} {M : Mem} {o : Own} {Q : β → Mem → Prop}

theorem wp_call {p : Prog α} {P : α → Mem → Prop} {k : α → Prog β} (h : wp l p P M)
    (hk : ∀ a M, P a M → wp l (k a) Q M) : wp l (p >>= k) Q M := wp_bind.2 (wp_mono h hk)

theorem wp_malloc {k : Nat → Prog β} (h : Holds l o M) (hk : ∀ b M, Holds l (one b + o) M → wp l (k b) Q M) :
    wp l (malloc >>= k) Q M := fun b hb => hk b _ (h.set_live hb)

theorem wp_freeb {b : Nat} {k : Unit → Prog β} (h : Holds l o M) (hb : 1 ≤ o b)
    (hk : ∀ M, Holds l (o - one b) M → wp l (k ()) Q M) : wp l (freeb b >>= k) Q M :=
  ⟨h.live hb, hk _ (h.set_dead hb (.inl rfl))⟩

theorem wp_free_none {k : Unit → Prog β} (hk : wp l (k ()) Q M) : wp l (free none >>= k) Q M := hk

theorem wp_free_some {b : Nat} {k : Unit → Prog β} (h : Holds l o M) (hb : 1 ≤ o b)
    (hk : ∀ M, Holds l (o - one b) M → wp l (k ()) Q M) : wp l (free (some b) >>= k) Q M :=
  ⟨h.live hb, hk _ (h.set_dead hb (.inl rfl))⟩

theorem wp_free {p : Option Nat} {k : Unit → Prog β} (h : Holds l o M) (hb : ∀ b, p = some b → 1 ≤ o b)
    (hk : ∀ M, Holds l (o - cnt p.toList) M → wp l (k ()) Q M) : wp l (free p >>= k) Q M := by
  cases p with
  | none => exact hk M (h.re fun x => by simp [sub_ap, cnt_nil])
  | some b => exact wp_free_some h (hb b rfl) fun M h => hk M (h.re fun x => by rw [sub_ap, sub_ap, cnt_toList_some])

theorem wp_useb {b : Nat} {k : Unit → Prog β} (h : Holds l o M) (hb : 1 ≤ o b) (hk : wp l (k ()) Q M) :
    wp l (useb b >>= k) Q M := ⟨h.live hb, hk⟩

theorem wp_use_some {b : Nat} {k : Unit → Prog β} (h : Holds l o M) (hb : 1 ≤ o b) (hk : wp l (k ()) Q M) :
    wp l (use (some b) >>= k) Q M := ⟨h.live hb, hk⟩

theorem wp_ask {k : Nat → Prog β} (hk : ∀ a, wp l (k a) Q M) : wp l (ask >>= k) Q M := fun a => hk a

theorem wp_lose {b : Nat} {k : Unit → Prog β} (h : Holds l o M) (hb : 1 ≤ o b)
    (hk : ∀ M, Holds l (o - one b) M → wp l (k ()) Q M) : wp l (lose b >>= k) Q M :=
  fun hl _ => hk _ (h.set_dead hb (.inr ⟨rfl, hl⟩))

theorem wp_hazard {g : Hazard} {k : Unit → Prog β} (hl : l ≠ .any) : wp l (hazard g >>= k) Q M :=
  fun h => absurd h hl

theorem wp_pure {a : β} (h : Q a M) : wp l (pure a) Q M := h
theorem wp_die : wp l .die Q M := trivial

theorem wp_pure_bind {a : α} {k : α → Prog β} (h : wp l (k a) Q M) : wp l (pure a >>= k) Q M := h

theorem wp_ite {c : Prop} [Decidable c] {p q : Prog β} (ht : c → wp l p Q M) (hf : ¬c → wp l q Q M) :
    wp l (if c then p else q) Q M := by
  split
  · exact ht ‹_›
  · exact hf ‹_›

theorem wp_realloc {b : Nat} {k : Nat → Prog β} (h : Holds l o M) (hb : 1 ≤ o b)
    (hk : ∀ c M, Holds l (one c + (o - one b)) M → wp l (k c) Q M) : wp l (realloc b >>= k) Q M := by
  rw [wp_bind]
  refine wp_useb h hb (wp_freeb h hb fun M h => ?_)
  exact fun c hc => hk c _ (h.set_live hc)

theorem wp_reallocp {p : Option Nat} {k : Nat → Prog β} (h : Holds l o M) (hb : ∀ b, p = some b → 1 ≤ o b)
    (hk : ∀ c M, Holds l (one c + (o - cnt p.toList)) M → wp l (k c) Q M) : wp l (reallocp p >>= k) Q M := by
  cases p with
  | none => exact wp_malloc h fun c M h => hk c M (h.re fun x => by simp [add_ap, sub_ap, cnt_nil])
  | some b => exact wp_realloc h (hb b rfl) fun c M h => hk c M (h.re fun x => by simp only [add_ap, sub_ap, cnt_toList_some])

end rules

/-! ### blocks that can be used -/

/-- Every block of the list is held. -/
def Av (o : Own) (l : List Nat) : Prop := ∀ b ∈ l, 1 ≤ o b

theorem Av.mono {o o' : Own} {l : List Nat} (h : Av o l) (e : ∀ x, o x ≤ o' x) : Av o' l :=
  fun b hb => Nat.le_trans (h b hb) (e b)

theorem Av.sub {o : Own} {l l' : List Nat} (h : Av o l) (e : ∀ b ∈ l', b ∈ l) : Av o l' := fun b hb => h b (e b hb)

theorem Av.of_le {o : Own} {l : List Nat} (e : ∀ x, cnt l x ≤ o x) : Av o l := by
  intro b hb
  have : 1 ≤ cnt l b := List.count_pos_iff.2 hb
  exact Nat.le_trans this (e b)

theorem Av.append {o : Own} {l m : List Nat} (h : Av o l) (h' : Av o m) : Av o (l ++ m) := by
  intro b hb
  rcases List.mem_append.1 hb with hb | hb
  · exact h b hb
  · exact h' b hb

/-- The replies of a list. -/
def rs (q : List Resp) : Own := cnt (respBlocks q)

theorem respBlocks_append (q e : List Resp) : respBlocks (q ++ e) = respBlocks q ++ respBlocks e := by
  simp [respBlocks]

theorem rs_append (q e : List Resp) (x : Nat) : rs (q ++ e) x = rs q x + rs e x := by
  rw [rs, respBlocks_append, cnt_append]; rfl

theorem rs_nil (x : Nat) : rs [] x = 0 := rfl

theorem rs_cons (r : Resp) (q : List Resp) (x : Nat) : rs (r :: q) x = one r.node x + (one r.buf x + rs q x) := by
  simp only [rs, respBlocks, List.flatMap_cons, List.cons_append, List.nil_append, cnt_cons]

/-- A command has added replies to the queue, and memory is otherwise as before. -/
def Ext (l : Level) (o : Own) (q q' : List Resp) (M : Mem) : Prop := ∃ e, q' = q ++ e ∧ Holds l (rs e + o) M

theorem Ext.rfl {l : Level} {o : Own} {q : List Resp} {M : Mem} (h : Holds l o M) : Ext l o q q M :=
  ⟨[], by simp, h.re fun x => by rw [add_ap, rs_nil]; omega⟩

theorem Ext.re {l : Level} {o o' : Own} {q q' : List Resp} {M : Mem} (h : Ext l o q q' M) (e : ∀ x, o' x = o x) :
    Ext l o' q q' M := by
  rw [own_ext e]; exact h

theorem Ext.trans {l : Level} {o : Own} {q q' : List Resp} {e : List Resp} {M : Mem}
    (h : Ext l (rs e + o) (q ++ e) q' M) : Ext l o q q' M := by
  obtain ⟨f, rfl, h⟩ := h
  exact ⟨e ++ f, by simp, h.re fun x => by simp only [add_ap, rs_append]; omega⟩

theorem Av.ext {o : Own} {q e : List Resp} (h : Av o (respBlocks q)) : Av (rs e + o) (respBlocks (q ++ e)) := by
  rw [respBlocks_append]
  exact (h.mono (by own)).append (Av.of_le fun x => by rw [add_ap, rs]; omega)

end Zdb.Heap
