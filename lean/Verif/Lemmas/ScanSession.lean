/-
Sessions of SCAN and RSCAN follow the log.
-/
import Verif.Lemmas.ScanDown
import Verif.Lemmas.UserRun
import Verif.Spec.Session
namespace Zdb

/-! ### cursors -/

theorem Core.items {mode : Nat} {df : Loc → Nat} {s : Store} {G : Log} (h : Core mode df s G) :
    ItemsOK G := fun l hl => (h.recs l hl).wf

theorem cursorOf_stat {a b : Loc} (h : a.stat = b.stat) : cursorOf a.scanned = cursorOf b.scanned := by
  simp only [Loc.stat, Loc.mk.injEq, Rec.mk.injEq, Item.mk.injEq] at h
  simp only [cursorOf, Loc.scanned]
  obtain ⟨h1, h2, ⟨h3, h4, h5, h6, h7, h8, h9, h10, h11, h12, h13⟩, h14⟩ := h
  rw [h1, h2, h3, h5, h10]

theorem Core.cursor {mode : Nat} {df : Loc → Nat} {s : Store} {G : Log} (h : Core mode df s G)
    {l : Loc} (hl : l ∈ locs G) :
    (cursorOf l.scanned).length = bkeyLen ∧
    cursorPos s (decBKey (cursorOf l.scanned)) = some (l.file, l.off) ∧
    cursorOverrun s (decBKey (cursorOf l.scanned)) = false := by
  have hw := (h.recs l hl).wf
  obtain ⟨f, hf, hr⟩ := h.readItem hl
  have hfile : l.file < 2 ^ 32 := by have := mem_locs_lt hl; have := h.files; omega
  have hoff := h.offs l hl
  refine ⟨by simp [cursorOf, bkeyLen], ?_⟩
  rw [cursorOf, decBKey_encBKey]
  · simp only [cursorPos, cursorOverrun, Loc.scanned, itemGetDisk, hf, hw.1, hr, Option.map_some,
      decItem_encItem _ hw]
    simp
  · refine ⟨?_, hfile, ?_, hoff, ?_⟩
    · simp only [Loc.scanned]; rw [hw.1]; exact hw.2.1
    · exact hw.2.2.2.1
    · exact hw.2.2.2.2.2.2.2.2.1

/-- SCAN with the cursor of a record. -/
theorem Core.scanCursor {mode : Nat} {df : Loc → Nat} {s : Store} {G : Log} (h : Core mode df s G)
    (hlen : G.length < 2 ^ 32) {c : Ctx} (hf : c.conf.isFrozen = false) {A B : List Loc} {l : Loc}
    (hl : locs G = A ++ l :: B) (n : Bytes) (rest : List Bytes) :
    cmdScan c s (n :: cursorOf l.scanned :: rest) =
      replyScan (((B.filter Loc.live).take c.slice).map Loc.scanned) := by
  have hc := h.cursor (l := l) (by rw [hl]; simp)
  simp only [cmdScan, scanWith, hf, hc.1, hc.2.1, hc.2.2, scanLoop_eq h.irep h.items hlen _ hl]
  simp

/-- RSCAN with the cursor of a record. -/
theorem Core.rscanCursor {mode : Nat} {df : Loc → Nat} {s : Store} {G : Log} (h : Core mode df s G)
    (hlen : G.length < 2 ^ 32) (hne : NoEmpty G) {c : Ctx} (hf : c.conf.isFrozen = false)
    {A B : List Loc} {l : Loc} (hl : locs G = A ++ l :: B) (n : Bytes) (rest : List Bytes) :
    cmdRscan c s (n :: cursorOf l.scanned :: rest) =
      replyScan (((A.reverse.filter Loc.live).take c.slice).map Loc.scanned) := by
  have hc := h.cursor (l := l) (by rw [hl]; simp)
  simp only [cmdRscan, scanWith, hf, hc.1, hc.2.1, hc.2.2, rscanLoop_eq h.irep h.items h.prevs hlen hne _ hl]
  simp

/-! ### rows -/

def Loc.row (l : Loc) : Reply := scanRow l.id l.r.item.length l.r.item.timestamp

theorem asInt32_eq {n : Nat} (h : n < 2 ^ 32) : asInt32 n = shown n := by
  simp [asInt32, shown, Nat.mod_eq_of_lt h]

theorem Item.WF.ranges {it : Item} (h : it.WF) : it.length < 2 ^ 32 ∧ it.timestamp < 2 ^ 32 :=
  ⟨h.2.2.2.1, h.2.2.2.2.2.2.2.1⟩

theorem replyScan_rows {L : List Loc} (hw : ∀ l ∈ L, l.r.item.WF) {X : List Loc} {m : Loc}
    (hL : L = X ++ [m]) :
    replyScan (L.map Loc.scanned) = .arr [.bulk (cursorOf m.scanned), .arr (L.map Loc.row)] := by
  have h1 : (L.map Loc.scanned).getLast? = some m.scanned := by rw [hL]; simp
  simp only [replyScan, h1, List.map_map]
  congr 4
  apply List.map_congr_left
  intro l hl
  have := (hw l hl).ranges
  simp only [Function.comp, Loc.scanned, Loc.row, scanRow, Loc.id, asInt32_eq this.1,
    asInt32_eq this.2]

/-- What a reply of SCAN tells: a part of the list was sent, or there was nothing to send. -/
theorem replyScan_cases {L : List Loc} {n : Nat} (hw : ∀ l ∈ L, l.r.item.WF) :
    (L.take n = [] ∧ replyScan ((L.take n).map Loc.scanned) = .err "No more data") ∨
    (∃ X m Y, L = X ++ m :: Y ∧ X.length < n ∧ replyScan ((L.take n).map Loc.scanned) =
      .arr [.bulk (cursorOf m.scanned), .arr ((X ++ [m]).map Loc.row)]) := by
  rcases List.eq_nil_or_concat (L.take n) with h | ⟨X, m, h⟩
  · left; rw [h]; exact ⟨rfl, rfl⟩
  · right
    rw [List.concat_eq_append] at h
    refine ⟨X, m, L.drop n, ?_, ?_, ?_⟩
    · have := (List.take_append_drop n L).symm
      rw [h] at this; simpa using this
    · have := congrArg List.length h
      simp at this; omega
    · rw [replyScan_rows (fun l hl => hw l (List.mem_of_mem_take hl)) h, h]

/-- Rows of the live records whose key satisfies `Q`. -/
def qRows (Q : Bytes → Bool) (L : List Loc) : List Reply :=
  (L.filter (fun l => l.live && Q l.id)).map Loc.row

theorem qRows_append (Q : Bytes → Bool) (a b : List Loc) : qRows Q (a ++ b) = qRows Q a ++ qRows Q b := by
  simp [qRows]

theorem qRows_rows (Q : Bytes → Bool) (L : List Loc) :
    (((L.filter Loc.live).map Loc.row).filter (rowFor Q)) = qRows Q L := by
  rw [List.filter_map, List.filter_filter, qRows]
  congr 1
  apply List.filter_congr
  intro l _
  rw [Bool.and_comm]
  rfl

theorem qRows_kills {P : Bytes → Prop} {Q : Bytes → Bool} (hq : ∀ k, Q k = true → ¬ P k) {a b : List Loc}
    (h : Kills P a b) : qRows Q b = qRows Q a := by
  induction a generalizing b with
  | nil =>
    cases b with
    | nil => rfl
    | cons _ _ => exact absurd h id
  | cons x a ih =>
    cases b with
    | nil => exact absurd h id
    | cons y b =>
      have := ih h.2
      obtain ⟨h1, h2, h3⟩ := h.1
      have hid : y.id = x.id := by
        simp only [Loc.stat, Loc.mk.injEq, Rec.mk.injEq, Item.mk.injEq] at h1
        exact h1.2.2.1.2.2.2.2.2.2.2.2.2.2.symm
      have hrow : y.row = x.row := by
        simp only [Loc.stat, Loc.mk.injEq, Rec.mk.injEq, Item.mk.injEq] at h1
        obtain ⟨-, -, ⟨-, -, e1, -, -, -, e2, -⟩, -⟩ := h1
        simp only [Loc.row, hid]
        simp_all
      simp only [qRows, List.filter_cons] at this ⊢
      rw [hid]
      by_cases hQ : Q x.id = true
      · have hl : y.live = x.live := by
          cases hy : y.live with
          | true => rw [h2 hy]
          | false =>
            cases hx : x.live with
            | false => rfl
            | true => exact absurd (h3 hx hy) (hq _ hQ)
        rw [hl]
        cases hx : (x.live && Q x.id) with
        | true => simp only [if_true, List.map_cons, hrow, this]
        | false => simpa using this
      · have hQ' : Q x.id = false := by simpa using hQ
        simpa [hQ'] using this

theorem qRows_new {P : Bytes → Prop} {Q : Bytes → Bool} (hq : ∀ k, Q k = true → ¬ P k) {E : List Loc}
    (h : ∀ e ∈ E, P e.id ∧ e.live = true) : qRows Q E = [] := by
  rw [qRows, List.map_eq_nil_iff, List.filter_eq_nil_iff]
  intro e he hc
  rw [Bool.and_eq_true] at hc
  exact hq _ hc.2 (h e he).1

/-! ### one event -/

/-- One event of an execution, with what it does to the log. -/
theorem UInv.step {cfg : Option Mode} (hcfg : cfg = none ∨ cfg = some .user) {u : Nat} {br br2 : Branches}
    {s s2 : Store} {x : NsEvent × Reply} {tr : List (NsEvent × Reply)}
    (hr : NsRun cfg u br s (x :: tr) br2 s2) {G : Log} (h : UInv br u s G) (hev : EvOK x.1) {n : Nat}
    (hroom : Room s.ifiles.length (totalData s) (n + 1)) :
    ∃ br1 s1 G1, UInv br1 u s1 G1 ∧ LogStep (Writes x) G G1 ∧ NsRun cfg u br1 s1 tr br2 s2 ∧
      Room s1.ifiles.length (totalData s1) n ∧
      ∀ c d argv, x.1 = .cmd c d argv → (dsCommand c br s d argv).2.2 = x.2 ∧
        (d.changes = false → br1 = br ∧ s1 = s ∧ G1 = G) := by
  cases hr with
  | @cmd c d argv br br1 br2 s s1 s2 r tr hu h1 h2 =>
    subst hu
    obtain ⟨hc, ha⟩ := hev
    have hg := dsCommand_grows c br s d argv (2 ^ 23) ha.size
    by_cases hd : d.changes = false
    · rw [dsCommand_same c br s d argv hd] at h1
      injection h1 with h1 h1'
      injection h1' with h1' h1''
      subst h1; subst h1'
      refine ⟨br, s, G, h, LogStep.refl _ _, h2, hroom.mono (by omega), ?_⟩
      intro c' d' argv' he
      cases he
      exact ⟨h1'', fun _ => ⟨rfl, rfl, rfl⟩⟩
    · obtain ⟨G1, i1, i2, i3, i4⟩ := h.command hc d argv ha (hroom.mono (by omega))
      rw [h1] at i1 i3 i4 hg
      refine ⟨br1, s1, G1, i1, i4, h2, hroom.step hg (by omega), ?_⟩
      intro c' d' argv' he
      cases he
      exact ⟨by rw [h1], fun a => absurd a hd⟩
  | @foreign br br1 br2 s s2 tr h1 h2 =>
    exact ⟨br1, s, G, h.foreign h1, LogStep.refl _ _, h2, hroom.mono (by omega),
      fun _ _ _ he => by cases he⟩
  | @reload br br1 br2 s s1 s2 tr h1 h2 =>
    have hlen := h.irep.length
    obtain ⟨b, t, k1, k2, k3, k4, -⟩ := h.reload cfg hcfg (by have := hroom.1; omega)
    rw [h1] at k1
    injection k1 with k1 k1'
    subst k1; subst k1'
    exact ⟨br1, s1, G, k2, LogStep.refl _ _, h2,
      by rw [k3, totalData, k4]; exact hroom.mono (by omega), fun _ _ _ he => by cases he⟩

/-! ### sessions of SCAN -/

/-- Where a client with a cursor is in the log: `rem` is what it has not seen yet. -/
def AtCursor (G : Log) (cur : Option Bytes) (rem : List Loc) : Prop :=
  match cur with
  | none => rem = locs G
  | some b => ∃ A l, locs G = A ++ l :: rem ∧ b = cursorOf l.scanned

theorem AtCursor.step {P : Bytes → Prop} {Q : Bytes → Bool} (hq : ∀ k, Q k = true → ¬ P k) {G G' : Log}
    (hs : LogStep P G G') {cur : Option Bytes} {rem : List Loc} (h : AtCursor G cur rem) :
    ∃ rem', AtCursor G' cur rem' ∧ qRows Q rem' = qRows Q rem := by
  obtain ⟨-, L, E, h1, h2, h3⟩ := hs
  cases cur with
  | none =>
    refine ⟨locs G', rfl, ?_⟩
    have h' : rem = locs G := h
    rw [h', h1, qRows_append, qRows_kills hq h2, qRows_new hq (fun e he => (h3 e he).1), List.append_nil]
  | some b =>
    obtain ⟨A, l, hl, rfl⟩ := h
    rw [hl] at h2
    obtain ⟨A', M, rfl, h4, h5⟩ := h2.split
    cases M with
    | nil => exact absurd h5 id
    | cons l' B' =>
      refine ⟨B' ++ E, ⟨A', l', by rw [h1]; simp, cursorOf_stat h5.1.1⟩, ?_⟩
      rw [qRows_append, qRows_kills hq h5.2, qRows_new hq (fun e he => (h3 e he).1), List.append_nil]

theorem AtCursor.items {G : Log} (hw : ItemsOK G) {cur : Option Bytes} {rem : List Loc}
    (h : AtCursor G cur rem) : ∀ l ∈ rem.filter Loc.live, l.r.item.WF := by
  intro l hl
  apply hw
  have hl' := (List.mem_filter.1 hl).1
  cases cur with
  | none => rw [show rem = locs G from h] at hl'; exact hl'
  | some b =>
    obtain ⟨A, m, hG, -⟩ := h
    rw [hG]; simp [hl']

/-- Moving to the last record sent. -/
theorem AtCursor.move {G : Log} {cur : Option Bytes} {rem : List Loc} (h : AtCursor G cur rem)
    {X Y : List Loc} {m : Loc} (hm : rem.filter Loc.live = X ++ m :: Y) :
    ∃ R1 R2, rem = R1 ++ R2 ∧ R1.filter Loc.live = X ++ [m] ∧ R2.filter Loc.live = Y ∧
      AtCursor G (some (cursorOf m.scanned)) R2 := by
  rw [List.filter_eq_append_iff] at hm
  obtain ⟨l1, l2, rfl, h1, h2⟩ := hm
  rw [List.filter_eq_cons_iff] at h2
  obtain ⟨a, b, rfl, h3, h4, h5⟩ := h2
  refine ⟨l1 ++ a ++ [m], b, by simp, ?_, h5, ?_⟩
  · rw [List.filter_append, List.filter_append, h1, List.filter_eq_nil_iff.2 h3]
    simp [h4]
  · cases cur with
    | none =>
      have h' : l1 ++ (a ++ m :: b) = locs G := h
      exact ⟨l1 ++ a, m, by rw [← h']; simp, rfl⟩
    | some c =>
      obtain ⟨A, l, hl, -⟩ := h
      exact ⟨A ++ l :: (l1 ++ a), m, by rw [hl]; simp, rfl⟩

/-- The reply of a call of a session: everything still to see was seen, or a part of it is sent. -/
theorem Core.scanAt {mode : Nat} {df : Loc → Nat} {s : Store} {G : Log} (h : Core mode df s G)
    (hlen : G.length < 2 ^ 32) {cur : Option Bytes} {rem : List Loc} (ha : AtCursor G cur rem)
    {c : Ctx} (hf : c.conf.isFrozen = false) (n : Bytes) :
    ∃ k, c.slice ≤ k ∧ (cur = none → 1 ≤ k) ∧ cmdScan c s (n :: cur.toList) =
      replyScan (((rem.filter Loc.live).take k).map Loc.scanned) := by
  cases cur with
  | none =>
    have h' : rem = locs G := ha
    exact ⟨c.slice + 1, by omega, fun _ => by omega, by
      rw [h']; exact cmdScan_start h.irep h.items h.ne hlen hf n⟩
  | some b =>
    obtain ⟨A, l, hl, rfl⟩ := ha
    exact ⟨c.slice, Nat.le_refl _, fun h => (by cases h), h.scanCursor hlen hf hl n []⟩

/-- A call of a session answered by rows. -/
theorem Core.scanMore {mode : Nat} {df : Loc → Nat} {s : Store} {G : Log} (h : Core mode df s G)
    (hlen : G.length < 2 ^ 32) {cur : Option Bytes} {rem : List Loc} (ha : AtCursor G cur rem)
    {c : Ctx} {n cur' : Bytes} {rows : List Reply}
    (hr : cmdScan c s (n :: cur.toList) = .arr [.bulk cur', .arr rows]) :
    ∃ R1 R2, rem = R1 ++ R2 ∧ rows = (R1.filter Loc.live).map Loc.row ∧ AtCursor G (some cur') R2 := by
  have hf : c.conf.isFrozen = false := by
    apply Classical.byContradiction
    intro hn
    have hn' : c.conf.isFrozen = true := by simpa using hn
    simp [cmdScan, scanWith, hn', errFrozen] at hr
  obtain ⟨k, -, -, hk⟩ := h.scanAt hlen ha hf n
  rw [hk] at hr
  rcases replyScan_cases (n := k) (ha.items h.items) with ⟨-, h2⟩ | ⟨X, m, Y, h1, -, h2⟩
  · rw [h2] at hr; cases hr
  · rw [h2] at hr
    simp only [Reply.arr.injEq, List.cons.injEq, Reply.bulk.injEq, and_true] at hr
    obtain ⟨rfl, rfl⟩ := hr
    obtain ⟨R1, R2, e1, e2, -, e4⟩ := ha.move h1
    exact ⟨R1, R2, e1, by rw [e2], e4⟩

/-- A call of a session answered by the end marker. -/
theorem Core.scanStop {mode : Nat} {df : Loc → Nat} {s : Store} {G : Log} (h : Core mode df s G)
    (hlen : G.length < 2 ^ 32) {cur : Option Bytes} {rem : List Loc} (ha : AtCursor G cur rem)
    {c : Ctx} {n : Bytes} (hsl : 1 ≤ c.slice)
    (hr : cmdScan c s (n :: cur.toList) = .err "No more data") : rem.filter Loc.live = [] := by
  have hf : c.conf.isFrozen = false := by
    apply Classical.byContradiction
    intro hn
    have hn' : c.conf.isFrozen = true := by simpa using hn
    simp [cmdScan, scanWith, hn', errFrozen] at hr
  obtain ⟨k, hk1, -, hk⟩ := h.scanAt hlen ha hf n
  rw [hk] at hr
  rcases replyScan_cases (n := k) (ha.items h.items) with ⟨h1, -⟩ | ⟨X, m, Y, h1, -, h2⟩
  · cases hL : rem.filter Loc.live with
    | nil => rfl
    | cons a L =>
      rw [hL] at h1
      obtain ⟨k', rfl⟩ : ∃ k', k = k' + 1 := ⟨k - 1, by omega⟩
      simp at h1
  · rw [h2] at hr; cases hr

theorem UInv.session {cfg : Option Mode} (hcfg : cfg = none ∨ cfg = some .user) {u : Nat}
    {br2 : Branches} {s2 : Store} {cur : Option Bytes} {seg : List (Bool × (NsEvent × Reply))}
    {rows : List Reply} (hS : Session .scan cur seg rows) (hsl : Sliced seg) {Q : Bytes → Bool}
    (hq : ∀ x ∈ seg, ∀ k, Q k = true → writeOf k x.2 = none) :
    ∀ {br : Branches} {s : Store} {G : Log} {rem : List Loc},
      NsRun cfg u br s (seg.map (·.2)) br2 s2 → UInv br u s G → (∀ x ∈ seg, EvOK x.2.1) →
      Room s.ifiles.length (totalData s) seg.length → AtCursor G cur rem →
      rows.filter (rowFor Q) = qRows Q rem ∧ ∀ r ∈ rows, ∃ l : Loc, r = l.row := by
  have hP : ∀ x : NsEvent × Reply, (∀ k, Q k = true → writeOf k x = none) →
      ∀ k, Q k = true → ¬ Writes x k := fun x hx k hk hw => hw (hx k hk)
  have hsplit : ∀ {s : Store} {u : Nat} {br : Branches} {G : Log} {n : Nat}, UInv br u s G →
      Room s.ifiles.length (totalData s) n → G.length < 2 ^ 32 := by
    intro s u br G n h hroom
    have := h.irep.length; have := hroom.1; omega
  induction hS with
  | @other cur x seg rows _ ih =>
    intro br s G rem hr h hev hroom ha
    rw [List.map_cons] at hr
    obtain ⟨br1, s1, G1, i1, i2, i3, i4, -⟩ := h.step hcfg hr (hev _ (List.mem_cons_self ..)) hroom
    obtain ⟨rem', j1, j2⟩ := ha.step (hP x (hq _ (List.mem_cons_self ..))) i2
    rw [← j2]
    exact ih (fun y hy => hsl y (List.mem_cons_of_mem _ hy)) (fun y hy => hq y (List.mem_cons_of_mem _ hy))
      i3 i1 (fun y hy => hev y (List.mem_cons_of_mem _ hy)) i4 j1
  | @stop cur c n =>
    intro br s G rem hr h hev hroom ha
    rw [List.map_cons] at hr
    obtain ⟨br1, s1, G1, i1, i2, i3, i4, i5⟩ := h.step hcfg hr (hev _ (List.mem_cons_self ..)) hroom
    have hrep := (i5 _ _ _ rfl).1
    simp only [dsCommand] at hrep
    have h1 := hsl _ (List.mem_cons_self ..) _ _ _ _ rfl
    have := h.toCore.scanStop (hsplit h hroom) ha h1 hrep
    rw [← qRows_rows, this]; exact ⟨rfl, by simp⟩
  | @more cur c n cur' rows rows' seg _ ih =>
    intro br s G rem hr h hev hroom ha
    rw [List.map_cons] at hr
    obtain ⟨br1, s1, G1, i1, i2, i3, i4, i5⟩ := h.step hcfg hr (hev _ (List.mem_cons_self ..)) hroom
    have hrep := (i5 _ _ _ rfl).1
    obtain ⟨rfl, rfl, rfl⟩ := (i5 _ _ _ rfl).2 rfl
    simp only [dsCommand] at hrep
    obtain ⟨R1, R2, rfl, rfl, e3⟩ := h.toCore.scanMore (hsplit h hroom) ha hrep
    have := ih (fun y hy => hsl y (List.mem_cons_of_mem _ hy)) (fun y hy => hq y (List.mem_cons_of_mem _ hy))
      i3 h (fun y hy => hev y (List.mem_cons_of_mem _ hy)) i4 e3
    refine ⟨by rw [List.filter_append, this.1, qRows_rows, qRows_append], ?_⟩
    intro r hr
    rcases List.mem_append.1 hr with hr | hr
    · obtain ⟨l, -, rfl⟩ := List.mem_map.1 hr
      exact ⟨l, rfl⟩
    · exact this.2 r hr

/-- The rows of a log are those of its map. -/
theorem UInv.qRows_eq {br : Branches} {u : Nat} {s : Store} {G : Log} (h : UInv br u s G)
    (Q : Bytes → Bool) : qRows Q (locs G) =
      ((absKV G).filter (fun x => Q x.1)).map (fun x => scanRow x.1 x.2.payload.length x.2.time) := by
  rw [absKV, List.filter_map, List.map_map, qRows, live, List.filter_filter]
  have : (locs G).filter (fun l => l.live && Q l.id) =
      (locs G).filter (fun a => ((fun x => Q x.1) ∘ fun l => (l.id, Loc.val (locs G) l)) a && a.live) := by
    apply List.filter_congr
    intro l _
    exact Bool.and_comm _ _
  rw [← this]
  apply List.map_congr_left
  intro l hl
  have := (h.recs l (List.mem_filter.1 hl).1).len
  simp only [Function.comp, Loc.row, Loc.val, this]

/-! ### executions cut in two -/

theorem NsRun.split {cfg : Option Mode} {u : Nat} {a b : List (NsEvent × Reply)} :
    ∀ {br br2 : Branches} {s s2 : Store}, NsRun cfg u br s (a ++ b) br2 s2 →
      ∃ br1 s1, NsRun cfg u br s a br1 s1 ∧ NsRun cfg u br1 s1 b br2 s2 := by
  induction a with
  | nil => intro br br2 s s2 h; exact ⟨br, s, .nil _ _, h⟩
  | cons x a ih =>
    intro br br2 s s2 h
    rw [List.cons_append] at h
    cases h with
    | cmd c d argv hu h1 h2 =>
      obtain ⟨br1, s1, k1, k2⟩ := ih h2
      exact ⟨br1, s1, .cmd c d argv hu h1 k1, k2⟩
    | foreign h1 h2 =>
      obtain ⟨br1, s1, k1, k2⟩ := ih h2
      exact ⟨br1, s1, .foreign h1 k1, k2⟩
    | reload h1 h2 =>
      obtain ⟨br1, s1, k1, k2⟩ := ih h2
      exact ⟨br1, s1, .reload h1 k1, k2⟩

theorem NsRun.roomLeft {cfg : Option Mode} (hcfg : cfg = none ∨ cfg = some .user) {u : Nat}
    {tr : List (NsEvent × Reply)} : ∀ {br br' : Branches} {s s' : Store} {G : Log},
      NsRun cfg u br s tr br' s' → UInv br u s G → (∀ x ∈ tr, EvOK x.1) → ∀ {n : Nat},
      Room s.ifiles.length (totalData s) (tr.length + n) → Room s'.ifiles.length (totalData s') n := by
  induction tr with
  | nil =>
    intro br br' s s' G hr _ _ n hroom
    cases hr
    simpa using hroom
  | cons x tr ih =>
    intro br br' s s' G hr h hev n hroom
    obtain ⟨br1, s1, G1, i1, -, i3, i4, -⟩ := h.step hcfg hr (hev _ (List.mem_cons_self ..)) (n := tr.length + n)
      (by rw [List.length_cons] at hroom; exact hroom.mono (by omega))
    exact ih i3 i1 (fun y hy => hev y (List.mem_cons_of_mem _ hy)) i4

/-- An execution cut in two: the state in the middle. -/
theorem UserRun.cut {cfg : Option Mode} {u : Nat} {a b : List (NsEvent × Reply)} {br2 : Branches}
    {s2 : Store} (h : UserRun cfg u (a ++ b) br2 s2) :
    ∃ br1 s1, UserRun cfg u a br1 s1 ∧ NsRun cfg u br1 s1 b br2 s2 ∧
      Room s1.ifiles.length (totalData s1) b.length := by
  obtain ⟨br0, br, s, h0, h1, h2⟩ := h.run
  obtain ⟨br1, s1, k1, k2⟩ := h2.split
  have hev : ∀ x ∈ a, EvOK x.1 := fun x hx => h.ev x (List.mem_append_left _ hx)
  have hl := h.len
  rw [List.length_append] at hl
  refine ⟨br1, s1, ⟨h.hcfg, ⟨br0, br, s, h0, h1, k1⟩, hev, by omega⟩, k2, ?_⟩
  have hm : cfg.getD .user = .user := by rcases h.hcfg with rfl | rfl <;> rfl
  rw [freshNs_eq, hm] at h1
  injection h1 with h1 h1'
  subst h1; subst h1'
  exact k1.roomLeft h.hcfg (freshStore_uinv br0 u h0) hev (freshStore_room _ hl)

/-- A client keeps its place while other things happen. -/
theorem UInv.atCursor {cfg : Option Mode} (hcfg : cfg = none ∨ cfg = some .user) {u : Nat}
    {tr : List (NsEvent × Reply)} {cur : Option Bytes} : ∀ {br br' : Branches} {s s' : Store} {G : Log} {rem : List Loc},
      NsRun cfg u br s tr br' s' → UInv br u s G → (∀ x ∈ tr, EvOK x.1) →
      Room s.ifiles.length (totalData s) tr.length → AtCursor G cur rem →
      ∃ G' rem', UInv br' u s' G' ∧ AtCursor G' cur rem' := by
  induction tr with
  | nil =>
    intro br br' s s' G rem hr h _ _ ha
    cases hr
    exact ⟨G, rem, h, ha⟩
  | cons x tr ih =>
    intro br br' s s' G rem hr h hev hroom ha
    obtain ⟨br1, s1, G1, i1, i2, i3, i4, -⟩ := h.step hcfg hr (hev _ (List.mem_cons_self ..)) hroom
    obtain ⟨rem', j1, -⟩ := ha.step (Q := fun _ => false) (P := Writes x) (by simp) i2
    exact ih i3 i1 (fun y hy => hev y (List.mem_cons_of_mem _ hy)) i4 j1

/-- Index files with something after their header. -/
theorem IRep.noEmpty {mode : Nat} {fs : List Bytes} {G : Log} (h : IRep mode fs G)
    (hf : ∀ f ∈ fs, 29 < f.length) : NoEmpty G := by
  intro g hg h0
  obtain ⟨i, hi⟩ := List.getElem?_of_mem hg
  have hget := h.get i
  rw [hi, h0] at hget
  have := hf _ (List.mem_of_getElem? hget)
  simp [encFile] at this

end Zdb
