/-
Sessions of SCAN and RSCAN while nothing is written; both modes.
-/
import Verif.Lemmas.ScanSession
namespace Zdb

/-- The records a walk with the command `d` goes over. -/
def walked (d : DsCmd) (G : Log) : List Loc := if d = .rscan then (live G).reverse else live G

/-- Where a client with a cursor is in the walk: `rem` is what it has not seen yet. -/
def AtWalk (d : DsCmd) (G : Log) (cur : Option Bytes) (rem : List Loc) : Prop :=
  match cur with
  | none => rem = walked d G
  | some b => ∃ A l, walked d G = A ++ l :: rem ∧ b = cursorOf l.scanned

theorem AtWalk.mem {d : DsCmd} {G : Log} {cur : Option Bytes} {rem : List Loc} (h : AtWalk d G cur rem) :
    ∀ l ∈ rem, l ∈ locs G := by
  intro l hl
  have : l ∈ walked d G := by
    cases cur with
    | none => rw [show rem = walked d G from h] at hl; exact hl
    | some b => obtain ⟨A, m, hA, -⟩ := h; rw [hA]; simp [hl]
  rw [walked] at this
  split at this
  · exact (List.mem_filter.1 (List.mem_reverse.1 this)).1
  · exact (List.mem_filter.1 this).1

theorem AtWalk.move {d : DsCmd} {G : Log} {cur : Option Bytes} {X Y : List Loc} {m : Loc}
    (h : AtWalk d G cur (X ++ m :: Y)) : AtWalk d G (some (cursorOf m.scanned)) Y := by
  cases cur with
  | none =>
    have h' : X ++ m :: Y = walked d G := h
    exact ⟨X, m, h'.symm, rfl⟩
  | some b =>
    obtain ⟨A, l, hA, -⟩ := h
    exact ⟨A ++ l :: X, m, by rw [hA]; simp, rfl⟩

/-- The reply of SCAN or RSCAN somewhere in a walk. -/
theorem Core.walkReply {mode : Nat} {df : Loc → Nat} {s : Store} {G : Log} (h : Core mode df s G)
    (hlen : G.length < 2 ^ 32) {d : DsCmd} (hd : d = .scan ∨ d = .rscan)
    (hne : d = .rscan → locs G = [] ∨ NoEmpty G) {cur : Option Bytes} {rem : List Loc}
    (ha : AtWalk d G cur rem) {c : Ctx} (hf : c.conf.isFrozen = false) (br : Branches) (n : Bytes) :
    ∃ k, c.slice ≤ k ∧ (cur = none → 1 ≤ k) ∧
      dsCommand c br s d (n :: cur.toList) = (br, s, replyScan ((rem.take k).map Loc.scanned)) := by
  rcases hd with rfl | rfl
  · cases cur with
    | none =>
      have h' : rem = live G := ha
      refine ⟨c.slice + 1, by omega, fun _ => by omega, ?_⟩
      simp only [dsCommand, Option.toList]
      rw [h', cmdScan_start h.irep h.items h.ne hlen hf n]
    | some b =>
      obtain ⟨A, l, hA, rfl⟩ := ha
      have hA' : live G = A ++ l :: rem := hA
      rw [live, List.filter_eq_append_iff] at hA'
      obtain ⟨l1, l2, h1, -, h2⟩ := hA'
      rw [List.filter_eq_cons_iff] at h2
      obtain ⟨a, b, rfl, -, -, h5⟩ := h2
      refine ⟨c.slice, Nat.le_refl _, fun h => (by cases h), ?_⟩
      simp only [dsCommand, Option.toList]
      rw [h.scanCursor hlen hf (A := l1 ++ a) (B := b) (l := l) (by rw [h1]; simp) n [], h5]
  · have hne' := hne rfl
    cases cur with
    | none =>
      have h' : rem = (live G).reverse := ha
      refine ⟨c.slice + 1, by omega, fun _ => by omega, ?_⟩
      simp only [dsCommand, Option.toList]
      rw [h', cmdRscan_start h.irep h.items h.prevs hlen h.iid h.iprev hne' hf n]
    | some b =>
      obtain ⟨A, l, hA, rfl⟩ := ha
      have hA' : (live G).reverse = A ++ l :: rem := hA
      rw [live, ← List.filter_reverse, List.filter_eq_append_iff] at hA'
      obtain ⟨l1, l2, h1, -, h2⟩ := hA'
      rw [List.filter_eq_cons_iff] at h2
      obtain ⟨a, b, rfl, -, -, h5⟩ := h2
      have hG : locs G = b.reverse ++ l :: (l1 ++ a).reverse := by
        have := congrArg List.reverse h1
        simpa using this
      have hne2 : NoEmpty G := by
        rcases hne' with h0 | h0
        · rw [h0] at hG; simp at hG
        · exact h0
      refine ⟨c.slice, Nat.le_refl _, fun h => (by cases h), ?_⟩
      simp only [dsCommand, Option.toList]
      rw [h.rscanCursor hlen hne2 hf hG n [], List.reverse_reverse, h5]

theorem frozen_reply {c : Ctx} {br : Branches} {s : Store} {d : DsCmd} (hd : d = .scan ∨ d = .rscan)
    (hf : c.conf.isFrozen = true) (argv : List Bytes) : (dsCommand c br s d argv).2.2 = errFrozen := by
  rcases hd with rfl | rfl <;> simp [dsCommand, cmdScan, cmdRscan, scanWith, hf]

/-- What a session shows while nothing is written. -/
theorem Core.session {mode : Nat} {df : Loc → Nat} {s : Store} {G : Log} (h : Core mode df s G)
    (hlen : G.length < 2 ^ 32) {d : DsCmd} (hd : d = .scan ∨ d = .rscan)
    (hne : d = .rscan → locs G = [] ∨ NoEmpty G) {cfg : Option Mode} {u : Nat} {br br2 : Branches}
    {s2 : Store} {cur : Option Bytes} {seg : List (Bool × (NsEvent × Reply))} {rows : List Reply}
    (hS : Session d cur seg rows) (hsl : Sliced seg) (hq : Quiet seg) :
    ∀ {rem : List Loc}, NsRun cfg u br s (seg.map (·.2)) br2 s2 → AtWalk d G cur rem →
      rows = rem.map Loc.row := by
  have hdw : d.changes = false := by rcases hd with rfl | rfl <;> rfl
  have hsame : ∀ (c : Ctx) (d : DsCmd) (argv : List Bytes), d.changes = false →
      dsCommand c br s d argv = (br, s, (dsCommand c br s d argv).2.2) := dsCommand_same (br := br) (s := s)
  induction hS with
  | @other cur x seg rows _ ih =>
    intro rem hr ha
    obtain ⟨c, d', argv, hx, h1⟩ := hq _ (List.mem_cons_self ..)
    obtain ⟨x1, x2⟩ := x
    simp only at hx
    subst hx
    rw [List.map_cons] at hr
    cases hr with
    | cmd _ _ _ hu k1 k2 =>
      rw [hsame _ _ _ h1] at k1
      injection k1 with k1 k1'
      injection k1' with k1' k1''
      subst k1; subst k1'
      exact ih (fun y hy => hsl y (List.mem_cons_of_mem _ hy)) (fun y hy => hq y (List.mem_cons_of_mem _ hy))
        k2 ha
  | @stop cur c n =>
    intro rem hr ha
    rw [List.map_cons] at hr
    cases hr with
    | cmd _ _ _ hu k1 k2 =>
      have hf : c.conf.isFrozen = false := by
        apply Classical.byContradiction
        intro hn
        have := frozen_reply (br := br) (s := s) hd (by simpa using hn) (n :: cur.toList)
        rw [k1] at this; simp [errFrozen] at this
      obtain ⟨k, e1, -, e3⟩ := h.walkReply hlen hd hne ha hf br n
      rw [e3] at k1
      injection k1 with k1 k1'
      injection k1' with k1' k1''
      have h1 := hsl _ (List.mem_cons_self ..) _ _ _ _ rfl
      rcases replyScan_cases (n := k) (L := rem) (fun l hl => h.items l (ha.mem l hl)) with ⟨h2, -⟩ | ⟨X, m, Y, -, -, h2⟩
      · cases rem with
        | nil => rfl
        | cons a rem =>
          obtain ⟨k', rfl⟩ : ∃ k', k = k' + 1 := ⟨k - 1, by omega⟩
          simp at h2
      · rw [h2] at k1''; cases k1''
  | @more cur c n cur' rows rows' seg _ ih =>
    intro rem hr ha
    rw [List.map_cons] at hr
    cases hr with
    | cmd _ _ _ hu k1 k2 =>
      have hf : c.conf.isFrozen = false := by
        apply Classical.byContradiction
        intro hn
        have := frozen_reply (br := br) (s := s) hd (by simpa using hn) (n :: cur.toList)
        rw [k1] at this; simp [errFrozen] at this
      obtain ⟨k, e1, -, e3⟩ := h.walkReply hlen hd hne ha hf br n
      rw [e3] at k1
      injection k1 with k1 k1'
      injection k1' with k1' k1''
      subst k1; subst k1'
      rcases replyScan_cases (n := k) (L := rem) (fun l hl => h.items l (ha.mem l hl)) with ⟨-, h2⟩ | ⟨X, m, Y, hX, -, h2⟩
      · rw [h2] at k1''; cases k1''
      · rw [h2] at k1''
        simp only [Reply.arr.injEq, List.cons.injEq, Reply.bulk.injEq, and_true] at k1''
        obtain ⟨rfl, rfl⟩ := k1''
        subst hX
        rw [ih (fun y hy => hsl y (List.mem_cons_of_mem _ hy)) (fun y hy => hq y (List.mem_cons_of_mem _ hy))
          k2 ha.move]
        simp

/-- A session can always be carried out, in at most one call more than there are records. -/
theorem Core.session_exists {mode : Nat} {df : Loc → Nat} {s : Store} {G : Log} (h : Core mode df s G)
    (hlen : G.length < 2 ^ 32) {d : DsCmd} (hd : d = .scan ∨ d = .rscan)
    (hne : d = .rscan → locs G = [] ∨ NoEmpty G) (cfg : Option Mode) {u : Nat} (br : Branches) (n : Bytes)
    (m : Nat) : ∀ (cs : Nat → Ctx), (∀ i, (cs i).u = u ∧ (cs i).conf.lock ≠ .frozen ∧ 1 ≤ (cs i).slice) →
    ∀ {cur : Option Bytes} {rem : List Loc}, AtWalk d G cur rem → rem.length ≤ m →
      ∃ (seg : List (Bool × (NsEvent × Reply))) (rows : List Reply), Session d cur seg rows ∧
        NsRun cfg u br s (seg.map (·.2)) br s ∧
        seg.length ≤ m + 1 ∧ OwnCalls d n cs seg := by
  induction m with
  | zero =>
    intro cs hcs cur rem ha hm
    obtain ⟨hu, hf, hs⟩ := hcs 0
    have hf' : (cs 0).conf.isFrozen = false := by
      cases h : (cs 0).conf.lock <;> simp_all [NsConf.isFrozen]
    have hr : rem = [] := List.length_eq_zero_iff.1 (by omega)
    obtain ⟨k, e1, -, e3⟩ := h.walkReply hlen hd hne ha hf' br n
    rw [hr] at e3
    refine ⟨[(true, (.cmd (cs 0) d (n :: cur.toList), .err "No more data"))], [], .stop, ?_, by simp, ?_⟩
    · exact .cmd _ _ _ hu (by rw [e3]; simp [replyScan]) (.nil _ _)
    · intro i x hx
      cases i with
      | zero => simp at hx; subst hx; exact ⟨rfl, _, rfl⟩
      | succ i => simp at hx
  | succ m ih =>
    intro cs hcs cur rem ha hm
    obtain ⟨hu, hf, hs⟩ := hcs 0
    have hf' : (cs 0).conf.isFrozen = false := by
      cases h : (cs 0).conf.lock <;> simp_all [NsConf.isFrozen]
    obtain ⟨k, e1, -, e3⟩ := h.walkReply hlen hd hne ha hf' br n
    rcases replyScan_cases (n := k) (L := rem) (fun l hl => h.items l (ha.mem l hl)) with ⟨-, h2⟩ | ⟨X, p, Y, hX, -, h2⟩
    · refine ⟨[(true, (.cmd (cs 0) d (n :: cur.toList), .err "No more data"))], [], .stop, ?_, by simp, ?_⟩
      · exact .cmd _ _ _ hu (by rw [e3, h2]) (.nil _ _)
      · intro i x hx
        cases i with
        | zero => simp at hx; subst hx; exact ⟨rfl, _, rfl⟩
        | succ i => simp at hx
    · subst hX
      obtain ⟨seg, rows, j1, j2, j3, j4⟩ := ih (fun i => cs (i + 1)) (fun i => hcs (i + 1)) ha.move
        (by simp at hm; omega)
      refine ⟨_, _, .more (c := cs 0) (name := n) (rows := (X ++ [p]).map Loc.row) j1, ?_, by simp; omega, ?_⟩
      · exact .cmd _ _ _ hu (by rw [e3, h2]) j2
      · intro i x hx
        cases i with
        | zero => simp at hx; subst hx; exact ⟨rfl, _, rfl⟩
        | succ i => exact j4 i x (by simpa using hx)

end Zdb
