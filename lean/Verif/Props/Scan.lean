/-
Properties of SCAN, RSCAN, KEYCUR, KSCAN and HISTORY in user-key namespaces: C18 to C22, C51, C53, and what
C02 and C46 say about SCAN.
-/
import Verif.Lemmas.ScanFixed
import Verif.Lemmas.History
import Verif.Lemmas.ScanSpec
import Verif.Props.UserMap
namespace Zdb

/-! ### auxiliary facts -/

theorem shown_small {n : Nat} (h : n ≤ 2 ^ 23) : shown n = n := by
  rw [shown, if_pos (by omega)]

theorem KV.filter_key {m : KV} (h : (m.map (·.1)).Nodup) (k : Bytes) :
    m.filter (fun x => x.1 == k) = match m.get k with
      | some v => [(k, v)]
      | none => [] := by
  induction m with
  | nil => rfl
  | cons x m ih =>
    simp only [List.map_cons, List.nodup_cons] at h
    by_cases hk : x.1 = k
    · have h1 : m.filter (fun x => x.1 == k) = [] := by
        rw [List.filter_eq_nil_iff]
        intro y hy he
        exact h.1 (by rw [hk, ← eq_of_beq he]; exact List.mem_map_of_mem hy)
      have h2 : KV.get (x :: m) k = some x.2 := by simp [KV.get, hk]
      rw [List.filter_cons, if_pos (by simpa using hk), h1, h2, ← hk]
    · have h2 : KV.get (x :: m) k = KV.get m k := by simp [KV.get, hk]
      rw [List.filter_cons, if_neg (by simpa using hk), ih h.2, h2]

/-- The rows SCAN should show for a map. -/
def mapRows (m : KV) : List Reply :=
  m.map (fun x => .arr [.bulk x.1, .int x.2.payload.length, .int (shown x.2.time)])

/-- State before a session which ends an execution. -/
theorem UserRun.before {cfg : Option Mode} {u : Nat} {tr : List (NsEvent × Reply)}
    {seg : List (Bool × (NsEvent × Reply))} {br : Branches} {s : Store}
    (h : UserRun cfg u (tr ++ seg.map (·.2)) br s) :
    ∃ br1 s1 G, UserRun cfg u tr br1 s1 ∧ NsRun cfg u br1 s1 (seg.map (·.2)) br s ∧ UInv br1 u s1 G ∧
      absKV G = specRun [] (tr.map (·.1)) ∧ Room s1.ifiles.length (totalData s1) seg.length ∧
      ∀ x ∈ seg, EvOK x.2.1 := by
  obtain ⟨br1, s1, h1, h2, h3⟩ := h.cut
  obtain ⟨G, i1, i2, -⟩ := h1.inv
  rw [List.length_map] at h3
  exact ⟨br1, s1, G, h1, h2, i1, i2, h3,
    fun x hx => h.ev x.2 (List.mem_append_right _ (List.mem_map_of_mem hx))⟩

/-! ### C21 -/

/-- C21: a key that is neither set nor deleted during a whole SCAN iteration is shown exactly once, with its
    length and time, if it exists, and not at all if it does not; meanwhile anything else may happen. -/
theorem C21_untouched_key_shown_once {cfg : Option Mode} {u : Nat} {tr : List (NsEvent × Reply)}
    {seg : List (Bool × (NsEvent × Reply))} {br : Branches} {s : Store} {rows : List Reply} {k : Bytes}
    (h : UserRun cfg u (tr ++ seg.map (·.2)) br s) (hS : Session .scan none seg rows) (hsl : Sliced seg)
    (hk : ∀ x ∈ seg, writeOf k x.2 = none) :
    rows.filter (rowFor (· == k)) = match (specRun [] (tr.map (·.1))).get k with
      | some v => [.arr [.bulk k, .int v.payload.length, .int (shown v.time)]]
      | none => [] := by
  obtain ⟨br1, s1, G, h1, h2, h3, h4, h5, h6⟩ := h.before
  have := (h3.session h1.hcfg hS hsl (Q := (· == k)) (by
    intro x hx k' hk'
    rw [eq_of_beq hk']; exact hk x hx) h2 h6 h5 (rem := locs G) rfl).1
  rw [this, h3.qRows_eq, KV.filter_key (absKV_nodup h3), h4]
  have hlen := specRun_len (es := tr.map (·.1)) (m := [])
    (by intro e he; obtain ⟨x, hx, rfl⟩ := List.mem_map.1 he; exact h1.ev x hx) (by simp)
  cases hg : (specRun [] (tr.map (·.1))).get k with
  | none => rfl
  | some v =>
    have hm : (k, v) ∈ specRun [] (tr.map (·.1)) :=
      (KV.mem_iff_get (by rw [← h4]; exact absKV_nodup h3)).2 hg
    simp only [List.map_cons, List.map_nil, scanRow, shown_small (hlen _ hm)]

/-- C21 in terms of requests and replies only: if the last acknowledged write of `k` before the
    iteration was a SET of `p`, there is exactly one row with the key `k`, and it tells the length of `p`. -/
theorem C21_untouched_key_shown_once' {cfg : Option Mode} {u : Nat} {tr : List (NsEvent × Reply)}
    {seg : List (Bool × (NsEvent × Reply))} {br : Branches} {s : Store} {rows : List Reply} {k p : Bytes}
    (h : UserRun cfg u (tr ++ seg.map (·.2)) br s) (hS : Session .scan none seg rows) (hsl : Sliced seg)
    (hk : ∀ x ∈ seg, writeOf k x.2 = none) (hp : lastWrite k tr = some p) :
    ∃ t, rows.filter (rowFor (· == k)) = [.arr [.bulk k, .int p.length, .int t]] := by
  have h0 := C21_untouched_key_shown_once h hS hsl hk
  obtain ⟨br1, s1, h1, -, -⟩ := h.cut
  obtain ⟨G, -, -, ha⟩ := h1.inv
  have hg := agrees_get [] tr ha k
  change _ = lastWrite k tr at hg
  rw [hp] at hg
  cases hv : (specRun [] (tr.map (·.1))).get k with
  | none => rw [hv] at hg; cases hg
  | some v =>
    rw [hv] at hg h0
    simp at hg
    subst hg
    exact ⟨_, h0⟩

/-! ### C19 -/

/-- C19: without writes in between, the rows received are exactly the keys in the order of their last write,
    with length and time (the time as a signed 32-bit number). -/
theorem C19_scan_lists_all_keys_partial {cfg : Option Mode} {u : Nat} {tr : List (NsEvent × Reply)}
    {seg : List (Bool × (NsEvent × Reply))} {br : Branches} {s : Store} {rows : List Reply}
    (h : UserRun cfg u (tr ++ seg.map (·.2)) br s) (hS : Session .scan none seg rows) (hsl : Sliced seg)
    (hq : ∀ x ∈ seg, ∀ k, writeOf k x.2 = none) :
    rows = mapRows (specRun [] (tr.map (·.1))) := by
  obtain ⟨br1, s1, G, h1, h2, h3, h4, h5, h6⟩ := h.before
  have := h3.session h1.hcfg hS hsl (Q := fun _ => true) (fun x hx k _ => hq x hx k)
    h2 h6 h5 (rem := locs G) rfl
  have hall : rows.filter (rowFor fun _ => true) = rows := by
    rw [List.filter_eq_self]
    intro r hr
    obtain ⟨l, rfl⟩ := this.2 r hr
    rfl
  rw [← hall, this.1, h3.qRows_eq, h4, mapRows, List.filter_eq_self.2 (by simp)]
  apply List.map_congr_left
  intro x hx
  have hlen := specRun_len (es := tr.map (·.1)) (m := [])
    (by intro e he; obtain ⟨x, hx, rfl⟩ := List.mem_map.1 he; exact h1.ev x hx) (by simp) x hx
  rw [scanRow, shown_small hlen]

/-- C19: the iteration always comes to its end, after at most one call more than there are keys, whatever
    number of turns (at least one) the clock allows each call. -/
theorem C19_scan_ends {cfg : Option Mode} {u : Nat} {tr : List (NsEvent × Reply)}
    {br : Branches} {s : Store} (h : UserRun cfg u tr br s) (hl : tr.length < maxEvents) (name : Bytes)
    (cs : Nat → Ctx) (hcs : ∀ i, (cs i).u = u ∧ (cs i).conf.lock ≠ .frozen ∧ 1 ≤ (cs i).slice) :
    ∃ (seg : List (Bool × (NsEvent × Reply))) (rows : List Reply), Session .scan none seg rows ∧
      NsRun cfg u br s (seg.map (·.2)) br s ∧
      seg.length ≤ (specRun [] (tr.map (·.1))).length + 1 ∧ OwnCalls .scan name cs seg := by
  obtain ⟨G, h1, h2, -⟩ := h.inv
  rw [← h2, absKV, List.length_map]
  exact h1.toCore.session_exists (h.room h1 hl) (Or.inl rfl) (by simp) cfg br name _ cs hcs
    (rem := live G) rfl (Nat.le_refl _)

/-- A context whose clock allows no turn. -/
def exNoSlice : Ctx := { exCtx with slice := 0 }

/-- The cursor of the record of key `a`. -/
def exCursorA : Bytes := encBKey { idlength := 1, fileid := 0, length := 3, idxoffset := 29, crc := crc32 (str "one") }

def exTwoKeys : List (Ctx × DsCmd × List Bytes) :=
  [(exCtx, .set, [str "SET", str "a", str "one"]), (exCtx, .set, [str "SET", str "b", str "two"])]

/-- Two calls of SCAN, the second one at the end. -/
def exScanSeg (c : Ctx) (cur : Bytes) (rows : List Reply) : List (Bool × (NsEvent × Reply)) :=
  [(true, (.cmd c .scan [str "SCAN"], .arr [.bulk cur, .arr rows])),
   (true, (.cmd c .scan [str "SCAN", cur], .err "No more data"))]

def exScanCmds (c : Ctx) (cur : Bytes) : List (Ctx × DsCmd × List Bytes) :=
  [(c, .scan, [str "SCAN"]), (c, .scan, [str "SCAN", cur])]

theorem exScanSession (c : Ctx) (cur : Bytes) (rows : List Reply) :
    Session .scan none (exScanSeg c cur rows) rows := by
  have := Session.more (d := .scan) (cur := none) (c := c) (name := str "SCAN") (rows := rows) (rows' := [])
    (Session.stop (cur := some cur) (c := c) (name := str "SCAN"))
  rw [List.append_nil] at this
  exact this

theorem exScanSeg_writes (c : Ctx) (cur : Bytes) (rows : List Reply) :
    ∀ x ∈ exScanSeg c cur rows, ∀ k, writeOf k x.2 = none := by
  intro x hx k
  simp only [exScanSeg, List.mem_cons, List.not_mem_nil, or_false] at hx
  rcases hx with rfl | rfl <;> rfl

/-- Cursor of the record of `b`. -/
def exCursorB : Bytes := encBKey { idlength := 1, fileid := 0, length := 3, idxoffset := 64, crc := crc32 (str "two") }

def exRowA : Reply := .arr [.bulk (str "a"), .int 3, .int 1700000000]
def exRowB : Reply := .arr [.bulk (str "b"), .int 3, .int 1700000000]

set_option maxRecDepth 100000 in
theorem exScanTrace : traceOf (fun _ => []) (freshStore .user) (exTwoKeys ++ exScanCmds exCtx exCursorB) =
    traceOf (fun _ => []) (freshStore .user) exTwoKeys ++ (exScanSeg exCtx exCursorB [exRowA, exRowB]).map (·.2) :=
  rfl

/-- A concrete case of C19 and C21: two keys are shown by the first call. -/
example : ∃ br s, UserRun none 7 (traceOf (fun _ => []) (freshStore .user) exTwoKeys ++
      (exScanSeg exCtx exCursorB [exRowA, exRowB]).map (·.2)) br s ∧
    Session .scan none (exScanSeg exCtx exCursorB [exRowA, exRowB]) [exRowA, exRowB] ∧
    Sliced (exScanSeg exCtx exCursorB [exRowA, exRowB]) := by
  have h := userRun_ok (exTwoKeys ++ exScanCmds exCtx exCursorB) (by decide +kernel) (by decide)
  rw [exScanTrace] at h
  refine ⟨_, _, h, exScanSession _ _ _, ?_⟩
  intro x hx c d argv r he
  simp only [exScanSeg, List.mem_cons, List.not_mem_nil, or_false] at hx
  rcases hx with rfl | rfl <;> (cases he; decide)

set_option maxRecDepth 100000 in
theorem exNoSliceTrace : traceOf (fun _ => []) (freshStore .user) (exTwoKeys ++ exScanCmds exNoSlice exCursorA) =
    traceOf (fun _ => []) (freshStore .user) exTwoKeys ++ (exScanSeg exNoSlice exCursorA [exRowA]).map (·.2) :=
  rfl

/-- C19 is false without the condition on the clock: if the time of a call is used up before the first turn
    of its loop, SCAN with a cursor replies the end marker although there are more keys. -/
theorem C19_refuted : ∃ (tr : List (NsEvent × Reply)) (seg : List (Bool × (NsEvent × Reply))) (br : Branches)
    (s : Store) (rows : List Reply), UserRun none 7 (tr ++ seg.map (·.2)) br s ∧
    Session .scan none seg rows ∧ (∀ x ∈ seg, ∀ k, writeOf k x.2 = none) ∧
    (specRun [] (tr.map (·.1))).length = 2 ∧ rows.length = 1 := by
  have h := userRun_ok (exTwoKeys ++ exScanCmds exNoSlice exCursorA) (by decide +kernel) (by decide)
  rw [exNoSliceTrace] at h
  exact ⟨_, _, _, _, _, h, exScanSession _ _ _, exScanSeg_writes _ _ _, by decide +kernel, rfl⟩

/-- A SET with a timestamp beyond `2^31`. -/
def exLate : List (Ctx × DsCmd × List Bytes) :=
  [(exCtx, .set, [str "SET", str "a", str "one", str "3000000000"])]

set_option maxRecDepth 100000 in
/-- C19 is false for times from `2^31` on: SCAN shows them negative, KEYTIME does not. -/
theorem C19_time_refuted : (runCmds (fun _ => []) (freshStore .user)
      (exLate ++ [(exCtx, .keytime, [str "KEYTIME", str "a"]), (exCtx, .scan, [str "SCAN"])])).2.2 =
    [.bulk (str "a"), .int 3000000000,
     .arr [.bulk exCursorA, .arr [.arr [.bulk (str "a"), .int 3, .int (-1294967296)]]]] := rfl

/-! ### C20 -/

/-- C20: while nothing is written, the rows received from RSCAN are exactly the keys, the last written one
    first, provided every index file has items (or there is no key at all). -/
theorem C20_rscan_lists_all_keys_partial {cfg : Option Mode} {u : Nat} {tr : List (NsEvent × Reply)}
    {seg : List (Bool × (NsEvent × Reply))} {br br' : Branches} {s s' : Store} {rows : List Reply}
    (h : UserRun cfg u tr br s) (hl : tr.length < maxEvents) (hne : ∀ f ∈ s.ifiles, 29 < f.length)
    (hr : NsRun cfg u br s (seg.map (·.2)) br' s') (hS : Session .rscan none seg rows) (hsl : Sliced seg)
    (hq : Quiet seg) :
    rows = (mapRows (specRun [] (tr.map (·.1)))).reverse := by
  obtain ⟨G, h1, h2, -⟩ := h.inv
  have := h1.toCore.session (h.room h1 hl) (Or.inr rfl) (fun _ => Or.inr (h1.irep.noEmpty hne)) hS hsl hq
    hr (rem := (live G).reverse) rfl
  rw [this, ← h2, mapRows, absKV, List.map_map, ← List.map_reverse]
  apply List.map_congr_left
  intro l hl'
  have hl' := List.mem_reverse.1 hl'
  have hlen := specRun_len (es := tr.map (·.1)) (m := [])
    (by intro e he; obtain ⟨x, hx, rfl⟩ := List.mem_map.1 he; exact h.ev x hx) (by simp) (l.id, l.val (locs G))
    (by rw [← h2, absKV]; exact List.mem_map_of_mem hl')
  have hlen' : l.r.payload.length ≤ 2 ^ 23 := hlen
  have := (h1.recs l (live_mem hl')).len
  simp only [Loc.row, scanRow, Function.comp, Loc.val, this, shown_small hlen']

/-- C20: the iteration always comes to its end. -/
theorem C20_rscan_ends_partial {cfg : Option Mode} {u : Nat} {tr : List (NsEvent × Reply)}
    {br : Branches} {s : Store} (h : UserRun cfg u tr br s) (hl : tr.length < maxEvents)
    (hne : ∀ f ∈ s.ifiles, 29 < f.length) (name : Bytes)
    (cs : Nat → Ctx) (hcs : ∀ i, (cs i).u = u ∧ (cs i).conf.lock ≠ .frozen ∧ 1 ≤ (cs i).slice) :
    ∃ (seg : List (Bool × (NsEvent × Reply))) (rows : List Reply), Session .rscan none seg rows ∧
      NsRun cfg u br s (seg.map (·.2)) br s ∧
      seg.length ≤ (specRun [] (tr.map (·.1))).length + 1 ∧ OwnCalls .rscan name cs seg := by
  obtain ⟨G, h1, h2, -⟩ := h.inv
  rw [← h2, absKV, List.length_map]
  exact h1.toCore.session_exists (h.room h1 hl) (Or.inr rfl) (fun _ => Or.inr (h1.irep.noEmpty hne))
    cfg br name _ cs hcs (rem := (live G).reverse) rfl (by simp)

set_option maxRecDepth 100000 in
/-- A concrete case of C20: a key in each of two files. -/
example : (∀ f ∈ (runCmds (fun _ => []) (freshStore .user) [(exCtx, .set, [str "SET", str "a", str "one"]),
      (exCtx, .nsjump, [str "NSJUMP"]), (exCtx, .set, [str "SET", str "b", str "two"])]).2.1.ifiles, 29 < f.length) ∧
    (runCmds (fun _ => []) (freshStore .user) [(exCtx, .set, [str "SET", str "a", str "one"]),
      (exCtx, .nsjump, [str "NSJUMP"]), (exCtx, .set, [str "SET", str "b", str "two"]),
      (exCtx, .rscan, [str "RSCAN"])]).2.2.getLast? =
    some (.arr [.bulk exCursorA, .arr [exRowB, exRowA]]) := ⟨by decide +kernel, rfl⟩

set_option maxRecDepth 100000 in
/-- C20 is false when the current index file has no item: RSCAN fails although there is a key. -/
theorem C20_refuted : (runCmds (fun _ => []) (freshStore .user) [(exCtx, .set, [str "SET", str "a", str "one"]),
      (exCtx, .nsjump, [str "NSJUMP"]), (exCtx, .get, [str "GET", str "a"]),
      (exCtx, .rscan, [str "RSCAN"])]).2.2 =
    [.bulk (str "a"), .ok, .bulk (str "one"), .err "Internal Error"] := rfl

set_option maxRecDepth 100000 in
/-- C20 is false when a middle index file has no item: RSCAN ends without showing the keys before it. -/
theorem C20_middle_refuted : (runCmds (fun _ => []) (freshStore .user)
      [(exCtx, .set, [str "SET", str "a", str "one"]),
      (exCtx, .nsjump, [str "NSJUMP"]), (exCtx, .nsjump, [str "NSJUMP"]),
      (exCtx, .set, [str "SET", str "b", str "two"]), (exCtx, .get, [str "GET", str "a"]),
      (exCtx, .rscan, [str "RSCAN"])]).2.2.drop 4 =
    [.bulk (str "one"), .arr [.bulk (encBKey { idlength := 1, fileid := 2, length := 3, idxoffset := 29, crc := crc32 (str "two") }), .arr [exRowB]]] := rfl

/-! ### C22 -/

theorem KV.split_live {G : Log} {A B : List Loc} {l : Loc} (hl : locs G = A ++ l :: B) (hv : l.live = true) :
    absKV G = (A.filter Loc.live).map (fun x => (x.id, x.val (locs G))) ++
      (l.id, l.val (locs G)) :: (B.filter Loc.live).map (fun x => (x.id, x.val (locs G))) := by
  rw [absKV, live]
  conv => lhs; arg 2; rw [hl]
  simp [hv]

/-- C22: a SCAN iteration started with the cursor given by KEYCUR shows every key behind this one that is left
    untouched exactly once, and no untouched key before it, whatever else happens meanwhile (also to the key
    of the cursor). -/
theorem C22_keycur_then_scan {cfg : Option Mode} {u : Nat} {tr : List (NsEvent × Reply)}
    {seg : List (Bool × (NsEvent × Reply))} {br : Branches} {s : Store} {rows : List Reply} {c : Ctx}
    {n k b : Bytes} {Q : Bytes → Bool} (hk : k.length ≤ 255)
    (h : UserRun cfg u (tr ++ (.cmd c .keycur [n, k], .bulk b) :: seg.map (·.2)) br s)
    (hS : Session .scan (some b) seg rows) (hsl : Sliced seg)
    (hq : ∀ x ∈ seg, ∀ k, Q k = true → writeOf k x.2 = none) :
    ∃ before v after, specRun [] (tr.map (·.1)) = before ++ (k, v) :: after ∧
      rows.filter (rowFor Q) = mapRows (after.filter (fun x => Q x.1)) := by
  obtain ⟨br1, s1, h1, h2, h3⟩ := h.cut
  obtain ⟨G, i1, i2, -⟩ := h1.inv
  have hev : ∀ x ∈ seg, EvOK x.2.1 := fun x hx =>
    h.ev x.2 (List.mem_append_right _ (List.mem_cons_of_mem _ (List.mem_map_of_mem hx)))
  cases h2 with
  | cmd _ _ _ hu k1 k2 =>
    subst hu
    simp only [dsCommand, Prod.mk.injEq] at k1
    obtain ⟨rfl, rfl, k1⟩ := k1
    obtain ⟨l, hg, rfl⟩ := i1.keycur hk k1
    obtain ⟨hl, hid⟩ := liveGet_some hg
    obtain ⟨A, B, hAB⟩ := List.append_of_mem (live_mem hl)
    have hsplit := KV.split_live hAB (List.mem_filter.1 hl).2
    have := (i1.session h1.hcfg hS hsl hq k2 hev (by
      have : Room s1.ifiles.length (totalData s1) (seg.length + 1) := by simpa using h3
      exact this.mono (by omega)) (rem := B) ⟨A, l, hAB, rfl⟩).1
    rw [hid] at hsplit
    refine ⟨_, _, _, i2.symm.trans hsplit, ?_⟩
    rw [this, qRows, mapRows, List.filter_map, List.map_map, List.filter_filter]
    have e : B.filter (fun l => l.live && Q l.id) =
        B.filter (fun a => ((fun x : Bytes × Val => Q x.1) ∘ fun x : Loc => (x.id, x.val (locs G))) a && a.live) :=
      List.filter_congr (fun x _ => Bool.and_comm _ _)
    rw [e]
    apply List.map_congr_left
    intro x hx
    obtain ⟨hx1, hx2⟩ := List.mem_filter.1 hx
    have hxG : x ∈ locs G := by rw [hAB]; simp [hx1]
    have hlive : x ∈ live G := List.mem_filter.2 ⟨hxG, by
      simp only [Function.comp, Bool.and_eq_true] at hx2; exact hx2.2⟩
    have hlen := specRun_len (es := tr.map (·.1)) (m := [])
      (by intro e he; obtain ⟨x, hx, rfl⟩ := List.mem_map.1 he; exact h1.ev x hx) (by simp) (x.id, x.val (locs G))
      (by rw [← i2, absKV]; exact List.mem_map_of_mem hlive)
    have hlen' : x.r.payload.length ≤ 2 ^ 23 := hlen
    have := (i1.recs x hxG).len
    simp only [Loc.row, scanRow, Function.comp, Loc.val, this, shown_small hlen']

/-- C22: a cursor given by KEYCUR is never refused later, whatever happened in between (also to its key):
    SCAN replies rows and a new cursor, or the end marker. -/
theorem C22_cursor_stays_valid {cfg : Option Mode} {u : Nat} {tr mid : List (NsEvent × Reply)}
    {br : Branches} {s : Store} {c c' : Ctx} {n n' k b : Bytes} {r : Reply} (hk : k.length ≤ 255)
    (h : UserRun cfg u (tr ++ (.cmd c .keycur [n, k], .bulk b) :: (mid ++ [(.cmd c' .scan [n', b], r)])) br s)
    (hz : c'.conf.lock ≠ .frozen) :
    r = .err "No more data" ∨ ∃ cur rows, r = .arr [.bulk cur, .arr rows] := by
  obtain ⟨br1, s1, h1, h2, h3⟩ := h.cut
  obtain ⟨G, i1, i2, -⟩ := h1.inv
  have hev : ∀ x ∈ mid, EvOK x.1 := fun x hx =>
    h.ev x (List.mem_append_right _ (List.mem_cons_of_mem _ (List.mem_append_left _ hx)))
  have hf' := notFrozen hz
  cases h2 with
  | cmd _ _ _ hu k1 k2 =>
    subst hu
    simp only [dsCommand, Prod.mk.injEq] at k1
    obtain ⟨rfl, rfl, k1⟩ := k1
    obtain ⟨l, hg, rfl⟩ := i1.keycur hk k1
    obtain ⟨A, B, hAB⟩ := List.append_of_mem (live_mem (liveGet_some hg).1)
    obtain ⟨br2, s2, j1, j2⟩ := k2.split
    simp only [List.length_cons, List.length_append, List.length_nil] at h3
    obtain ⟨G2, rem2, j3, j4⟩ := i1.atCursor h1.hcfg j1 hev (h3.mono (by omega)) (cur := some (cursorOf l.scanned))
      (rem := B) ⟨A, l, hAB, rfl⟩
    have hroom2 := j1.roomLeft h1.hcfg i1 hev (n := 1) (h3.mono (by omega))
    have hlen2 : G2.length < 2 ^ 32 := by have := j3.irep.length; have := hroom2.1; omega
    cases j2 with
    | cmd _ _ _ hu q1 q2 =>
      simp only [dsCommand, Prod.mk.injEq] at q1
      obtain ⟨-, -, q1⟩ := q1
      obtain ⟨m, -, -, hm⟩ := j3.toCore.scanAt hlen2 j4 hf' n'
      rw [show n' :: (some (cursorOf l.scanned)).toList = [n', cursorOf l.scanned] from rfl, q1] at hm
      rcases replyScan_cases (n := m) (j4.items j3.toCore.items) with ⟨-, e⟩ | ⟨X, y, Y, -, -, e⟩
      · exact Or.inl (hm.trans e)
      · exact Or.inr ⟨_, _, hm.trans e⟩

/-- C22: a cursor pointing to the entry of a key but with another length or checksum is refused by SCAN and
    RSCAN. -/
theorem C22_other_cursor_refused {cfg : Option Mode} {u : Nat} {tr : List (NsEvent × Reply)}
    {br br' : Branches} {s s' : Store} {c c' : Ctx} {n n' k b b' : Bytes} (hk : k.length ≤ 255)
    (h : UserRun cfg u (tr ++ [(.cmd c .keycur [n, k], .bulk b)]) br s)
    (hb : decBKey b' = { decBKey b with length := (decBKey b').length, crc := (decBKey b').crc })
    (hne : decBKey b' ≠ decBKey b) (d : DsCmd) (hd : d = .scan ∨ d = .rscan) (hz : c'.conf.lock ≠ .frozen) :
    dsCommand c' br s d [n', b'] = (br, s, .err "Invalid key format") := by
  obtain ⟨br1, s1, h1, h2, h3⟩ := h.cut
  obtain ⟨G, i1, i2, -⟩ := h1.inv
  have hf' := notFrozen hz
  cases h2 with
  | cmd _ _ _ hu k1 k2 =>
    subst hu
    simp only [dsCommand, Prod.mk.injEq] at k1
    obtain ⟨rfl, rfl, k1⟩ := k1
    cases k2
    obtain ⟨l, hg, rfl⟩ := i1.keycur hk k1
    have hl := live_mem (liveGet_some hg).1
    have hw := (i1.recs l hl).wf
    have hfile : l.file < 2 ^ 32 := by have := mem_locs_lt hl; have := i1.files; omega
    have hdec : decBKey (cursorOf l.scanned) = ⟨l.r.item.idlength, l.file, l.r.item.length, l.off, l.r.item.crc⟩ := by
      rw [cursorOf, decBKey_encBKey]
      · rfl
      · refine ⟨?_, hfile, hw.2.2.2.1, i1.offs l hl, hw.2.2.2.2.2.2.2.2.1⟩
        simp only [Loc.scanned]; rw [hw.1]; exact hw.2.1
    rw [hdec] at hb hne
    have hpos : cursorPos s (decBKey b') = none := by
      have hit := i1.historyItem hl
      rw [cursorPos]
      have e1 : (decBKey b').fileid = l.file := by rw [hb]
      have e2 : (decBKey b').idxoffset = l.off := by rw [hb]
      have e3 : (decBKey b').idlength = l.id.length := by rw [hb]; exact hw.1
      rw [e1, e2, e3, hit]
      simp only
      rw [if_pos]
      apply Classical.byContradiction
      intro hn
      apply hne
      rw [hb]
      have : l.r.item.length = (decBKey b').length ∧ l.r.item.crc = (decBKey b').crc := by
        constructor <;> (apply Classical.byContradiction; intro hc; exact hn (by simp [hc]))
      rw [← this.1, ← this.2]
    have hsc : ∀ first walk, scanWith c' s first walk [n', b'] = .err "Invalid key format" := by
      intro first walk
      rw [scanWith, hf']
      simp only [hpos]
      rw [if_neg (by simp), ite_self]
    rcases hd with rfl | rfl <;> simp only [dsCommand, cmdScan, cmdRscan, hsc]

/-- Commands of the examples about cursors: two keys, the cursor of the first one, an overwrite of it. -/
def exKeycur : List (Ctx × DsCmd × List Bytes) :=
  exTwoKeys ++ [(exCtx, .keycur, [str "KEYCUR", str "a"]), (exCtx, .set, [str "SET", str "a", str "three"]),
    (exCtx, .scan, [str "SCAN", exCursorA])]

set_option maxRecDepth 100000 in
/-- A concrete case of C22: the cursor of `a` is used after `a` was overwritten; `b` and the new `a` follow. -/
example : (runCmds (fun _ => []) (freshStore .user) exKeycur).2.2.drop 2 =
    [.bulk exCursorA, .bulk (str "a"),
     .arr [.bulk (encBKey { idlength := 1, fileid := 0, length := 5, idxoffset := 99, crc := crc32 (str "three") }),
       .arr [exRowB, .arr [.bulk (str "a"), .int 5, .int 1700000000]]]] := rfl

set_option maxRecDepth 100000 in
/-- C22 is false for the remaining field of the cursor, the length of the key: a cursor with a
    smaller one is not refused, and memory beyond a buffer is read. -/
theorem C22_refuted : (runCmds (fun _ => []) (freshStore .user) (exTwoKeys ++
      [(exCtx, .keycur, [str "KEYCUR", str "a"]), (exCtx, .scan, [str "SCAN", 0 :: exCursorA.tail])])).2.2.drop 2 =
    [.bulk exCursorA, .crash] := rfl

/-! ### C02 and C46 for SCAN -/

/-- C02 and C46 for SCAN: two namespaces which received the same SETs and DELs, with any restarts, jumps
    and reads in between, show the same rows in a SCAN iteration. -/
theorem C46_scan_shows_the_same_rows {cfg cfg' : Option Mode} {u u' : Nat} {tr tr' : List (NsEvent × Reply)}
    {seg seg' : List (Bool × (NsEvent × Reply))} {br br' : Branches} {s s' : Store} {rows rows' : List Reply}
    (h : UserRun cfg u (tr ++ seg.map (·.2)) br s) (h' : UserRun cfg' u' (tr' ++ seg'.map (·.2)) br' s')
    (hS : Session .scan none seg rows) (hsl : Sliced seg) (hq : ∀ x ∈ seg, ∀ k, writeOf k x.2 = none)
    (hS' : Session .scan none seg' rows') (hsl' : Sliced seg') (hq' : ∀ x ∈ seg', ∀ k, writeOf k x.2 = none)
    (hw : writesOf (cmdsOf tr) = writesOf (cmdsOf tr')) : rows = rows' := by
  rw [C19_scan_lists_all_keys_partial h hS hsl hq, C19_scan_lists_all_keys_partial h' hS' hsl' hq',
    specRun_eq, specRun_eq, ← specMap_writesOf, hw, specMap_writesOf]

/-! ### C51 -/

/-- C51: KSCAN lists the keys with the given prefix, each exactly once, and no other. -/
theorem C51_kscan_lists_the_prefix {cfg : Option Mode} {u : Nat} {tr : List (NsEvent × Reply)}
    {br : Branches} {s : Store} {c : Ctx} {n p : Bytes} {r : Reply}
    (h : UserRun cfg u (tr ++ [(.cmd c .kscan [n, p], r)]) br s) (hp : p ≠ []) :
    ∃ keys : List Bytes,
      keys.Perm (((specRun [] (tr.map (·.1))).map (·.1)).filter (fun k => p.isPrefixOf k)) ∧ keys.Nodup ∧
      r = if keys = [] then .err "No keys match" else .arr [.bulk (str "0"), .arr (keys.map .bulk)] := by
  obtain ⟨br1, s1, h1, h2, h3⟩ := h.cut
  obtain ⟨G, i1, i2, -⟩ := h1.inv
  have hargs : n ≠ [] := by
    obtain ⟨-, ⟨m, rest, he, hm⟩, -⟩ := h.ev (.cmd c .kscan [n, p], r) (by simp)
    injection he with he _
    rw [he]; exact hm
  cases h2 with
  | cmd _ _ _ hu k1 k2 =>
    subst hu
    cases k2
    simp only [dsCommand, Prod.mk.injEq] at k1
    obtain ⟨rfl, rfl, k1⟩ := k1
    have hsel := i1.kscanSel p
    refine ⟨(kscanSel br1 c.u buckets p).map Entry.id, ?_, ?_, ?_⟩
    · rw [← i2, List.filter_map]
      exact hsel
    · refine (hsel.nodup_iff).2 ?_
      exact (absKV_nodup i1).sublist ((List.filter_sublist).map _)
    · rw [← k1, cmdKscan, i1.mode]
      have hv : argsValidate [n, p] 2 = none := by
        simp only [argsValidate]
        simp [hargs, hp]
      simp only [hv]
      generalize kscanSel br1 c.u buckets p = ks
      cases ks with
      | nil => rfl
      | cons e ks => simp [str, cmdKscan.kscanReply]

theorem traceOf_append (br : Branches) (s : Store) (l l' : List (Ctx × DsCmd × List Bytes)) :
    traceOf br s (l ++ l') = traceOf br s l ++ traceOf (runCmds br s l).1 (runCmds br s l).2.1 l' := by
  induction l generalizing br s with
  | nil => rfl
  | cons x l ih => obtain ⟨c, d, argv⟩ := x; simp only [List.cons_append, traceOf, runCmds, ih]

/-- A concrete case of C51. -/
example : ∃ r br s, UserRun none 7 (traceOf (fun _ => []) (freshStore .user) exTwoKeys ++
    [(.cmd exCtx .kscan [str "KSCAN", str "a"], r)]) br s := by
  have h := userRun_ok (exTwoKeys ++ [(exCtx, .kscan, [str "KSCAN", str "a"])]) (by decide +kernel) (by decide)
  rw [traceOf_append] at h
  exact ⟨_, _, _, h⟩

/-! ### C18 -/

/-- C18: HISTORY, followed through its cursors, shows the versions of a key since its creation, newest
    first, with time and payload.  Missing: the oldest version is only covered if the key was created (for the last
    time) in the first file; the claim is false for keys created later (`C18_refuted`). -/
theorem C18_history_lists_versions_partial {cfg : Option Mode} {u : Nat} {tr : List (NsEvent × Reply)}
    {br : Branches} {s : Store} (h : UserRun cfg u tr br s) {c : Ctx} (hu : c.u = u)
    (hz : c.conf.lock ≠ .frozen) (n : Bytes) {k : Bytes} (hk : k.length ≤ 255) {v : Val}
    (hv : (specRun [] (tr.map (·.1))).get k = some v) :
    Recalls (FirstFile cfg u tr br s k) (fun cur => (dsCommand c br s .history (n :: k :: cur.toList)).2.2) none
      v.versions := by
  obtain ⟨G, h1, h2, -⟩ := h.inv
  subst hu
  rw [← h2] at hv
  exact (h1.history (notFrozen hz) n hk hv).mono (fun h0 => h.early h1 h0)

/-- Three versions of a key. -/
def exVersions : List (Ctx × DsCmd × List Bytes) :=
  [(exCtx, .set, [str "SET", str "a", str "one"]), (exCtx, .set, [str "SET", str "a", str "two"]),
   (exCtx, .nsjump, [str "NSJUMP"]), (exCtx, .set, [str "SET", str "a", str "three"])]

set_option maxRecDepth 100000 in
/-- A concrete case of C18, across two files. -/
example : (runCmds (fun _ => []) (freshStore .user) (exVersions ++
      [(exCtx, .history, [str "HISTORY", str "a"]),
       (exCtx, .history, [str "HISTORY", str "a", encEKey ⟨0, 64⟩]),
       (exCtx, .history, [str "HISTORY", str "a", encEKey ⟨0, 29⟩])])).2.2.drop 4 =
    [.arr [.bulk (encEKey ⟨0, 64⟩), .bulk (str "1700000000"), .bulk (str "three")],
     .arr [.bulk (encEKey ⟨0, 29⟩), .bulk (str "1700000000"), .bulk (str "two")],
     .arr [.nil, .bulk (str "1700000000"), .bulk (str "one")]] := rfl

set_option maxRecDepth 100000 in
/-- A concrete case of C18: the first two commands were run in the first file. -/
theorem exVersions_first : FirstFile none 7 (traceOf (fun _ => []) (freshStore .user) exVersions)
    (runCmds (fun _ => []) (freshStore .user) exVersions).1 (runCmds (fun _ => []) (freshStore .user) exVersions).2.1
    (str "a") := by
  have hr := runCmds_run none 7 (exVersions.drop 2) (by decide)
    (runCmds (fun _ => []) (freshStore .user) (exVersions.take 2)).1
    (runCmds (fun _ => []) (freshStore .user) (exVersions.take 2)).2.1
  refine ⟨_, _, _, _, ?_, userRun_ok (exVersions.take 2) (by decide) (by decide), rfl, hr, ?_⟩
  · rw [← traceOf_append]; rfl
  · intro p hp hc
    rw [List.prefix_iff_eq_take.1 hp] at hc
    have hl : p.length ≤ 2 := hp.length_le
    generalize p.length = i at hc hl
    have : ∀ i, i ≤ 2 → ((specRun [] ((traceOf (fun _ => []) (freshStore .user) (exVersions.take 2) ++
        (traceOf (runCmds (fun _ => []) (freshStore .user) (exVersions.take 2)).1
          (runCmds (fun _ => []) (freshStore .user) (exVersions.take 2)).2.1 (exVersions.drop 2)).take i).map
            (·.1))).get (str "a")).isSome = true := by decide +kernel
    have := this i hl
    rw [hc] at this
    cases this

set_option maxRecDepth 100000 in
/-- The same, by the theorem. -/
example : Recalls True (fun cur => (dsCommand exCtx (runCmds (fun _ => []) (freshStore .user) exVersions).1
      (runCmds (fun _ => []) (freshStore .user) exVersions).2.1 .history (str "HISTORY" :: str "a" :: cur.toList)).2.2)
    none [⟨str "three", 1700000000⟩, ⟨str "two", 1700000000⟩, ⟨str "one", 1700000000⟩] :=
  (C18_history_lists_versions_partial (userRun_ok exVersions (by decide) (by decide)) rfl (by decide) (str "HISTORY")
    (by decide) (v := ⟨str "three", 1700000000, [⟨str "two", 1700000000⟩, ⟨str "one", 1700000000⟩]⟩) rfl).mono
      (fun _ => exVersions_first)

set_option maxRecDepth 100000 in
/-- C18 is false for a key created after a jump: its first version is looked up in the first data file.  Here
    the payload of another key is shown. -/
theorem C18_refuted : (runCmds (fun _ => []) (freshStore .user)
      [(exCtx, .set, [str "SET", str "a", str "one"]), (exCtx, .nsjump, [str "NSJUMP"]),
       (exCtx, .set, [str "SET", str "b", str "two"]), (exCtx, .get, [str "GET", str "b"]),
       (exCtx, .history, [str "HISTORY", str "b"])]).2.2.drop 3 =
    [.bulk (str "two"), .arr [.nil, .bulk (str "1700000000"), .bulk (str "one")]] := rfl

/-! ### C53 -/

/-- C53: in every reachable state the four walks over the index end, from any position: within a number of
    turns bounded by the total size of the index files. -/
theorem C53_walks_end {cfg : Option Mode} {u : Nat} {tr : List (NsEvent × Reply)}
    {br : Branches} {s : Store} (h : UserRun cfg u tr br s) (hl : tr.length < maxEvents) :
    firstHeader s.ifiles ≠ .fuel ∧ lastHeader s ≠ .fuel ∧
    ∀ file off, nextHeader s.ifiles file off ≠ .fuel ∧ prevHeader s.ifiles file off ≠ .fuel := by
  obtain ⟨G, h1, -, -⟩ := h.inv
  have hlen : s.ifiles.length < 2 ^ 32 := by rw [h1.irep.length]; exact h.room h1 hl
  exact ⟨firstHeader_ends hlen, lastHeader_ends hlen, fun file off =>
    ⟨nextHeader_ends hlen file off, prevHeader_ends hlen (headOK h1.irep h1.toCore.items h1.prevs) file off⟩⟩

/-- C53: SCAN ends on any index files whatsoever. -/
theorem C53_scan_ends_on_any_files (fs : List Bytes) (h : fs.length < 2 ^ 32) :
    firstHeader fs ≠ .fuel ∧ ∀ file off, nextHeader fs file off ≠ .fuel :=
  ⟨firstHeader_ends h, nextHeader_ends h⟩

/-- An index file whose first item is deleted and has 1 as its link to the item before it. -/
def exLoopFile : Bytes :=
  encIHeader (freshIHeader 0 0) ++ encItem ⟨1, 28, 3, 1, 1, 0, 0, 0, 0, 0, [97]⟩

/-- C53 is false for RSCAN on arbitrary index files: on this one the walk goes on for ever. -/
theorem C53_refuted (n : Nat) : walkDown prevReal [exLoopFile] n 0 29 0 = .fuel := by
  induction n with
  | zero => rfl
  | succ n ih =>
    have h : prevReal exLoopFile 29 0 = .again 29 0 := rfl
    simp only [walkDown, List.getElem?_cons_zero, h, ih]

end Zdb
