/-
Properties of SCAN, RSCAN and KEYCUR in sequential namespaces: C19 to C22, C53.
-/
import Verif.Props.Scan
import Verif.Props.Seq
namespace Zdb

/-- The rows SCAN should show for slots: the values in the order of their ids. -/
def slotRows (m : Slots) : List Reply :=
  m.zipIdx.filterMap (fun x => x.1.map (fun v =>
    .arr [.bulk (toLE 8 x.2), .int v.payload.length, .int (shown v.time)]))

theorem slotRows_eq (L0 : List Loc) (hlen : ∀ l ∈ L0, slotSize (l.slot L0) ≤ 2 ^ 23)
    (hrec : ∀ l ∈ L0, l.r.item.length = l.r.payload.length) :
    ∀ (L : List Loc) (n : Nat), (∀ l ∈ L, l ∈ L0) →
    (∀ (i : Nat) (l : Loc), L[i]? = some l → l.live = true → l.id = toLE 8 (n + i)) →
    (L.filter Loc.live).map Loc.row = ((L.map (fun l => l.slot L0)).zipIdx n).filterMap (fun x => x.1.map (fun v =>
      (.arr [.bulk (toLE 8 x.2), .int v.payload.length, .int (shown v.time)] : Reply))) := by
  intro L
  induction L with
  | nil => intro n _ _; rfl
  | cons l L ih =>
    intro n hL hown
    have hl := hL l (List.mem_cons_self ..)
    have ih' := ih (n + 1) (fun x hx => hL x (List.mem_cons_of_mem _ hx)) (by
      intro i x hx hv
      rw [show n + 1 + i = n + (i + 1) by omega]
      exact hown (i + 1) x (by simpa using hx) hv)
    rw [List.map_cons, List.zipIdx_cons, List.filterMap_cons, List.filter_cons]
    cases hv : l.live with
    | false =>
      have h0 : l.slot L0 = none := by simp [Loc.slot, hv]
      rw [h0]; exact ih'
    | true =>
      have hid := hown 0 l rfl hv
      have hs := hlen l hl
      simp only [Loc.slot, hv, if_true, slotSize, Loc.val] at hs
      have h0 : l.slot L0 = some (l.val L0) := by simp [Loc.slot, hv]
      rw [h0]
      simp only [if_true, List.map_cons, ih', Option.map_some]
      simp only [Loc.row, scanRow, hid, Loc.val, hrec l hl, shown_small hs, Nat.add_zero]

theorem SeqRun.rows {cfg : Option Mode} {u : Nat} {tr : List (NsEvent × Reply)} {br : Branches} {s : Store}
    (h : SeqRun cfg u tr br s) {G : Log} (hi : SInv s G) (hG : absSlots G = specSeqRun [] (tr.map (·.1))) :
    (live G).map Loc.row = slotRows (specSeqRun [] (tr.map (·.1))) := by
  have hlen := specSeqRun_len (es := tr.map (·.1)) (m := [])
    (by intro e he; obtain ⟨x, hx, rfl⟩ := List.mem_map.1 he; exact h.ev x hx) (by simp)
  rw [← hG] at hlen ⊢
  refine slotRows_eq (locs G) ?_ (fun l hl => (hi.recs l hl).len) (locs G) 0 (fun l hl => hl) ?_
  · intro l hl
    exact hlen _ (List.mem_map_of_mem hl)
  · intro i l hl hv
    rw [Nat.zero_add]; exact hi.own i l hl hv

/-! ### C19 and C20 -/

/-- C19 (sequential): without writes in between, the rows received from SCAN are exactly the values in the order
    of their ids. -/
theorem C19_seq_scan_lists_all_ids_partial {cfg : Option Mode} {u : Nat} {tr : List (NsEvent × Reply)}
    {seg : List (Bool × (NsEvent × Reply))} {br br' : Branches} {s s' : Store} {rows : List Reply}
    (h : SeqRun cfg u tr br s) (hl : tr.length < maxEvents)
    (hr : NsRun cfg u br s (seg.map (·.2)) br' s') (hS : Session .scan none seg rows) (hsl : Sliced seg)
    (hq : Quiet seg) : rows = slotRows (specSeqRun [] (tr.map (·.1))) := by
  obtain ⟨G, hi, hG, -⟩ := h.inv
  have := hi.toCore.session (h.room hi hl) (Or.inl rfl) (by simp) hS hsl hq hr (rem := live G) rfl
  rw [this, h.rows hi hG]

/-- C19 (sequential): the iteration always comes to its end. -/
theorem C19_seq_scan_ends {cfg : Option Mode} {u : Nat} {tr : List (NsEvent × Reply)}
    {br : Branches} {s : Store} (h : SeqRun cfg u tr br s) (hl : tr.length < maxEvents) (name : Bytes)
    (cs : Nat → Ctx) (hcs : ∀ i, (cs i).u = u ∧ (cs i).conf.lock ≠ .frozen ∧ 1 ≤ (cs i).slice) :
    ∃ (seg : List (Bool × (NsEvent × Reply))) (rows : List Reply), Session .scan none seg rows ∧
      NsRun cfg u br s (seg.map (·.2)) br s ∧
      seg.length ≤ (slotRows (specSeqRun [] (tr.map (·.1)))).length + 1 ∧ OwnCalls .scan name cs seg := by
  obtain ⟨G, hi, hG, -⟩ := h.inv
  rw [← h.rows hi hG, List.length_map]
  exact hi.toCore.session_exists (h.room hi hl) (Or.inl rfl) (by simp) cfg br name _ cs hcs
    (rem := live G) rfl (Nat.le_refl _)

/-- C20 (sequential): while nothing is written, the rows received from RSCAN are exactly the values, the highest id
    first, provided the current index file has items. -/
theorem C20_seq_rscan_lists_all_ids_partial {cfg : Option Mode} {u : Nat} {tr : List (NsEvent × Reply)}
    {seg : List (Bool × (NsEvent × Reply))} {br br' : Branches} {s s' : Store} {rows : List Reply}
    (h : SeqRun cfg u tr br s) (hl : tr.length < maxEvents) (hne : ∀ f ∈ s.ifiles, 29 < f.length)
    (hr : NsRun cfg u br s (seg.map (·.2)) br' s') (hS : Session .rscan none seg rows) (hsl : Sliced seg)
    (hq : Quiet seg) : rows = (slotRows (specSeqRun [] (tr.map (·.1)))).reverse := by
  obtain ⟨G, hi, hG, -⟩ := h.inv
  have := hi.toCore.session (h.room hi hl) (Or.inr rfl) (fun _ => Or.inr (hi.irep.noEmpty hne)) hS hsl hq hr
    (rem := (live G).reverse) rfl
  rw [this, List.map_reverse, h.rows hi hG]

theorem C20_seq_rscan_ends_partial {cfg : Option Mode} {u : Nat} {tr : List (NsEvent × Reply)}
    {br : Branches} {s : Store} (h : SeqRun cfg u tr br s) (hl : tr.length < maxEvents)
    (hne : ∀ f ∈ s.ifiles, 29 < f.length) (name : Bytes)
    (cs : Nat → Ctx) (hcs : ∀ i, (cs i).u = u ∧ (cs i).conf.lock ≠ .frozen ∧ 1 ≤ (cs i).slice) :
    ∃ (seg : List (Bool × (NsEvent × Reply))) (rows : List Reply), Session .rscan none seg rows ∧
      NsRun cfg u br s (seg.map (·.2)) br s ∧
      seg.length ≤ (slotRows (specSeqRun [] (tr.map (·.1)))).length + 1 ∧ OwnCalls .rscan name cs seg := by
  obtain ⟨G, hi, hG, -⟩ := h.inv
  rw [← h.rows hi hG, List.length_map]
  exact hi.toCore.session_exists (h.room hi hl) (Or.inr rfl) (fun _ => Or.inr (hi.irep.noEmpty hne)) cfg
    br name _ cs hcs (rem := (live G).reverse) rfl (by simp)

set_option maxRecDepth 100000 in
/-- A concrete case of C19 and C20: after the commands of `exSeqCmds` the values 0, 2 and 4 are left. -/
example : (∀ f ∈ (runCmds (fun _ => []) (freshStore .seq) exSeqCmds).2.1.ifiles, 29 < f.length) ∧
    (dsCommand exCtx (fun _ => []) (runCmds (fun _ => []) (freshStore .seq) exSeqCmds).2.1 .scan [str "SCAN"]).2.2 =
      .arr [.bulk (encBKey ⟨8, 1, 4, 113, crc32 (str "four")⟩),
        .arr [.arr [.bulk (sid 0), .int 3, .int 1700000000], .arr [.bulk (sid 2), .int 5, .int 1700000000],
              .arr [.bulk (sid 4), .int 4, .int 1700000000]]] := ⟨by decide +kernel, rfl⟩

/-! ### C21 and C22 -/

set_option maxRecDepth 100000 in
/-- C21 and C22 are false in sequential mode: SCAN gives a cursor for the value 0; when this value is overwritten,
    the cursor is refused and the iteration cannot be resumed, so that value 1 is not shown. -/
theorem C21_seq_refuted : (runCmds (fun _ => []) (freshStore .seq)
      [(exCtx, .set, [str "SET", [], str "one"]), (exCtx, .set, [str "SET", [], str "two"]),
       (exNoSlice, .scan, [str "SCAN"]), (exCtx, .keycur, [str "KEYCUR", sid 0]),
       (exCtx, .set, [str "SET", sid 0, str "uno!"]),
       (exCtx, .scan, [str "SCAN", encBKey ⟨8, 0, 3, 29, crc32 (str "one")⟩])]).2.2.drop 2 =
    [.arr [.bulk (encBKey ⟨8, 0, 3, 29, crc32 (str "one")⟩), .arr [.arr [.bulk (sid 0), .int 3, .int 1700000000]]],
     .bulk (encBKey ⟨8, 0, 3, 29, crc32 (str "one")⟩),
     .bulk (sid 0), .err "Invalid key format"] := rfl

/-! ### C53 -/

/-- C53 (sequential): in every reachable state the four walks over the index end. -/
theorem C53_seq_walks_end {cfg : Option Mode} {u : Nat} {tr : List (NsEvent × Reply)}
    {br : Branches} {s : Store} (h : SeqRun cfg u tr br s) (hl : tr.length < maxEvents) :
    firstHeader s.ifiles ≠ .fuel ∧ lastHeader s ≠ .fuel ∧
    ∀ file off, nextHeader s.ifiles file off ≠ .fuel ∧ prevHeader s.ifiles file off ≠ .fuel := by
  obtain ⟨G, h1, -, -⟩ := h.inv
  have hlen : s.ifiles.length < 2 ^ 32 := by rw [h1.irep.length]; exact h.room h1 hl
  exact ⟨firstHeader_ends hlen, lastHeader_ends hlen, fun file off =>
    ⟨nextHeader_ends hlen file off, prevHeader_ends hlen (headOK h1.irep h1.toCore.items h1.prevs) file off⟩⟩

end Zdb
