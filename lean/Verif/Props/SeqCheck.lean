/-
Sequential parts of C24 (search on the map of a reachable namespace), C25 (CHECK) and C48 (offsets).
-/
import Verif.Props.Seq
import Verif.Props.Check
namespace Zdb

theorem SeqRun.slotOf {cfg : Option Mode} {u : Nat} {tr : List (NsEvent × Reply)} {br : Branches} {s : Store}
    (h : SeqRun cfg u tr br s) {k : Bytes} (hiss : fromLE k < ackedSets tr) :
    ∃ G, SInv s G ∧ Near G k ∧ (locs G).length = ackedSets tr := by
  obtain ⟨G, hi, hG, ha⟩ := h.inv
  have hl := specSeqRun_length [] tr ha
  rw [← hG, absSlots_length] at hl
  simp only [List.length_nil, Nat.zero_add] at hl
  exact ⟨G, hi, fun _ => Or.inl (by omega), hl⟩

/-- C24 (reachable namespaces): the map of a sequential namespace sends every id given out to an index file
    which holds, at the place of this id in the file, an item; if this item is not marked deleted its
    id is this id. -/
theorem C24_reachable_map_finds_the_item {cfg : Option Mode} {u : Nat} {tr : List (NsEvent × Reply)} {br : Branches} {s : Store}
    (h : SeqRun cfg u tr br s) (n : Nat) (hn : n < ackedSets tr) :
    ∃ m start j f it, s.seqmap = some m ∧ seqSearch m n = some (start, j) ∧ start ≤ n ∧
      s.ifiles[j]? = some f ∧ readExact f (29 + 42 * (n - start)) 42 = some (encItem it) ∧
      (isDeleted it.flags = false → it.id = toLE 8 n) := by
  obtain ⟨G, hi, hG, ha⟩ := h.inv
  have hl := specSeqRun_length [] tr ha
  rw [← hG, absSlots_length] at hl
  simp only [List.length_nil, Nat.zero_add] at hl
  obtain ⟨m, j, g, h1, h2, h3, h4, h5⟩ := hi.search n
  rw [List.getElem?_eq_getElem (by omega)] at h5
  cases hr : g[n - startOf G j]? with
  | none => rw [hr] at h5; cases h5
  | some r =>
    rw [hr] at h5
    simp only [Option.map_some, Option.some.injEq] at h5
    have hget : (locs G)[n]? = some ⟨j, 29 + 42 * (n - startOf G j), r⟩ := by
      rw [List.getElem?_eq_getElem (by omega), h5]
    have hmem := List.mem_of_getElem? hget
    obtain ⟨f, hf1, hf2⟩ := hi.toCore.readItem hmem
    have h8 := hi.ids8 _ hmem
    simp only [Loc.id] at h8 hf1 hf2
    rw [h8] at hf2
    refine ⟨m, _, j, f, r.item, h1, h2, h4, hf1, hf2, ?_⟩
    intro hd
    have := hi.own n _ hget (by simp [Loc.live, hd])
    exact this

/-- C25 (7): as C25 (5), for a sequential namespace. -/
theorem C25_seq_check_detects_burst {cfg : Option Mode} {u : Nat} {tr : List (NsEvent × Reply)}
    {br : Branches} {s : Store} (h : SeqRun cfg u tr br s) {c : Ctx} {k p : Bytes}
    (hiss : fromLE k < ackedSets tr)
    (hk : getSingle c br s k = .bulk p) (name : Bytes) (hname : name ≠ [])
    (hz : c.conf.lock ≠ .frozen) :
    ∃ n pre post, s.dfiles[n]? = some (pre ++ (p ++ post)) ∧
      ∀ q, BurstDiff (bufferBits p) (bufferBits q) →
        cmdCheck c br { s with dfiles := s.dfiles.set n (pre ++ (q ++ post)) } [name, k] = .int 0 := by
  obtain ⟨G, hi, hnear, -⟩ := h.slotOf hiss
  rw [seqGetSingle_spec hi k hnear, absSlots_get] at hk
  cases hg : slotGet G k with
  | none => rw [hg] at hk; simp [replyGet] at hk
  | some l =>
    rw [hg] at hk
    simp only [Option.map_some, replyGet, Reply.bulk.injEq, Loc.val] at hk
    have hrec := hi.getRec hg
    have hk8 := (hi.slot hg).1
    have hk0 : k ≠ [] := by intro h0; rw [h0] at hk8; simp at hk8
    have hk1 : k.length ≤ 255 := by omega
    obtain ⟨prev, hp, pre, post, h1, h2⟩ := hrec.data
    have hfile : l.r.item.dataid < s.dfiles.length := (List.getElem?_eq_some_iff.1 h1).1
    refine ⟨l.r.item.dataid, pre ++ (encDHdr (recHdr prev l.r) ++ l.r.item.id), post, ?_, ?_⟩
    · rw [h1, hk]; simp
    · intro q hq
      have hlen := hq.length
      have hne := C25_burst_detected p q hq
      have hz' : (c.conf.lock == .frozen) = false := by simpa using hz
      have hix : indexGet br { s with dfiles := s.dfiles.set l.r.item.dataid (pre ++ (encDHdr (recHdr prev l.r) ++ l.r.item.id) ++ (q ++ post)) } c.u k = some (l.sentry c.u) := by
        have hx := hi.indexGet (br := br) c.u k hnear
        rw [hg] at hx
        simp only [Zdb.indexGet, hi.mode] at hx ⊢
        exact hx
      simp only [cmdCheck, readChecks, argsValidate, NsConf.isFrozen, hz']
      simp only [List.length_cons, List.length_nil, List.any_cons, List.any_nil, Bool.or_false]
      have e1 : (name.isEmpty || k.isEmpty) = false := by simp [hname, hk0]
      simp only [e1, Nat.not_lt.2 hk1]
      simp only [ne_eq, not_true_eq_false, if_false, Bool.false_eq_true, gt_iff_lt, Nat.not_lt.2 hk1, hix, Loc.sentry, Loc.entry]
      have h3 : dataCheck { s with dfiles := s.dfiles.set l.r.item.dataid (pre ++ (encDHdr (recHdr prev l.r) ++ l.r.item.id) ++ (q ++ post)) } l.r.item.offset l.r.item.dataid = 0 := by
        simp only [dataCheck, List.getElem?_set_self hfile]
        rw [readExact_at (a := pre) (b := encDHdr (recHdr prev l.r)) (c := l.r.item.id ++ (q ++ post))
          (by simp) h2.symm (by simp [dhdrLen])]
        simp only [decDHdr_encDHdr _ (recHdr_wf hrec hp)]
        rw [readExact_at (a := pre ++ (encDHdr (recHdr prev l.r) ++ l.r.item.id)) (b := q) (c := post)
          (by simp) (by simp [h2, dhdrLen, recHdr]; omega)
          (by simp only [recHdr]; rw [hrec.len, hk]; omega)]
        simp only [recHdr, hrec.crc, hk]
        rw [if_neg (fun he => hne he.symm)]
      rw [h3]

/-- C25 (8): CHECK replies 1 for every id given out that GET finds. -/
theorem C25_seq_check_accepts_stored {cfg : Option Mode} {u : Nat} {tr : List (NsEvent × Reply)}
    {br : Branches} {s : Store} (h : SeqRun cfg u tr br s) {c : Ctx} {k p : Bytes}
    (hiss : fromLE k < ackedSets tr)
    (hk : getSingle c br s k = .bulk p) (name : Bytes) (hname : name ≠ [])
    (hz : c.conf.lock ≠ .frozen) : cmdCheck c br s [name, k] = .int 1 := by
  obtain ⟨G, hi, hnear, -⟩ := h.slotOf hiss
  rw [seqGetSingle_spec hi k hnear, absSlots_get] at hk
  cases hg : slotGet G k with
  | none => rw [hg] at hk; simp [replyGet] at hk
  | some l =>
    have hk8 := (hi.slot hg).1
    have hk0 : k ≠ [] := by intro h0; rw [h0] at hk8; simp at hk8
    have hz' : (c.conf.lock == .frozen) = false := by simpa using hz
    have hix := hi.indexGet (br := br) c.u k hnear
    rw [hg] at hix
    simp only [cmdCheck, readChecks, argsValidate, NsConf.isFrozen, hz']
    simp only [List.length_cons, List.length_nil, List.any_cons, List.any_nil, Bool.or_false]
    have e1 : (name.isEmpty || k.isEmpty) = false := by simp [hname, hk0]
    have hk1 : ¬ 255 < k.length := by omega
    simp only [e1, ne_eq, not_true_eq_false, if_false, Bool.false_eq_true, gt_iff_lt, hk1, hix, Option.map_some,
      Loc.sentry, Loc.entry, (hi.getRec hg).dataCheck]

/-- C48 (sequential mode): with a file size limit of at most 2 GiB, the offsets and lengths kept for an id
    given out fit in their 32-bit fields and point to its index item and to its payload. -/
theorem C48_seq_offsets_exact_partial {cfg : Option Mode} {u : Nat} {tr : List (NsEvent × Reply)}
    {br : Branches} {s : Store} (h : SeqRun cfg u tr br s) {c : Ctx} {k p : Bytes}
    (hiss : fromLE k < ackedSets tr) (hk : getSingle c br s k = .bulk p) :
    ∃ e f g it, indexGet br s u k = some e ∧ e.offset < 2 ^ 32 ∧ e.idxoffset < 2 ^ 32 ∧ e.length = p.length ∧
      p.length < 2 ^ 32 ∧
      s.dfiles[e.dataid]? = some f ∧ readExact f (e.offset + dhdrLen + k.length) p.length = some p ∧
      s.ifiles[e.indexid]? = some g ∧ readExact g e.idxoffset (itemHdr + k.length) = some (encItem it) ∧
      it.id = k ∧ it.offset = e.offset ∧ it.length = p.length ∧ it.dataid = e.dataid := by
  obtain ⟨G, hi, hnear, -⟩ := h.slotOf hiss
  rw [seqGetSingle_spec hi k hnear, absSlots_get] at hk
  cases hg : slotGet G k with
  | none => rw [hg] at hk; simp [replyGet] at hk
  | some l =>
    rw [hg] at hk
    simp only [Option.map_some, replyGet, Reply.bulk.injEq, Loc.val] at hk
    have hrec := hi.getRec hg
    obtain ⟨-, -, hmem, -, hid, -⟩ := hi.slot hg
    simp only [Loc.id] at hid
    have hwf := hrec.wf
    obtain ⟨f, prev, hp, h1, -, h3⟩ := hrec.readHdr
    obtain ⟨g, g1, g2⟩ := hi.toCore.readItem hmem
    have hx := hi.indexGet (br := br) u k hnear
    rw [hg] at hx
    refine ⟨l.sentry u, f, g, l.r.item, hx, ?_, hi.offs l hmem, ?_, ?_, h1, ?_, g1, ?_, hid, rfl, ?_, rfl⟩
    · have := hwf; simp only [Item.WF] at this; simp only [Loc.sentry, Loc.entry]; omega
    · simp only [Loc.sentry, Loc.entry]; rw [hrec.len, hk]
    · have := hwf; simp only [Item.WF] at this; rw [← hk, ← hrec.len]; omega
    · rw [← hk, ← hid]; exact h3
    · rw [← hid]; exact g2
    · rw [hrec.len, hk]

/-- A concrete case of the hypotheses: id 0 of the execution of Props/Seq. -/
example : fromLE (sid 0) < ackedSets (traceOf (fun _ => []) (freshStore .seq) exSeqCmds) := by decide +kernel

end Zdb
