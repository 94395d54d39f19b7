/-
The commands of a sequential namespace refine the specification.
-/
import Verif.Lemmas.SeqOps
import Verif.Lemmas.UserCmd
import Verif.Spec.SeqTrace
namespace Zdb

theorem near_iff {G : Log} {k : Bytes} : NearKey (absSlots G) k ↔ Near G k := by
  unfold NearKey Near
  rw [absSlots_length]

theorem SInv.getRec {s : Store} {G : Log} (h : SInv s G) {k : Bytes} {l : Loc}
    (hl : slotGet G k = some l) : RecOK s.dfiles l.r.item.dataid l.r :=
  h.recs l (h.slot hl).2.2.1

theorem slots_sum {D : List Bytes} {d : Loc → Nat} (L M : List Loc) (h : ∀ l ∈ L, RecOK D (d l) l.r) :
    ((L.filter Loc.live).map (fun l => l.r.item.length)).sum =
      ((L.map (fun l => l.slot M)).map slotSize).sum ∧
    (L.filter Loc.live).length = ((L.map (fun l => l.slot M)).filter Option.isSome).length := by
  induction L with
  | nil => simp
  | cons l L ih =>
    obtain ⟨i1, i2⟩ := ih (fun x hx => h x (List.mem_cons_of_mem _ hx))
    have hl := (h l (List.mem_cons_self ..)).len
    by_cases hlv : l.live = true
    · rw [List.filter_cons_of_pos hlv]
      have : l.slot M = some (l.val M) := by simp [Loc.slot, hlv]
      simp only [List.map_cons, this, List.sum_cons, slotSize, List.filter_cons, Option.isSome_some, if_true,
        List.length_cons, Loc.val]
      exact ⟨by rw [i1, hl], by rw [i2]⟩
    · rw [List.filter_cons_of_neg hlv]
      have : l.slot M = none := by simp [Loc.slot, hlv]
      simp only [List.map_cons, this, List.sum_cons, slotSize, List.filter_cons, Option.isSome_none]
      exact ⟨by rw [i1]; simp, by rw [i2]; rfl⟩

theorem SInv.total_eq {s : Store} {G : Log} (h : SInv s G) : s.datasize = (absSlots G).total := by
  rw [h.size]
  exact (slots_sum (locs G) (locs G) h.recs).1

theorem SInv.entries_eq {s : Store} {G : Log} (h : SInv s G) : s.entries = (absSlots G).count := by
  rw [h.entries]
  exact (slots_sum (locs G) (locs G) h.recs).2

theorem Slots.size_le (m : Slots) (k : Bytes) : slotSize (m.get k) ≤ m.total := by
  unfold Slots.get
  cases seqPos k with
  | none => exact Nat.zero_le _
  | some i =>
    simp only
    cases h : m[i]? with
    | none => exact Nat.zero_le _
    | some v =>
      simp only [Option.join_some]
      exact sum_le_of_mem (List.mem_map.2 ⟨v, List.mem_of_getElem? h, rfl⟩)

/-! ### file change -/


theorem SInv.fileLen {s : Store} {G : Log} (h : SInv s G) : Zdb.fileLen s.ifiles s.indexid = logEnd G :=
  h.irep.fileLen h.ne s.indexid h.iid

theorem seqJumpIfFull_spec {s : Store} {G : Log} (h : SInv s G)
    (hcap : s.ifiles.length < 2 ^ 32) (limit len : Nat) (hlim : limit ≤ 2 ^ 31)
    (hclean : CleanStep s (jumpIfFull limit s len)) :
    ∃ G1, SInv (jumpIfFull limit s len) G1 ∧ absSlots G1 = absSlots G ∧ slotGet G1 = slotGet G ∧
      locs G1 = locs G ∧
      Zdb.fileLen (jumpIfFull limit s len).dfiles (jumpIfFull limit s len).dataid ≤ 2 ^ 31 := by
  unfold jumpIfFull at hclean ⊢
  have hlen := h.irep.length
  by_cases hj : Zdb.fileLen s.dfiles s.dataid + len > limit
  · rw [if_pos hj] at hclean ⊢
    have hc := h.toCore.jump (by rw [h.mode]; rfl) (by omega)
    have hit : 29 < logEnd G := by
      rcases hclean with hc' | hc'
      · have h1 := hc.1.iid
        have h2 := h.iid
        have : (logJump G).length = G.length + 1 := by simp [logJump]
        omega
      · rw [h.fileLen] at hc'; exact hc'
    refine ⟨logJump G, h.jump (by omega) hit, absSlots_jump G, ?_, locs_jump G, ?_⟩
    · funext k; rw [slotGet, slotAt, locs_jump]; rfl
    · rw [hc.1.did, hc.2.2.2, hc.2.1, Zdb.fileLen, List.getElem?_append_right (by rw [h.dlen]; exact Nat.le_refl _), h.dlen]
      simp
  · rw [if_neg hj]
    exact ⟨G, h, rfl, rfl, rfl, by omega⟩

/-! ### SET -/

theorem seqUpToDate_iff {s : Store} {u : Nat} {l : Loc} (h : RecOK s.dfiles l.r.item.dataid l.r) (p : Bytes)
    (hp : p.length < 2 ^ 32) : upToDate s (some (l.sentry u)) p = decide (l.r.payload = p) := by
  have hd := h.dataGet
  rw [h.len] at hd
  simp only [upToDate, compareMatching, Loc.sentry, Loc.entry, hd, Nat.mod_eq_of_lt hp, h.len]
  by_cases he : l.r.payload = p
  · simp [he, h.crc]
  · by_cases hlen : l.r.payload.length = p.length
    · have : ¬ (List.take p.length l.r.payload = p) := by
        rw [← hlen, List.take_length]; exact he
      simp [hlen, he, this]
    · simp [hlen, he]

/-- What follows from a successful write of the payload under the id `id`. -/
theorem SInv.stored {s : Store} {G : Log} (h : SInv s G) (hfl : Zdb.fileLen s.dfiles s.dataid ≤ 2 ^ 31)
    (io : Io) (p : Bytes) (ts : Nat) (id : Bytes) (hid : id.length = 8)
    (hw : (io.dhdr.ok && io.dpay.ok) = true) :
    ∃ s1 off, dataInsert s io id p 0 (crc32 p) ts = (s1, off) ∧ off ≠ 0 ∧ off < 2 ^ 32 ∧ SInv s1 G ∧
      s1.nextentry = s.nextentry ∧ s1.dataid = s.dataid ∧
      (∃ prev, prev < 2 ^ 32 ∧ DataAt s1.dfiles s1.dataid off
        (encDHdr { idlength := id.length, datalength := p.length, previous := prev,
                   integrity := crc32 p, flags := 0, timestamp := ts } ++ (id ++ p))) ∧
      logEnd G < 2 ^ 32 ∧
      (∀ (g : List Rec) (f : Bytes), G[s1.indexid]? = some g → s1.dfiles[s1.indexid]? = some f →
        19 * (isize g + (34 + id.length)) ≤ 35 * (f.length - 28)) ∧
      s1.datasize + p.length ≤ (s1.dfiles.map List.length).sum ∧
      18 * ((locs G).length + 1) ≤ (s1.dfiles.map List.length).sum := by
  have hwr := dataInsert_ok (s := s) hw h.dataFile id p 0 (crc32 p) ts rfl
  generalize hdi : dataInsert s io id p 0 (crc32 p) ts = di at hwr
  obtain ⟨s1, off⟩ := di
  simp only at hwr
  obtain ⟨f, hf⟩ := h.dataFile
  obtain ⟨b, prev, hbl, hs1⟩ := hwr.eq
  have hoff : off = f.length := by rw [hwr.pos, Zdb.fileLen, hf]
  have hfl' : f.length ≤ 2 ^ 31 := by simpa [Zdb.fileLen, hf] using hfl
  obtain ⟨g, hg⟩ : ∃ g, G[s.dataid]? = some g := by
    have : s.dataid < G.length := by rw [h.did]; have := h.iid; omega
    exact ⟨_, List.getElem?_eq_getElem this⟩
  have hbnd := h.bound _ _ _ hg hf
  have h1 : SInv s1 G := by rw [hs1]; exact h.appendData b prev
  have hend : logEnd G < 2 ^ 32 := by
    obtain ⟨G', g', rfl⟩ := exists_concat h.ne
    have hii := h.iid
    have : s.dataid = G'.length := by rw [h.did]; simp at hii; omega
    rw [this] at hg
    simp at hg
    subst hg
    simp [logEnd]; omega
  have hds : s1.datasize = s.datasize := by rw [hs1]
  have hdd : s1.dataid = s.dataid := by rw [hs1]
  have hnn : s1.nextentry = s.nextentry := by rw [hs1]
  have hii : s1.indexid = s.indexid := by rw [hs1]
  have hdf : s1.dfiles = appendFile s.dfiles s.dataid b := by rw [hs1]
  have hsum : (s1.dfiles.map List.length).sum = (s.dfiles.map List.length).sum + b.length := by
    rw [hdf, sum_lengths_append _ _ _ (List.getElem?_eq_some_iff.1 hf).1]
  have := h.total
  have := h.few
  refine ⟨s1, off, rfl, by omega, by omega, h1, hnn, hdd, by rw [hdd]; exact hwr.data, hend, ?_, ?_, ?_⟩
  · intro g' f' hg' hf'
    rw [hii, ← h.did] at hg' hf'
    rw [hg] at hg'
    cases hg'
    rw [hdf, appendFile, List.getElem?_modify, hf] at hf'
    simp at hf'
    rw [← hf', List.length_append, hbl]
    omega
  · rw [hsum, hds, hbl]; omega
  · rw [hsum, hbl]; omega

theorem setHandlerSeq_spec {c : Ctx} (br : Branches) {s : Store} {G : Log} (h : SInv s G)
    (hio1 : c.io.iapp = none) (hio2 : c.io.iover = none) (k p : Bytes) (ts : Nat)
    (hp : p.length < 2 ^ 32) (hts : ts < 2 ^ 32)
    (hfl : Zdb.fileLen s.dfiles s.dataid ≤ 2 ^ 31) :
    ∃ G', (setHandlerSeq c br s k p ts ((slotGet G k).map (Loc.sentry c.u))).1 = br ∧
      SInv (setHandlerSeq c br s k p ts ((slotGet G k).map (Loc.sentry c.u))).2.1 G' ∧
      (absSlots G', (setHandlerSeq c br s k p ts ((slotGet G k).map (Loc.sentry c.u))).2.2) =
        (match (absSlots G).get k with
        | none =>
          if k ≠ [] then (absSlots G, Reply.err "Invalid key, only update authorized")
          else if !(c.io.dhdr.ok && c.io.dpay.ok) then (absSlots G, .err "Cannot write data right now")
          else ((absSlots G).push p ts, .bulk (toLE 8 (absSlots G).length))
        | some v =>
          if v.payload = p then (absSlots G, .nil)
          else if !(c.io.dhdr.ok && c.io.dpay.ok) then (absSlots G, .err "Cannot write data right now")
          else ((absSlots G).update k v p ts, .bulk k)) := by
  rw [absSlots_get]
  have key := h.stored hfl c.io p ts
  cases hgk : slotGet G k with
  | none =>
    simp only [Option.map_none]
    by_cases hk0 : k = []
    · subst hk0
      simp only [ne_eq, not_true_eq_false, if_false]
      by_cases hw : (c.io.dhdr.ok && c.io.dpay.ok) = true
      · rw [hw]
        simp only [Bool.not_true, Bool.false_eq_true, if_false]
        obtain ⟨s1, off, hdi, hoff0, hoff, h1, hnn, hdd, hdata, hend, hsl, htot, hfew⟩ :=
          key (toLE 8 s.nextentry) (toLE_length _ _) hw
        obtain ⟨i1, i2, i3⟩ := h1.insert c.u c.io hio1 (⟨toLE 8 s.nextentry, off, p.length, crc32 p, s1.dataid, ts⟩ : SetReq) p
          (by rw [hnn]) hoff rfl hp rfl rfl hts hdata hend hsl htot hfew
        have hst : setHandlerSeq c br s [] p ts none =
            (br, (insertSeq s1 c.u c.io (⟨toLE 8 s.nextentry, off, p.length, crc32 p, s1.dataid, ts⟩ : SetReq)).1, .bulk (toLE 8 s.nextentry)) := by
          simp only [setHandlerSeq, List.length_nil, ne_eq, not_true_eq_false, false_and, if_false, upToDate,
            Bool.false_eq_true, seqIdOf, hdi, if_neg hoff0, i1, if_true]
        rw [hst]
        refine ⟨_, rfl, i2, ?_⟩
        rw [i3, absSlots_length, h.next]
      · have hw' : (c.io.dhdr.ok && c.io.dpay.ok) = false := by simpa using hw
        rw [hw']
        simp only [Bool.not_false, if_true]
        obtain ⟨d1, b, d2⟩ := dataInsert_fail (s := s) hw' (toLE 8 s.nextentry) p 0 (crc32 p) ts
        have hst : setHandlerSeq c br s [] p ts none =
            (br, (dataInsert s c.io (toLE 8 s.nextentry) p 0 (crc32 p) ts).1, .err "Cannot write data right now") := by
          simp only [setHandlerSeq, List.length_nil, ne_eq, not_true_eq_false, false_and, if_false, upToDate,
            Bool.false_eq_true, seqIdOf, d1, if_true]
        rw [hst]
        refine ⟨G, rfl, ?_, rfl⟩
        rw [d2]; exact h.appendData b s.dprev
    · have hk0' : k.length ≠ 0 := fun e => hk0 (List.length_eq_zero_iff.1 e)
      have hst : setHandlerSeq c br s k p ts none = (br, s, .err "Invalid key, only update authorized") := by
        simp [setHandlerSeq, hk0]
      rw [hst]
      refine ⟨G, rfl, h, ?_⟩
      rw [if_pos hk0]
  | some l =>
    obtain ⟨hk8, -, -, -, hlid, -⟩ := h.slot hgk
    have hr := h.getRec hgk
    have hsid : seqIdOf s (some (l.sentry c.u)) = k := by
      have e : (l.sentry c.u).id = k := hlid
      simp only [seqIdOf, e, hk8]
      simp
    simp only [Option.map_some]
    have hval : (l.val (locs G)).payload = l.r.payload := rfl
    rw [hval]
    by_cases hpp : l.r.payload = p
    · rw [if_pos hpp]
      have hup : upToDate s (some (l.sentry c.u)) p = true := by
        rw [seqUpToDate_iff hr p hp]; simpa using hpp
      have hst : setHandlerSeq c br s k p ts (some (l.sentry c.u)) = (br, s, .nil) := by
        simp [setHandlerSeq, hup]
      rw [hst]
      exact ⟨G, rfl, h, rfl⟩
    · rw [if_neg hpp]
      have hup : upToDate s (some (l.sentry c.u)) p = false := by
        rw [seqUpToDate_iff hr p hp]; simpa using hpp
      by_cases hw : (c.io.dhdr.ok && c.io.dpay.ok) = true
      · rw [hw]
        simp only [Bool.not_true, Bool.false_eq_true, if_false]
        obtain ⟨s1, off, hdi, hoff0, hoff, h1, hnn, hdd, hdata, hend, hsl, htot, hfew⟩ := key k hk8 hw
        obtain ⟨G', i1, i2, i3, -, -⟩ := h1.update c.u c.io hio1 hio2 (⟨k, off, p.length, crc32 p, s1.dataid, ts⟩ : SetReq) p
          hgk hoff rfl hp rfl rfl hts hdata hend hsl htot hfew
        have hst : setHandlerSeq c br s k p ts (some (l.sentry c.u)) =
            (br, (updateSeq s1 c.u c.io (⟨k, off, p.length, crc32 p, s1.dataid, ts⟩ : SetReq) (l.sentry c.u)).1, .bulk k) := by
          simp only [setHandlerSeq, Option.isNone_some, Bool.false_eq_true, and_false, if_false, hup, hsid, hdi,
            if_neg hoff0, i1, if_true]
        rw [hst]
        exact ⟨G', rfl, i2, by rw [i3]⟩
      · have hw' : (c.io.dhdr.ok && c.io.dpay.ok) = false := by simpa using hw
        rw [hw']
        simp only [Bool.not_false, if_true]
        obtain ⟨d1, b, d2⟩ := dataInsert_fail (s := s) hw' k p 0 (crc32 p) ts
        have hst : setHandlerSeq c br s k p ts (some (l.sentry c.u)) =
            (br, (dataInsert s c.io k p 0 (crc32 p) ts).1, .err "Cannot write data right now") := by
          simp only [setHandlerSeq, Option.isNone_some, Bool.false_eq_true, and_false, if_false, hup, hsid, d1,
            if_true]
        rw [hst]
        refine ⟨G, rfl, ?_, rfl⟩
        rw [d2]; exact h.appendData b s.dprev

theorem overQuota_nat {conf : NsConf} {total len size : Nat} (hq : conf.maxsize < 2 ^ 63)
    (ht : total + len < 2 ^ 64) (hs : size < 2 ^ 32) (hle : size ≤ total) :
    overQuota conf total len size =
      decide (conf.maxsize ≠ 0 ∧ total - size + len > conf.maxsize) := by
  rw [overQuota, Nat.mod_eq_of_lt ht, Nat.mod_eq_of_lt (by omega)]
  by_cases h0 : conf.maxsize = 0
  · simp [h0]
  · by_cases h1 : total + len > conf.maxsize + size
    · have h2 : total - size + len > conf.maxsize := by omega
      simp [h0, h1, h2]
    · have h2 : ¬ (total - size + len > conf.maxsize) := by omega
      simp [h0, h1, h2]

theorem SInv.sizeOf {s : Store} {G : Log} (h : SInv s G) (u : Nat) (k : Bytes) :
    floatingOf ((slotGet G k).map (Loc.sentry u)) = slotSize ((absSlots G).get k) ∧
      slotSize ((absSlots G).get k) < 2 ^ 32 := by
  rw [absSlots_get]
  cases hg : slotGet G k with
  | none => simp [floatingOf, slotSize]
  | some l =>
    have := h.getRec hg
    have h2 := this.wf
    simp only [Item.WF] at h2
    simp only [Option.map_some, Loc.sentry, Loc.entry, Loc.val, floatingOf, slotSize]
    rw [← this.len]
    omega

theorem slotGet_nil (G : Log) : slotGet G [] = none := by
  simp [slotGet, slotAt, seqPos]

theorem appendEntry_indexid (s : Store) (io : Io) (e : Entry) : (appendEntry s io e).1.indexid = s.indexid := by
  unfold appendEntry
  dsimp only
  split <;> rfl

theorem dataInsert_indexid (s : Store) (io : Io) (id p : Bytes) (fl crc ts : Nat) :
    (dataInsert s io id p fl crc ts).1.indexid = s.indexid := by
  unfold dataInsert
  dsimp only
  repeat' split
  all_goals rfl

theorem overwriteItem_indexid (s : Store) (io : Io) (e : Entry) (fid off : Nat) :
    (overwriteItem s io e fid off).indexid = s.indexid := by
  unfold overwriteItem
  cases s.ifiles[fid]? with
  | none => rfl
  | some f =>
    simp only
    cases readExact f off itemHdr with
    | none => rfl
    | some b => simp only; split <;> rfl

theorem seqOverwrite_indexid (s : Store) (io : Io) (e : Entry) : (seqOverwrite s io e).indexid = s.indexid := by
  unfold seqOverwrite
  cases s.seqmap with
  | none => rfl
  | some m =>
    simp only
    cases seqSearch m (fromLE e.id) with
    | none => rfl
    | some x => simp only; exact overwriteItem_indexid _ _ _ _ _

theorem insertSeq_indexid (s : Store) (u : Nat) (io : Io) (r : SetReq) :
    (insertSeq s u io r).1.indexid = s.indexid := by
  unfold insertSeq
  have := appendEntry_indexid s io (r.entry u)
  generalize appendEntry s io (r.entry u) = x at this
  obtain ⟨a, b, c⟩ := x
  dsimp only at this ⊢
  split <;> exact this

theorem updateSeq_indexid (s : Store) (u : Nat) (io : Io) (r : SetReq) (ex : Entry) :
    (updateSeq s u io r ex).1.indexid = s.indexid := by
  unfold updateSeq
  have := appendEntry_indexid s io { ex with flags := setDeleted ex.flags }
  generalize appendEntry s io { ex with flags := setDeleted ex.flags } = x at this
  obtain ⟨a, b, c⟩ := x
  dsimp only at this ⊢
  split
  · rw [← this]; exact seqOverwrite_indexid _ _ _
  · exact this

theorem setHandlerSeq_indexid (c : Ctx) (br : Branches) (s : Store) (k p : Bytes) (ts : Nat)
    (ex : Option Entry) : (setHandlerSeq c br s k p ts ex).2.1.indexid = s.indexid := by
  unfold setHandlerSeq
  by_cases h1 : k.length ≠ 0 ∧ ex.isNone = true
  · rw [if_pos h1]
  rw [if_neg h1]
  by_cases h2 : upToDate s ex p = true
  · simp only [h2, if_true]
  simp only [h2, Bool.false_eq_true, if_false]
  have := dataInsert_indexid s c.io (seqIdOf s ex) p 0 (crc32 p) ts
  generalize dataInsert s c.io (seqIdOf s ex) p 0 (crc32 p) ts = x at this
  obtain ⟨a, b⟩ := x
  dsimp only at this ⊢
  split
  · exact this
  · cases ex with
    | none =>
      simp only
      split
      · rw [insertSeq_indexid]; exact this
      · rw [insertSeq_indexid]; exact this
    | some e =>
      simp only
      split
      · rw [updateSeq_indexid]; exact this
      · rw [updateSeq_indexid]; exact this

theorem seqSet_body_spec {c : Ctx} (br : Branches) {s : Store} {G : Log} (h : SInv s G)
    (hio1 : c.io.iapp = none) (hio2 : c.io.iover = none) (hlim : c.limit ≤ 2 ^ 31)
    (hcap : s.ifiles.length < 2 ^ 32) (htot : totalData s < 2 ^ 63) (hq : c.conf.maxsize < 2 ^ 63)
    (argv : List Bytes) (k p : Bytes) (hp : p.length < 2 ^ 32) (hn : Near G k)
    (hclean : CleanStep s (cmdSet.body c br s argv k p).2.1) :
    ∃ G', (cmdSet.body c br s argv k p).1 = br ∧ SInv (cmdSet.body c br s argv k p).2.1 G' ∧
      (absSlots G', (cmdSet.body c br s argv k p).2.2) =
        specSeqSet c.conf c.writable (c.io.dhdr.ok && c.io.dpay.ok) (absSlots G) k p
          (timestampFromSet c.now argv 3) := by
  unfold cmdSet.body at hclean ⊢
  unfold specSeqSet
  by_cases hk : k.length > 255
  · simp only [if_pos hk]; exact ⟨G, by trivial, h, rfl⟩
  simp only [if_neg hk] at hclean ⊢
  rw [lock_cases] at hclean ⊢
  cases hr : writeRefusal c.conf c.writable with
  | some msg => exact ⟨G, by trivial, h, rfl⟩
  | none =>
    rw [hr] at hclean
    simp only at hclean ⊢
    have hentry : (if k.length ≠ 0 then indexGet br s c.u k else none) =
        (slotGet G k).map (Loc.sentry c.u) := by
      by_cases h0 : k.length = 0
      · rw [List.length_eq_zero_iff.1 h0]; simp [slotGet_nil]
      · rw [if_pos h0, h.indexGet c.u k hn]
    rw [hentry, (h.sizeOf c.u k).1, h.total_eq] at hclean ⊢
    have hget : ((slotGet G k).map (Loc.sentry c.u)).isSome = ((absSlots G).get k).isSome := by
      rw [absSlots_get]; simp
    rw [hget] at hclean ⊢
    have hts := timestampFromSet_lt c.now argv 3
    have hqq := overQuota_nat (conf := c.conf) (total := (absSlots G).total) (len := p.length)
      (size := slotSize ((absSlots G).get k)) hq (by
      rw [← h.total_eq]; have := h.total; unfold totalData at htot; omega) (h.sizeOf c.u k).2 (Slots.size_le _ _)
    rw [hqq] at hclean ⊢
    by_cases hworm : (((absSlots G).get k).isSome && c.conf.worm) = true
    · simp only [hworm, if_true]; exact ⟨G, by trivial, h, rfl⟩
    · have hworm' : (((absSlots G).get k).isSome && c.conf.worm) = false := by simpa using hworm
      simp only [hworm', Bool.false_eq_true, if_false] at hclean ⊢
      by_cases hover : c.conf.maxsize ≠ 0 ∧ (absSlots G).total - slotSize ((absSlots G).get k) + p.length > c.conf.maxsize
      · rw [if_pos hover]
        simp only [decide_eq_true hover, if_true]
        exact ⟨G, by trivial, h, rfl⟩
      · rw [if_neg hover]
        simp only [decide_eq_false hover, Bool.false_eq_true, if_false, h.mode] at hclean ⊢
        obtain ⟨G1, j1, j2, j3, j4, j5⟩ := seqJumpIfFull_spec h hcap c.limit p.length hlim (by
          rcases hclean with hc | hc
          · left; rw [← hc]; symm; exact setHandlerSeq_indexid _ _ _ _ _ _ _
          · exact Or.inr hc)
        have := setHandlerSeq_spec br j1 hio1 hio2 k p _ hp hts j5
        rw [j2, j3] at this
        exact this

theorem seqDel_body_spec {c : Ctx} (br : Branches) {s : Store} {G : Log} (h : SInv s G)
    (hio2 : c.io.iflag = none) (argv : List Bytes) (k : Bytes) (hn : Near G k) :
    ∃ G', (cmdDel.body c br s argv k).1 = br ∧ SInv (cmdDel.body c br s argv k).2.1 G' ∧
      (absSlots G', (cmdDel.body c br s argv k).2.2) =
        specSeqDel c.conf c.writable (c.io.dhdr.ok && c.io.dpay.ok) (absSlots G) k := by
  unfold cmdDel.body specSeqDel
  by_cases hk : k.length > 255
  · simp only [if_pos hk]; exact ⟨G, by trivial, h, rfl⟩
  simp only [if_neg hk]
  rw [lock_cases]
  cases hr : writeRefusal c.conf c.writable with
  | some msg => exact ⟨G, by trivial, h, rfl⟩
  | none =>
    simp only
    rw [h.indexGet c.u k hn, absSlots_get]
    cases hg : slotGet G k with
    | none => simp only [Option.map_none, Option.isNone_none, if_true]; exact ⟨G, by trivial, h, rfl⟩
    | some l =>
      simp only [Option.map_some, Option.isNone_some, Bool.false_eq_true, if_false]
      by_cases hw : c.conf.worm = true
      · simp only [hw, if_true]; exact ⟨G, by trivial, h, rfl⟩
      · have hw' : c.conf.worm = false := by simpa using hw
        simp only [hw', Bool.false_eq_true, if_false]
        by_cases hd : (c.io.dhdr.ok && c.io.dpay.ok) = true
        · simp only [hd, Bool.not_true, Bool.false_eq_true, if_false]
          have hwr := dataInsert_ok (s := s) hd h.dataFile (l.sentry c.u).id [] 1 0
            (timestampFromSet c.now argv 2) rfl
          generalize dataInsert s c.io (l.sentry c.u).id [] 1 0 (timestampFromSet c.now argv 2) = di at hwr ⊢
          obtain ⟨s1, off⟩ := di
          simp only at hwr ⊢
          obtain ⟨f, hf⟩ := h.dataFile
          obtain ⟨b, prev, hbl, hs1⟩ := hwr.eq
          have hoff0 : off ≠ 0 := by
            obtain ⟨g, hg⟩ : ∃ g, G[s.dataid]? = some g := by
              have : s.dataid < G.length := by rw [h.did]; have := h.iid; omega
              exact ⟨_, List.getElem?_eq_getElem this⟩
            have hbnd := h.bound _ _ _ hg hf
            have hoff : off = f.length := by rw [hwr.pos, Zdb.fileLen, hf]
            omega
          have h1 : SInv s1 G := by rw [hs1]; exact h.appendData b prev
          obtain ⟨G', i1, i2, i3, i4, -⟩ := h1.delete br c.u c.io hio2 hg
          simp only [if_neg hoff0, i1, if_true]
          exact ⟨G', i2, i3, by rw [i4]⟩
        · have hd' : (c.io.dhdr.ok && c.io.dpay.ok) = false := by simpa using hd
          simp only [hd', Bool.not_false, if_true]
          obtain ⟨d1, b, d2⟩ := dataInsert_fail (s := s) hd' (l.sentry c.u).id [] 1 0
            (timestampFromSet c.now argv 2)
          simp only [d1, if_true]
          refine ⟨G, by trivial, ?_, rfl⟩
          rw [d2]; exact h.appendData b s.dprev

/-! ### reads -/

theorem seqGetSingle_spec {c : Ctx} {br : Branches} {s : Store} {G : Log} (h : SInv s G)
    (k : Bytes) (hn : Near G k) : getSingle c br s k = replyGet ((absSlots G).get k) := by
  simp only [getSingle, h.indexGet c.u k hn, absSlots_get]
  cases hg : slotGet G k with
  | none => rfl
  | some l =>
    have hd := (h.getRec hg).dataGet
    simp only [Option.map_some, Loc.sentry, Loc.entry, hd, replyGet, Loc.val]

theorem seqReadChecks_spec {c : Ctx} {m : Slots} (name k : Bytes) (hn : name ≠ []) (f : Bytes → Reply)
    (g : Option Val → Reply) (hfg : f k = g (m.get k)) :
    readChecks c [name, k] f = specSeqRead c.conf m k g := by
  simp only [readChecks, argsValidate, specSeqRead, NsConf.isFrozen]
  by_cases hk : k = []
  · subst hk; simp [errArg]
  · by_cases hl : k.length > 255
    · simp [hk, hn, hl]
    · by_cases hz : c.conf.lock = .frozen
      · simp [hk, hn, hl, hz, errFrozen]
      · simp [hk, hn, hl, hz, hfg]

theorem seqMget_spec {c : Ctx} {br : Branches} {s : Store} {G : Log} (h : SInv s G)
    (name : Bytes) (ks : List Bytes) (hn : ∀ k ∈ ks, Near G k) :
    cmdMget c br s (name :: ks) = specSeqMget c.conf (absSlots G) ks := by
  cases ks with
  | nil => rfl
  | cons k ks =>
    unfold cmdMget specSeqMget
    simp only [NsConf.isFrozen]
    by_cases h1 : ∃ x ∈ k :: ks, x.length > 255
    · have h1' : (k :: ks).any (fun k => decide (k.length > 255)) = true := by
        rw [List.any_eq_true]; simpa using h1
      simp only [h1', h1, if_true]
      simp
    · have h1' : (k :: ks).any (fun k => decide (k.length > 255)) = false := by
        rw [Bool.eq_false_iff]; intro h2; exact h1 (by rw [List.any_eq_true] at h2; simpa using h2)
      simp only [h1', h1, Bool.false_eq_true, if_false]
      by_cases hz : c.conf.lock = .frozen
      · simp [hz, errFrozen]
      · have : (k :: ks).map (getSingle c br s) = (k :: ks).map (fun k => replyGet ((absSlots G).get k)) :=
          List.map_congr_left (fun x hx => seqGetSingle_spec h x (hn x hx))
        rw [this]
        simp [hz]

end Zdb
