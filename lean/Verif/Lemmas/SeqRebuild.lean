/-
The rebuild tool on the data files of a sequential namespace.
-/
import Verif.Lemmas.RebuildPass
import Verif.Lemmas.SeqData
import Verif.Lemmas.SeqCrash
namespace Zdb

/-! ### the index functions do not read the data files -/

theorem insertSeq_withData (s : Store) (F : List Bytes) (q u : Nat) (io : Io) (r : SetReq) :
    insertSeq (s.withData F q) u io r = ((insertSeq s u io r).1.withData F q, (insertSeq s u io r).2) := by
  unfold insertSeq
  rw [appendEntry_withData]
  generalize appendEntry s io (r.entry u) = x
  obtain ⟨a, b, c⟩ := x
  dsimp only
  split <;> rfl

theorem overwriteItem_withData (s : Store) (F : List Bytes) (q : Nat) (io : Io) (e : Entry) (fid off : Nat) :
    overwriteItem (s.withData F q) io e fid off = (overwriteItem s io e fid off).withData F q := by
  have hi : (s.withData F q).ifiles = s.ifiles := rfl
  unfold overwriteItem
  rw [hi]
  cases s.ifiles[fid]? with
  | none => rfl
  | some f =>
    simp only
    cases readExact f off itemHdr with
    | none => rfl
    | some b => simp only; split <;> rfl

theorem seqOverwrite_withData (s : Store) (F : List Bytes) (q : Nat) (io : Io) (e : Entry) :
    seqOverwrite (s.withData F q) io e = (seqOverwrite s io e).withData F q := by
  have hi : (s.withData F q).seqmap = s.seqmap := rfl
  unfold seqOverwrite
  rw [hi]
  cases s.seqmap with
  | none => rfl
  | some m =>
    simp only
    cases seqSearch m (fromLE e.id) with
    | none => rfl
    | some x => simp only; exact overwriteItem_withData _ _ _ _ _ _ _

theorem updateSeq_withData (s : Store) (F : List Bytes) (q u : Nat) (io : Io) (r : SetReq) (ex : Entry) :
    updateSeq (s.withData F q) u io r ex = ((updateSeq s u io r ex).1.withData F q, (updateSeq s u io r ex).2) := by
  unfold updateSeq
  rw [appendEntry_withData]
  generalize appendEntry s io { ex with flags := setDeleted ex.flags } = x
  obtain ⟨a, b, c⟩ := x
  have hi : (a.withData F q).indexid = a.indexid := rfl
  dsimp only
  split
  · rw [hi, seqOverwrite_withData]; rfl
  · rfl

theorem seqGet_withData (s : Store) (F : List Bytes) (q u : Nat) (k : Bytes) : seqGet (s.withData F q) u k = seqGet s u k := rfl

theorem indexGet_seqData {br : Branches} {s : Store} (F : List Bytes) (q u : Nat) (k : Bytes) :
    indexGet br (s.withData F q) u k = indexGet br s u k := rfl

/-! ### one record -/

/-- The lookup of an id that was given out, or of the next one. -/
theorem SInv.indexGet_next {br : Branches} {s : Store} {G : Log} (h : SInv s G) (u : Nat) (k : Bytes)
    (hn : k.length = 8 → fromLE k < (locs G).length ∨ fromLE k = (locs G).length) (hend : logEnd G < 2 ^ 32) :
    Zdb.indexGet br s u k = (slotGet G k).map (Loc.sentry u) := by
  have hg : Zdb.seqGet s u k = (slotAt G k).map (Loc.sentry u) := by
    refine h.look.seqGetLast u k (fun hk => ?_)
    rcases hn hk with hn | hn
    · exact Or.inl hn
    · right
      rw [hn]
      obtain ⟨G', g', rfl⟩ := exists_concat h.ne
      have h8 : ∀ r ∈ g', r.item.id.length = 8 := by
        intro r hr
        obtain ⟨l, hl, rfl⟩ := log_mem_locs (G := G' ++ [g']) (j := G'.length) (by simp) hr
        exact h.ids8 l hl
      have e1 : startOf (G' ++ [g']) ((G' ++ [g']).length - 1) = (G'.map List.length).sum := by
        simp [startOf]
      have e2 : (locs (G' ++ [g'])).length = (G'.map List.length).sum + g'.length := by
        rw [locs_length]; simp
      have e3 : logEnd (G' ++ [g']) = 29 + 42 * g'.length := by
        simp [logEnd, isize_eight h8]
      rw [e1, e2]
      rw [e3] at hend
      omega
  simp only [Zdb.indexGet, h.mode, hg, slotGet]
  cases hg : slotAt G k with
  | none => rfl
  | some l =>
    simp only [Option.map_some, Option.filter_some]
    have e : isDeleted (l.sentry u).flags = !l.live := by simp [Loc.sentry, Loc.entry, Loc.live]
    rw [e]
    cases l.live <;> rfl

theorem slotGet_none_of {G : Log} {k : Bytes} (h : (absSlots G).get k = none) : slotGet G k = none := by
  rw [absSlots_get] at h
  cases hg : slotGet G k with
  | none => rfl
  | some l => rw [hg] at h; cases h

theorem slotGet_some_of {G : Log} {k : Bytes} {v : Val} (h : (absSlots G).get k = some v) :
    ∃ l, slotGet G k = some l ∧ l.val (locs G) = v := by
  rw [absSlots_get] at h
  cases hg : slotGet G k with
  | none => rw [hg] at h; cases h
  | some l => rw [hg] at h; injection h with h; exact ⟨l, rfl, h⟩

/-- The next index item fits after a data file of at most 2 GiB. -/
theorem SInv.logEnd_lt {s : Store} {G : Log} (h : SInv s G) (hfl : Zdb.fileLen s.dfiles s.dataid ≤ 2 ^ 31) : logEnd G < 2 ^ 32 := by
  obtain ⟨f, hf⟩ := h.dataFile
  have hfl' : f.length ≤ 2 ^ 31 := by simpa [Zdb.fileLen, hf] using hfl
  obtain ⟨g, hg⟩ : ∃ g, G[s.dataid]? = some g := by
    have : s.dataid < G.length := by rw [h.did]; have := h.iid; omega
    exact ⟨_, List.getElem?_eq_getElem this⟩
  have hbnd := h.bound _ _ _ hg hf
  obtain ⟨G', g', rfl⟩ := exists_concat h.ne
  have hii := h.iid
  have : s.dataid = G'.length := by rw [h.did]; simp at hii; omega
  rw [this] at hg
  simp at hg
  subst hg
  simp [logEnd]; omega

theorem rebuildRecord_seq {br : Branches} {u : Nat} {t : Store} {G : Log} (h : SInv t G) {r : DRec} (hw : r.WF) {m : Slots}
    (hs : r.what.stepSeq (absSlots G) = some m) (hfl : r.del = false → fileLen t.dfiles t.dataid ≤ 2 ^ 31)
    (hcnt : (locs G).length < 2 ^ 64) (F : List Bytes) (q : Nat) :
    ∃ t' G', rebuildRecord br (t.withData F q) u r.hdr r.id (fileLen t.dfiles t.dataid) = some (br, t'.withData F q, true) ∧
      SInv t' G' ∧ absSlots G' = m ∧ t'.dfiles = appendFile t.dfiles t.dataid r.enc ∧ t'.dataid = t.dataid ∧
      t'.seqmap = t.seqmap := by
  obtain ⟨id, payload, prev, del, time⟩ := r
  have hrid : (DRec.mk id payload prev del time).id = id := rfl
  cases del with
  | true =>
    generalize hb : DRec.enc ⟨id, payload, prev, true, time⟩ = b
    have h1 := h.appendData b t.dprev
    have hwd : t.withData F q = Store.withData { t with dfiles := appendFile t.dfiles t.dataid b, dprev := t.dprev } F q := rfl
    have hflag : isDeleted (DRec.hdr ⟨id, payload, prev, true, time⟩).flags = true := by rfl
    simp only [DRec.what, if_true, Write.stepSeq] at hs
    cases hv : (absSlots G).get id with
    | none => rw [hv] at hs; simp at hs
    | some v =>
      rw [hv] at hs
      simp only [Option.isSome_some, if_true] at hs
      injection hs with hs
      obtain ⟨l, hl, -⟩ := slotGet_some_of hv
      obtain ⟨hk8, -, -, -, -, hlt⟩ := h.slot hl
      obtain ⟨G', i1, i2, i3, i4, -⟩ := h1.delete br u Io.good rfl hl
      have hsm := indexDelete_same br { t with dfiles := appendFile t.dfiles t.dataid b, dprev := t.dprev } u Io.good (l.sentry u)
      refine ⟨_, G', ?_, i3, by rw [i4]; exact hs, hsm.df, hsm.did, indexDelete_seqmap _ _ _ _ _⟩
      simp only [rebuildRecord, hflag, if_true, hrid]
      rw [indexGet_seqData, h.indexGet u id (fun _ => Or.inl hlt), hl]
      simp only [Option.map_some]
      rw [hwd, indexDelete_withData, i1, i2]
  | false =>
    have hfl := hfl rfl
    have hflag : isDeleted (DRec.hdr ⟨id, payload, prev, false, time⟩).flags = false := by rfl
    simp only [DRec.what, Bool.false_eq_true, if_false, Write.stepSeq] at hs
    have hend := h.logEnd_lt hfl
    have hid8 : id.length = 8 := by
      cases hv : (absSlots G).get id with
      | none =>
        rw [hv] at hs
        simp only at hs
        split at hs
        · rename_i he; rw [he]; exact toLE_length _ _
        · cases hs
      | some v =>
        obtain ⟨l, hl, -⟩ := slotGet_some_of hv
        exact (h.slot hl).1
    -- the record as the daemon writes it
    generalize hb : DRec.enc ⟨id, payload, prev, false, time⟩ = b
    have hb' : b = encDHdr { idlength := id.length, datalength := payload.length, previous := prev, integrity := crc32 payload, flags := 0, timestamp := time } ++ (id ++ payload) := by
      rw [← hb, DRec.enc_eq]; rfl
    obtain ⟨f, hf⟩ := h.dataFile
    have hoff : fileLen t.dfiles t.dataid = f.length := by rw [fileLen, hf]
    have hbl : b.length = 18 + id.length + payload.length := by rw [hb']; simp; omega
    have hfl' : f.length ≤ 2 ^ 31 := by rw [← hoff]; exact hfl
    obtain ⟨g, hg⟩ : ∃ g, G[t.dataid]? = some g := by
      have : t.dataid < G.length := by rw [h.did]; have := h.iid; omega
      exact ⟨_, List.getElem?_eq_getElem this⟩
    have hbnd := h.bound _ _ _ hg hf
    have h1 := h.appendData b t.dprev
    have hslack : ∀ (g : List Rec) (f : Bytes), G[t.indexid]? = some g → (appendFile t.dfiles t.dataid b)[t.indexid]? = some f →
        19 * (isize g + (34 + id.length)) ≤ 35 * (f.length - 28) := by
      intro g' f' hg' hf'
      rw [← h.did] at hg' hf'
      rw [hg] at hg'
      cases hg'
      rw [appendFile, List.getElem?_modify, hf] at hf'
      simp at hf'
      rw [← hf', List.length_append, hbl]
      omega
    have hsum : ((appendFile t.dfiles t.dataid b).map List.length).sum = (t.dfiles.map List.length).sum + b.length :=
      sum_lengths_append _ _ _ (List.getElem?_eq_some_iff.1 hf).1
    have htot : t.datasize + payload.length ≤ ((appendFile t.dfiles t.dataid b).map List.length).sum := by
      rw [hsum, hbl]; have := h.total; omega
    have hfew : 18 * ((locs G).length + 1) ≤ ((appendFile t.dfiles t.dataid b).map List.length).sum := by
      rw [hsum, hbl]; have := h.few; omega
    have hdata : ∃ prev, prev < 2 ^ 32 ∧ DataAt (appendFile t.dfiles t.dataid b) t.dataid f.length
        (encDHdr { idlength := id.length, datalength := payload.length, previous := prev,
                   integrity := crc32 payload, flags := 0, timestamp := time } ++ (id ++ payload)) :=
      ⟨prev, hw.prev, by rw [← hb']; exact DataAt.new hf _⟩
    have hget : indexGet br (t.withData F q) u id = (slotGet G id).map (Loc.sentry u) := by
      rw [indexGet_seqData]
      refine h.indexGet_next u id (fun _ => ?_) hend
      cases hv : (absSlots G).get id with
      | none =>
        rw [hv] at hs
        simp only at hs
        split at hs
        · rename_i he
          right
          rw [he, fromLE_toLE, absSlots_length]
          exact Nat.mod_eq_of_lt (by simpa using hcnt)
        · cases hs
      | some v =>
        obtain ⟨l, hl, -⟩ := slotGet_some_of hv
        exact Or.inl (h.slot hl).2.2.2.2.2
    have hmode : (t.withData F q).mode = .seq := h.mode
    simp only [rebuildRecord, hflag, Bool.false_eq_true, if_false, hrid, hget, hoff]
    have hreq : (⟨id, f.length, (DRec.hdr ⟨id, payload, prev, false, time⟩).datalength, (DRec.hdr ⟨id, payload, prev, false, time⟩).integrity,
        (t.withData F q).dataid, (DRec.hdr ⟨id, payload, prev, false, time⟩).timestamp⟩ : SetReq) =
        ⟨id, f.length, payload.length, crc32 payload, t.dataid, time⟩ := rfl
    rw [hreq]
    generalize hs1 : ({ t with dfiles := appendFile t.dfiles t.dataid b, dprev := t.dprev } : Store) = s1 at h1
    have hwd : t.withData F q = s1.withData F q := by rw [← hs1]; rfl
    have e1 : s1.dfiles = appendFile t.dfiles t.dataid b := by rw [← hs1]
    have e2 : s1.dataid = t.dataid := by rw [← hs1]
    have e3 : s1.indexid = t.indexid := by rw [← hs1]
    have e4 : s1.datasize = t.datasize := by rw [← hs1]
    have e5 : s1.nextentry = t.nextentry := by rw [← hs1]
    have e6 : s1.seqmap = t.seqmap := by rw [← hs1]
    rw [← e1] at hslack htot hdata hfew
    rw [← e2] at hdata
    rw [← e3] at hslack
    rw [← e4] at htot
    cases hv : (absSlots G).get id with
    | none =>
      rw [hv] at hs
      simp only at hs
      rw [slotGet_none_of hv]
      by_cases he : id = toLE 8 (absSlots G).length
      · rw [if_pos he] at hs
        injection hs with hs
        obtain ⟨i1, i2, i3⟩ := h1.insert u Io.good rfl (⟨id, f.length, payload.length, crc32 payload, t.dataid, time⟩ : SetReq) payload
          (by rw [e5, h.next, ← absSlots_length]; exact he) (by simp only; omega) rfl hw.len rfl e2.symm hw.time hdata hend hslack htot hfew
        have hsm := insertSeq_same s1 u Io.good ⟨id, f.length, payload.length, crc32 payload, t.dataid, time⟩
        refine ⟨_, _, ?_, i2, by rw [i3]; exact hs, by rw [hsm.df, e1], by rw [hsm.did, e2], by rw [insertSeq_seqmap, e6]⟩
        simp only [indexSet, hmode, Option.map_none]
        rw [hwd, insertSeq_withData, i1]
      · rw [if_neg he] at hs; cases hs
    | some v =>
      rw [hv] at hs
      simp only at hs
      injection hs with hs
      obtain ⟨l, hl, hlv⟩ := slotGet_some_of hv
      rw [hl]
      obtain ⟨G', i1, i2, i3, -⟩ := h1.update u Io.good rfl rfl (⟨id, f.length, payload.length, crc32 payload, t.dataid, time⟩ : SetReq) payload
        hl (by simp only; omega) rfl hw.len rfl e2.symm hw.time hdata hend hslack htot hfew
      have hsm := updateSeq_same s1 u Io.good ⟨id, f.length, payload.length, crc32 payload, t.dataid, time⟩ (l.sentry u)
      refine ⟨_, G', ?_, i2, by rw [i3, hlv]; exact hs, by rw [hsm.df, e1], by rw [hsm.did, e2], by rw [updateSeq_seqmap, e6]⟩
      simp only [indexSet, hmode, Option.map_some]
      rw [hwd, updateSeq_withData, i1]

/-! ### one file -/

theorem cutAt_map_append (T : Nat) (r : DRec) (g : List DRec) (h : ¬ (T > 0 ∧ r.time > T)) : cutAt T (r :: g) = r :: cutAt T g := by
  simp only [cutAt, if_neg h]

/-- The rest of one file. -/
theorem rebuildPass_seq {u : Nat} (T : Nat) (D0 : List (List DRec)) (rest : List DRec) (F : List Bytes) (q : Nat) {f : Bytes} {m : Slots}
    (fuel : Nat) (hfu : rest.length < fuel) (a : List DRec) (hf : f = encDFile D0.length (a ++ rest))
    (hw : ∀ r ∈ rest, r.WF) (hroom : DRoom (a ++ rest)) {br : Branches} {t : Store} {G : Log} (h : SInv t G)
    (hd : t.dfiles = (D0 ++ [a]).mapIdx encDFile) (hs : replaySlots (absSlots G) ((cutAt T rest).map DRec.what) = some m)
    (hm : m.length < 2 ^ 64) :
    ∃ t' G', rebuildPass T u f fuel br (t.withData F q) (28 + dsize a) = .ok br (t'.withData F q) ∧
      SInv t' G' ∧ absSlots G' = m ∧ t'.dfiles = (D0 ++ [a ++ rest]).mapIdx encDFile ∧ t'.seqmap = t.seqmap := by
  induction rest generalizing fuel a t G with
  | nil =>
    injection hs with hs
    cases fuel with
    | zero => cases hfu
    | succ fuel =>
      refine ⟨t, G, ?_, h, hs, by simpa using hd, rfl⟩
      have : readExact f (28 + dsize a) 1 = none := readExact_eq_none (by decide) (by rw [hf, encDFile_length]; simp)
      simp only [rebuildPass, this]
  | cons r rest ih =>
    cases fuel with
    | zero => cases hfu
    | succ fuel =>
      have hwr := hw r (List.mem_cons_self ..)
      have hdid : t.dataid = D0.length := by
        have h1 := h.dlen
        have h2 := h.did
        have h3 := h.iid
        rw [hd] at h1; simp at h1; omega
      have hfe : f = (encDFHeader (freshDFHeader D0.length) ++ a.flatMap DRec.enc) ++ (r.enc ++ rest.flatMap DRec.enc) := by
        rw [hf, encDFile]; simp
      have hpos : 28 + dsize a = (encDFHeader (freshDFHeader D0.length) ++ a.flatMap DRec.enc).length := by
        rw [List.length_append, flatMap_enc_length, freshDFHeader_length]
      generalize encDFHeader (freshDFHeader D0.length) ++ a.flatMap DRec.enc = X at hfe hpos
      have r1 : readExact f (28 + dsize a) 1 = some (toLE 1 r.id.length) :=
        readExact_at (a := X) (c := (encDHdr r.hdr).drop 1 ++ (r.id ++ r.payload) ++ rest.flatMap DRec.enc)
          (by rw [hfe, DRec.enc, encDHdr]; simp [DRec.hdr]) hpos (by simp)
      have hl1 : fromLE (toLE 1 r.id.length) = r.id.length := fromLE_toLE1 hwr.id1
      have r2 : readExact f (28 + dsize a) (dhdrLen + r.id.length) = some (encDHdr r.hdr ++ r.id) :=
        readExact_at (a := X) (c := r.payload ++ rest.flatMap DRec.enc) (by rw [hfe, DRec.enc_eq]; simp) hpos
          (by simp [dhdrLen])
      have hdec : decDHdr (encDHdr r.hdr ++ r.id) = r.hdr := decDHdr_encDHdr_append _ (DRec.hdr_wf hwr) _
      have hts : r.hdr.timestamp = r.time := rfl
      have happ : ∀ x : List DRec, appendFile t.dfiles t.dataid (x.flatMap DRec.enc) = (D0 ++ [a ++ x]).mapIdx encDFile := by
        intro x
        rw [hd, hdid, mapIdx_concat', mapIdx_concat']
        have := appendFile_last (D0.mapIdx encDFile) (encDFile D0.length a) (x.flatMap DRec.enc)
        have hl : (D0.mapIdx encDFile).length = D0.length := by simp
        rw [hl] at this
        rw [this, encDFile, encDFile]
        simp
      by_cases hT : T > 0 ∧ r.time > T
      · simp only [cutAt, if_pos hT, List.map_nil] at hs
        injection hs with hs
        refine ⟨{ t with dfiles := appendFile t.dfiles t.dataid ((r :: rest).flatMap DRec.enc), dprev := t.dprev }, G, ?_,
          h.appendData _ _, hs, happ _, rfl⟩
        simp only [rebuildPass, r1, hl1, r2, hdec, hts, if_pos hT]
        rfl
      rw [cutAt_map_append T r rest hT, List.map_cons] at hs
      have hlen := replaySlots_length hs
      simp only [replaySlots] at hs
      cases hst : r.what.stepSeq (absSlots G) with
      | none => rw [hst] at hs; cases hs
      | some m1 =>
        rw [hst, Option.bind_some] at hs
        have hfl : fileLen t.dfiles t.dataid = 28 + dsize a := by
          rw [hd, hdid, fileLen, mapIdx_concat']
          have : (D0.mapIdx encDFile).length = D0.length := by simp
          rw [List.getElem?_append_right (by simp)]
          simp [encDFile_length]
        obtain ⟨t1, G1, i1, i2, i3, i4, i5, i6⟩ := rebuildRecord_seq (br := br) (u := u) h hwr hst
          (fun hdel => by rw [hfl]; exact hroom a r rest rfl hdel) (by rw [← absSlots_length]; omega) F q
        have hd1 : t1.dfiles = (D0 ++ [a ++ [r]]).mapIdx encDFile := by
          rw [i4, ← happ]; simp
        obtain ⟨t', G', j1, j2, j3, j4, j5⟩ := ih fuel (by simpa using hfu) (a ++ [r]) (by simpa using hf)
          (fun x hx => hw x (List.mem_cons_of_mem _ hx)) (by simpa using hroom) i2 hd1 (by rw [i3]; exact hs)
        refine ⟨t', G', ?_, j2, j3, by simpa using j4, by rw [j5, i6]⟩
        have hdrop : (encDHdr r.hdr ++ r.id).drop dhdrLen = r.id := by
          rw [List.drop_append]; simp [dhdrLen]
        rw [hfl] at i1
        simp only [rebuildPass, r1, hl1, r2, hdec, hdrop, i1, hts, if_neg hT, if_true]
        have hnext : 28 + dsize a + dhdrLen + r.id.length + r.hdr.datalength = 28 + dsize (a ++ [r]) := by
          rw [dsize_snoc, DRec.enc_length]
          simp only [DRec.hdr, dhdrLen]; omega
        rw [hnext]
        exact j1

/-! ### all files -/

/-- The records that the tool processes are those of the files `C`: the current index file is not empty if the last of them
    stores a payload. -/
theorem SInv.items {t : Store} {G : Log} (h : SInv t G) {C : List (List DRec)} {c : List DRec}
    (hst : ∃ pre, t.seqmap = some (pre ++ dstarts 0 0 (C ++ [c])) ∧ (pre = [] ∨ pre = [(0, 0)]))
    (hlen : (C ++ [c]).length = G.length) (hsum : (absSlots G).length = ((C ++ [c]).map dcount).sum) :
    logEnd G = 29 + 42 * dcount c := by
  obtain ⟨p, a1, a2⟩ := h.map
  obtain ⟨q, b1, b2⟩ := hst
  rw [a1, Option.some.injEq] at b1
  have he := (List.append_inj' b1 (by rw [startsFrom_length, dstarts_length, hlen])).2
  obtain ⟨G', g', rfl⟩ := exists_concat h.ne
  have hl' : C.length = G'.length := by simpa using hlen
  have h8 : ∀ r ∈ g', r.item.id.length = 8 := by
    intro r hr
    obtain ⟨l, hl, rfl⟩ := log_mem_locs (G := G' ++ [g']) (j := G'.length) (by simp) hr
    exact h.ids8 l hl
  rw [startsFrom_append, dstarts_append] at he
  have he2 := (List.append_inj he (by rw [startsFrom_length, dstarts_length, hl'])).2
  simp only [startsFrom, dstarts, Nat.zero_add, List.cons.injEq, Prod.mk.injEq] at he2
  have e1 := he2.1.1
  rw [absSlots_length, locs_length] at hsum
  simp only [List.map_append, List.sum_append, List.map_cons, List.map_nil, List.sum_cons, List.sum_nil] at hsum
  have e3 : logEnd (G' ++ [g']) = 29 + 42 * g'.length := by
    simp [logEnd, isize_eight h8]
  rw [e3]
  omega

/-- The files in which the limit is passed at once: the tool makes index files without items for them. -/
theorem rebuildLoop_over {u : Nat} (T : Nat) (E : List (List DRec)) {br : Branches} {s : Store} {H : Log} (hmode : s.mode = .seq)
    (hH : IRep 1 s.ifiles H) (hid : s.indexid + 1 = H.length) (hlen : H.length + E.length < 2 ^ 32)
    (hF : ∀ i, s.dfiles[H.length + i]? = E[i]?.map (encDFile (H.length + i)))
    (hw : ∀ g ∈ E, ∀ r ∈ g, r.WF) (hcut : ∀ g ∈ E, cutAt T g = []) :
    ∃ s', rebuildLoop T u (List.range' H.length (E.length + 1)) br s = .done br s' ∧ s'.dfiles = s.dfiles ∧
      IRep 1 s'.ifiles (H ++ List.replicate E.length []) := by
  induction E generalizing s H with
  | nil =>
    refine ⟨s, ?_, rfl, by simpa using hH⟩
    have h0 := hF 0
    simp only [Nat.add_zero, List.getElem?_nil, Option.map_none] at h0
    simp only [List.length_nil, Nat.zero_add, List.range'_succ, rebuildLoop, h0]
  | cons g E ih =>
    have hF1 : s.dfiles[H.length]? = some (encDFile H.length g) := by simpa using hF 0
    have hHl : H.length < 2 ^ 32 := by omega
    obtain ⟨b, hb1, hb2⟩ := datHeader_read H.length g hHl rfl
    have h0 : 0 < H.length := by omega
    have hid' : (s.indexid + 1) % 2 ^ 32 = H.length := by rw [hid, Nat.mod_eq_of_lt hHl]
    have hpass : ∀ t : Store, rebuildPass T u (encDFile H.length g) ((encDFile H.length g).length + 1) br t dfhdrLen = .ok br t := by
      intro t
      cases g with
      | nil =>
        have : readExact (encDFile H.length []) dfhdrLen 1 = none :=
          readExact_eq_none (by decide) (by rw [encDFile_length]; simp [dsize, dfhdrLen])
        simp only [rebuildPass, this]
      | cons r g =>
        have hT : T > 0 ∧ r.time > T := by
          have hc := hcut (r :: g) (by simp)
          by_cases hT : T > 0 ∧ r.time > T
          · exact hT
          · simp only [cutAt, if_neg hT] at hc; cases hc
        have hwr := hw (r :: g) (by simp) r (by simp)
        have hfe : encDFile H.length (r :: g) = encDFHeader (freshDFHeader H.length) ++ (r.enc ++ g.flatMap DRec.enc) := by
          rw [encDFile]; simp
        have hpos : dfhdrLen = (encDFHeader (freshDFHeader H.length)).length := by rw [freshDFHeader_length]; rfl
        have r1 : readExact (encDFile H.length (r :: g)) dfhdrLen 1 = some (toLE 1 r.id.length) :=
          readExact_at (a := encDFHeader (freshDFHeader H.length)) (c := (encDHdr r.hdr).drop 1 ++ (r.id ++ r.payload) ++ g.flatMap DRec.enc)
            (by rw [hfe, DRec.enc, encDHdr]; simp [DRec.hdr]) hpos (by simp)
        have hl1 : fromLE (toLE 1 r.id.length) = r.id.length := fromLE_toLE1 hwr.id1
        have r2 : readExact (encDFile H.length (r :: g)) dfhdrLen (dhdrLen + r.id.length) = some (encDHdr r.hdr ++ r.id) :=
          readExact_at (a := encDFHeader (freshDFHeader H.length)) (c := r.payload ++ g.flatMap DRec.enc) (by rw [hfe, DRec.enc_eq]; simp) hpos
            (by simp [dhdrLen])
        have hdec : decDHdr (encDHdr r.hdr ++ r.id) = r.hdr := decDHdr_encDHdr_append _ (DRec.hdr_wf hwr) _
        have hts : r.hdr.timestamp = r.time := rfl
        simp only [rebuildPass, r1, hl1, r2, hdec, hts, if_pos hT]
    have hJ := hH.jump H.length rfl
    have hlj : (logJump H).length = H.length + 1 := by simp [logJump]
    obtain ⟨s', j1, j2, j3⟩ := ih (s := indexJump { s with dataid := H.length }) (H := logJump H) hmode
      (by
        simp only [indexJump, indexSetId, hid', hmode]
        exact hJ)
      (by simp only [indexJump, indexSetId, hid', hlj]) (by rw [hlj]; simp only [List.length_cons] at hlen; omega)
      (by
        intro i
        have := hF (i + 1)
        rw [hlj, show H.length + 1 + i = H.length + (i + 1) by omega]
        rw [List.getElem?_cons_succ] at this
        exact this)
      (fun x hx => hw x (List.mem_cons_of_mem _ hx)) (fun x hx => hcut x (List.mem_cons_of_mem _ hx))
    refine ⟨s', ?_, j2, ?_⟩
    · rw [List.length_cons, List.range'_succ, rebuildLoop, hF1]
      simp only [hb1, if_neg hb2, gt_iff_lt, if_pos h0, hpass]
      rw [hlj] at j1
      exact j1
    · have : logJump H ++ List.replicate E.length [] = H ++ List.replicate (E.length + 1) [] := by
        simp [logJump, List.replicate_succ]
      rw [this] at j3
      exact j3

/-- The files after the first.  In those of `E` the limit is passed at once. -/
theorem rebuildLoop_seq {u : Nat} (T : Nat) (Dr E : List (List DRec)) (F : List Bytes) (q : Nat) {m : Slots}
    (D0 : List (List DRec)) (hF : F = (D0 ++ Dr ++ E).mapIdx encDFile) (h0 : 0 < D0.length) (hlen : (D0 ++ Dr ++ E).length < 2 ^ 32)
    (hw : ∀ g ∈ Dr, ∀ r ∈ g, r.WF) (hroom : ∀ g ∈ Dr, DRoom g) (hwE : ∀ g ∈ E, ∀ r ∈ g, r.WF)
    (hcut : ∀ g ∈ E, cutAt T g = [])
    (hfull : ∀ (i : Nat) (g : List DRec), (D0 ++ Dr)[i]? = some g → i + 1 < (D0 ++ Dr).length → 0 < dcount (cutAt T g))
    {br : Branches} {t : Store} {G : Log} (h : SInv t G)
    (hd : t.dfiles = D0.mapIdx encDFile)
    (hst : ∃ pre, t.seqmap = some (pre ++ dstarts 0 0 (D0.map (cutAt T))) ∧ (pre = [] ∨ pre = [(0, 0)]))
    (hsum : (absSlots G).length = ((D0.map (cutAt T)).map dcount).sum)
    (hs : replaySlots (absSlots G) ((Dr.flatMap (cutAt T)).map DRec.what) = some m) (hm : m.length < 2 ^ 64) :
    ∃ t'' t' G', rebuildLoop T u (List.range' D0.length (Dr.length + (E.length + 1))) br (t.withData F q) = .done br t'' ∧
      t''.dfiles = F ∧ SInv t' G' ∧ absSlots G' = m ∧ t'.dfiles = (D0 ++ Dr).mapIdx encDFile ∧
      IRep 1 t''.ifiles (G' ++ List.replicate E.length []) ∧
      ∀ D' x, D0 ++ Dr = D' ++ [x] → logEnd G' = 29 + 42 * dcount (cutAt T x) := by
  induction Dr generalizing D0 t G with
  | nil =>
    injection hs with hs
    have hGl : G.length = D0.length := by
      have h1 := h.dlen
      rw [hd] at h1
      simpa using h1.symm
    simp only [List.append_nil] at hF hlen
    obtain ⟨s', j1, j2, j3⟩ := rebuildLoop_over (u := u) T E (br := br) (s := t.withData F q) (H := G) h.mode h.irep h.iid
      (by rw [hGl]; simpa using hlen)
      (by
        intro i
        rw [Store.withData]
        simp only
        rw [hF, List.getElem?_mapIdx, hGl, List.getElem?_append_right (by omega), Nat.add_sub_cancel_left]) hwE hcut
    rw [hGl] at j1
    refine ⟨s', t, G, by simpa using j1, j2, h, hs, by simpa using hd, j3, ?_⟩
    intro D' x hx
    rw [List.append_nil] at hx
    subst hx
    exact h.items (C := D'.map (cutAt T)) (c := cutAt T x) (by simpa using hst) (by simpa using hGl.symm) (by simpa using hsum)
  | cons g Dr ih =>
    have hD0 : D0.length < 2 ^ 32 := by simp at hlen; omega
    have hF1 : F[D0.length]? = some (encDFile D0.length g) := by
      rw [hF, List.getElem?_mapIdx]; simp
    obtain ⟨b, hb1, hb2⟩ := datHeader_read D0.length g hD0 rfl
    have hGl0 : G.length = D0.length := by
      have h1 := h.dlen
      rw [hd] at h1
      simpa using h1.symm
    have hid : (t.indexid + 1) % 2 ^ 32 = D0.length := by
      rw [h.iid, hGl0, Nat.mod_eq_of_lt hD0]
    have hGl : G.length < 2 ^ 32 := by omega
    -- the file left is not empty
    have hitems : 29 < logEnd G := by
      have hne : D0 ≠ [] := List.length_pos_iff.1 h0
      obtain ⟨D', x, rfl⟩ : ∃ D' x, D0 = D' ++ [x] := ⟨D0.dropLast, D0.getLast hne, (List.dropLast_concat_getLast hne).symm⟩
      have hx := hfull D'.length x (by simp) (by simp)
      have := h.items (C := D'.map (cutAt T)) (c := cutAt T x) (by simpa using hst) (by simpa using hGl0.symm) (by simpa using hsum)
      omega
    have hc := h.toCore.jump (by rw [h.mode]; rfl) hGl
    have hj := h.jump hGl hitems
    have hjd : (Zdb.jump t).dfiles = (D0 ++ [[]]).mapIdx encDFile := by
      rw [hc.2.1, hd, mapIdx_concat', hGl0]
      simp [encDFile]
    rw [List.flatMap_cons, List.map_append, replaySlots_append] at hs
    cases hrg : replaySlots (absSlots G) ((cutAt T g).map DRec.what) with
    | none => rw [hrg] at hs; cases hs
    | some m1 =>
      rw [hrg, Option.bind_some] at hs
      have hl1 := replaySlots_length hrg
      have hl2 := replaySlots_length hs
      obtain ⟨t1, G1, i1, i2, i3, i4, i5⟩ := rebuildPass_seq (u := u) T D0 g F q (f := encDFile D0.length g) (m := m1) (br := br)
        ((encDFile D0.length g).length + 1) (by have := dsize_ge g; rw [encDFile_length]; omega) [] rfl
        (hw g (by simp)) (by simpa using hroom g (by simp)) hj hjd (by rw [absSlots_jump]; exact hrg) (by omega)
      have hst1 : ∃ pre, t1.seqmap = some (pre ++ dstarts 0 0 ((D0 ++ [g]).map (cutAt T))) ∧ (pre = [] ∨ pre = [(0, 0)]) := by
        obtain ⟨pre, p1, p2⟩ := hst
        refine ⟨pre, ?_, p2⟩
        rw [i5, (jump_seqmap t).1, p1, hid, h.next, ← absSlots_length, hsum, List.map_append, dstarts_append]
        simp [dstarts]
      obtain ⟨t'', t', G', j1, j0, j2, j3, j4, j5, j6⟩ := ih (D0 ++ [g]) (by rw [hF]; simp) (by simp) (by simpa using hlen)
        (fun x hx => hw x (List.mem_cons_of_mem _ hx)) (fun x hx => hroom x (List.mem_cons_of_mem _ hx))
        (by simpa using hfull) i2 (by simpa using i4) hst1
        (by
          have e := dcount_sum [cutAt T g]
          simp only [List.flatten_cons, List.flatten_nil, List.append_nil, List.map_cons, List.map_nil, List.sum_cons, List.sum_nil,
            Nat.add_zero] at e
          rw [i3, hl1, hsum, ← e]
          simp) (by rw [i3]; exact hs)
      refine ⟨t'', t', G', ?_, j0, j2, j3, by simpa using j4, j5, by simpa using j6⟩
      have hwd : (t.withData F q).dfiles[D0.length]? = some (encDFile D0.length g) := hF1
      rw [List.length_cons, show Dr.length + 1 + (E.length + 1) = (Dr.length + (E.length + 1)) + 1 by omega, List.range'_succ, rebuildLoop, hwd]
      simp only [hb1, if_neg hb2, gt_iff_lt, if_pos h0]
      rw [indexJump_withData hid]
      have hz : 28 + dsize ([] : List DRec) = dfhdrLen := rfl
      rw [hz] at i1
      rw [i1]
      simp only
      simpa using j1

theorem rebuild_start_seq (u : Nat) (F : List Bytes) :
    loadLoop (some .seq) u [0] (fun _ => []) ((List.range 1).foldl indexSetId (initRoot (some .seq) [] F)) =
      .ok (fun _ => []) ((freshStore .seq).withData F 0) := by
  simp only [List.range, List.range.loop, List.foldl, loadLoop]
  generalize hx : loadFile _ _ _ _ = x
  have : x = .stop (fun _ => []) ((freshStore .seq).withData F 0) := by
    rw [← hx]
    have h1 : (indexSetId (indexSetId (initRoot (some Mode.seq) [] F) 0) 0) =
      (⟨.seq, [], F, 0, 0, 0, 0, 0, 0, 0, 0, some [(0, 0)], ⟨1, [0], false⟩⟩ : Store) := by rfl
    rw [h1]
    simp only [loadFile, loadBody]
    rfl
  rw [this]

/-- The tool on the data files of a sequential namespace, with `--time T`; in the files of `E` the limit is passed at once. -/
theorem rebuild_seq {u : Nat} (T : Nat) {s : Store} {D E : List (List DRec)} {W : List Write} {m : Slots} (hD : SLog s (D ++ E) W)
    (hcutE : ∀ g ∈ E, cutAt T g = [])
    (hcut : replaySlots [] ((D.flatMap (cutAt T)).map DRec.what) = some m) (hm : m.length < 2 ^ 64)
    (hfull : ∀ (i : Nat) (g : List DRec), D[i]? = some g → i + 1 < D.length → 0 < dcount (cutAt T g))
    (hne : 0 < D.length) (hlen : (D ++ E).length < 2 ^ 32) :
    ∃ br t t' G, rebuild .seq T u s.dfiles = .done br t ∧ t.dfiles = s.dfiles ∧ SInv t' G ∧ absSlots G = m ∧
      t'.dfiles = D.mapIdx encDFile ∧ IRep 1 t.ifiles (G ++ List.replicate E.length []) ∧
      ∀ D' x, D = D' ++ [x] → logEnd G = 29 + 42 * dcount (cutAt T x) := by
  have hl := hD.log.length
  have hFe := hD.log.files
  generalize s.dfiles = F at hl hFe
  cases D with
  | nil => cases hne
  | cons g D =>
    have hF1 : F[0]? = some (encDFile 0 g) := by
      rw [hFe, List.getElem?_mapIdx]; simp
    obtain ⟨b, hb1, hb2⟩ := datHeader_read 0 g (by decide) rfl
    have hs := hcut
    rw [List.flatMap_cons, List.map_append, replaySlots_append] at hs
    cases hrg : replaySlots [] ((cutAt T g).map DRec.what) with
    | none => rw [hrg] at hs; cases hs
    | some m1 =>
      rw [hrg, Option.bind_some] at hs
      have hl1 := replaySlots_length hrg
      have hl2 := replaySlots_length hs
      obtain ⟨t1, G1, i1, i2, i3, i4, i5⟩ := rebuildPass_seq (u := u) T [] g F 0 (f := encDFile 0 g) (m := m1) (br := fun _ => [])
        ((encDFile 0 g).length + 1) (by have := dsize_ge g; rw [encDFile_length]; omega) [] rfl
        (hD.log.wf g (by simp)) (by simpa using hD.room g (by simp)) freshStore_sinv (by simp [freshStore, encDFile])
        (by exact hrg) (by omega)
      have hst1 : ∃ pre, t1.seqmap = some (pre ++ dstarts 0 0 ([g].map (cutAt T))) ∧ (pre = [] ∨ pre = [(0, 0)]) := by
        rw [i5]
        obtain ⟨pre, p1, p2⟩ := freshStore_sinv.map
        exact ⟨pre, p1, p2⟩
      obtain ⟨t'', t', G', j1, j0, j2, j3, j4, j5, j6⟩ := rebuildLoop_seq (u := u) T D E F 0 (m := m) (br := fun _ => []) [g]
        (by rw [hFe]; simp) (by simp) (by simpa using hlen)
        (fun x hx => hD.log.wf x (by simp [hx])) (fun x hx => hD.room x (by simp [hx]))
        (fun x hx => hD.log.wf x (by simp [hx])) hcutE hfull i2
        (by simpa using i4) hst1 (by
          have e := dcount_sum [cutAt T g]
          simp only [List.flatten_cons, List.flatten_nil, List.append_nil, List.map_cons, List.map_nil, List.sum_cons, List.sum_nil,
            Nat.add_zero] at e
          rw [i3, hl1, ← e]
          simp) (by rw [i3]; exact hs) hm
      refine ⟨fun _ => [], t'', t', G', ?_, j0, j2, j3, j4, j5, j6⟩
      have hr : List.range (F.length + 1) = 0 :: List.range' 1 (D.length + (E.length + 1)) := by
        rw [hl, List.range_eq_range', List.length_append, List.length_cons,
          show D.length + 1 + E.length + 1 = (D.length + (E.length + 1)) + 1 by omega, List.range'_succ]
      rw [rebuild, rebuild_start_seq, hr]
      have hwd : ((freshStore .seq).withData F 0).dfiles[0]? = some (encDFile 0 g) := hF1
      simp only [rebuildLoop, hwd, hb1, if_neg hb2, gt_iff_lt, Nat.lt_irrefl, if_false]
      have hz : 28 + dsize ([] : List DRec) = dfhdrLen := rfl
      rw [hz] at i1
      have he : ({ (freshStore .seq).withData F 0 with dataid := 0 } : Store) = (freshStore .seq).withData F 0 := rfl
      rw [he, i1]
      simp only
      exact j1

/-! ### loading the result -/

theorem SReads.congr {s : Store} {G G' : Log} (h : SReads s G) (hl : locs G = locs G') : SReads s G' where
  mode := h.mode
  get := by
    intro u k hk
    have : slotAt G' k = slotAt G k := by unfold slotAt; rw [hl]
    rw [this]
    exact h.get u k (by unfold Near at hk ⊢; rw [hl]; exact hk)
  recs := by rw [← hl]; exact h.recs

theorem locs_pad (G : Log) (n : Nat) : locs (G ++ List.replicate n []) = locs G := by
  induction n with
  | zero => simp
  | succ n ih => rw [List.replicate_succ', ← List.append_assoc, locs_snoc_nil, ih]

theorem startsNE_pad (G : Log) (n : Nat) : startsNE 0 0 (G ++ List.replicate n []) = startsNE 0 0 G := by
  induction n with
  | zero => simp
  | succ n ih =>
    rw [List.replicate_succ', ← List.append_assoc, startsNE_append, ih]
    simp [startsNE]

/-- Loading index files of which the last ones have no items. -/
theorem load_pad {fi fd : List Bytes} {G : Log} {n : Nat} (br : Branches) (u : Nat) (cfg : Option Mode)
    (hcfg : cfg = none ∨ cfg = some .seq) (hfi : IRep 1 fi (G ++ List.replicate n [])) (hfull : ∀ g ∈ G, g ≠ [])
    (hpos : 0 < G.length + n) (hlen : G.length + n < 2 ^ 32) (hfd : fd.length = G.length + n)
    (hhead : ∀ (i : Nat) (f : Bytes), fd[i]? = some f → ∃ t, f = encDFHeader (freshDFHeader i) ++ t)
    (hids : ∀ l ∈ locs G, l.id.length = 8) (hoffs : ∀ l ∈ locs G, l.off < 2 ^ 32)
    (hrecs : ∀ l ∈ locs G, RecOK fd l.r.item.dataid l.r) :
    ∃ s', loadNs cfg br u fi fd = .ok br s' ∧ SReads s' G ∧ s'.ifiles = fi ∧ s'.dfiles = fd := by
  have hl := locs_pad G n
  have hn : maxFiles fi = G.length + n := by
    rw [maxFiles, hfi.length, List.length_append, List.length_replicate]; omega
  obtain ⟨i, d, hfold⟩ := indexSetId_foldl (List.range (G.length + n + 1)) (initRoot cfg fi fd)
  have hmap0 : (rehash { ({ initRoot cfg fi fd with indexid := i, dirty := d } : Store) with mode := .seq }).seqmap =
      some ((0, 0) :: startsNE 0 0 []) := by
    rcases hcfg with rfl | rfl <;> rfl
  obtain ⟨s', h1, h2, h3, h4⟩ := SL.loop (fi := fi) (fd := fd) br u cfg hcfg [] (G ++ List.replicate n [])
    (List.length_pos_iff.1 (by rw [List.length_append, List.length_replicate]; exact hpos))
    (s := { initRoot cfg fi fd with indexid := i, dirty := d })
    ⟨rfl, rfl, rfl, rfl, rfl, rfl⟩ hmap0 hfi (by simp; omega)
    (by rw [List.nil_append, hl]; exact fun l hl => (hrecs l hl).wf) (by rw [List.nil_append, hl]; exact fun l hl => (hrecs l hl).flags)
  simp only [List.nil_append] at h2 h3 h4
  rw [startsNE_pad, startsNE_full 0 0 G hfull] at h4
  simp only [List.length_append, List.length_replicate] at h3
  have hlt : s'.indexid < s'.dfiles.length := by rw [h2.dfiles, hfd]; omega
  obtain ⟨p, hp⟩ := dataOpen_same hlt (by
    obtain ⟨t, ht⟩ := hhead s'.indexid _ (List.getElem?_eq_getElem (by rw [hfd]; omega))
    refine ⟨t, ?_⟩
    simp only [h2.dfiles]
    rw [← ht]
    exact List.getElem?_eq_getElem _)
  refine ⟨{ s' with dataid := s'.indexid, dprev := p }, ?_, ?_, h2.ifiles, h2.dfiles⟩
  · unfold loadNs
    simp only [hn, hfold, if_pos hpos]
    rw [List.range_eq_range']
    simp only [List.length_nil, List.length_append, List.length_replicate] at h1
    rw [h1]
    simp only [hp]
  · have key : ∀ G' : Log, locs G' = locs G → G' ≠ [] →
        (∃ pre, s'.seqmap = some (pre ++ startsFrom 0 0 G') ∧ (pre = [] ∨ pre = [(0, 0)])) →
        (∀ (i : Nat) (g : List Rec), G'[i]? = some g → i + 1 < G'.length → g ≠ []) →
        (∀ (i : Nat) (g : List Rec), G'[i]? = some g → (G ++ List.replicate n [])[i]? = some g) →
        SReads { s' with dataid := s'.indexid, dprev := p } G' := by
      intro G' e1 e2 e3 e4 e5
      have hlook : SLook { s' with dataid := s'.indexid, dprev := p } G' := by
        refine ⟨e2, e3, e4, by rw [e1]; exact hids, by rw [e1]; exact hoffs, by rw [e1]; exact fun l hl => (hrecs l hl).wf,
          G'.mapIdx (encFile 1), rfl, ?_⟩
        intro i f hf
        rw [List.getElem?_mapIdx] at hf
        obtain ⟨g, hg, rfl⟩ := Option.map_eq_some_iff.1 hf
        simp only [h2.ifiles]
        rw [hfi.get, e5 i g hg]
        rfl
      refine ⟨h2.mode, fun u k hk => hlook.seqGet u k hk, ?_⟩
      simp only [h2.dfiles, e1]
      exact hrecs
    by_cases hG : G = []
    · subst hG
      refine (key [[]] rfl (by simp) ⟨[], h4, Or.inl rfl⟩ ?_ ?_).congr rfl
      · intro i g _ hi
        simp at hi
      · intro i g hg
        cases i with
        | zero =>
          cases n with
          | zero => simp at hpos
          | succ n => simpa [List.replicate_succ] using hg
        | succ i => simp at hg
    · exact key G rfl hG ⟨[(0, 0)], h4, Or.inr rfl⟩ (fun i g hg _ => hfull g (List.mem_of_getElem? hg))
        (fun i g hg => by rw [List.getElem?_append_left (List.getElem?_eq_some_iff.1 hg).1]; exact hg)

/-- The index files made by the tool can be loaded; what they say can be read. -/
theorem rebuilt_load {t' : Store} {G : Log} (h : SInv t' G) {D E : List (List DRec)} {fi fd : List Bytes}
    (hd : t'.dfiles = D.mapIdx encDFile) (hfd : fd = (D ++ E).mapIdx encDFile) (hfi : IRep 1 fi (G ++ List.replicate E.length []))
    (hlen : (D ++ E).length < 2 ^ 32) (br : Branches) (u : Nat) (cfg : Option Mode) (hcfg : cfg = none ∨ cfg = some .seq) :
    ∃ s', loadNs cfg br u fi fd = .ok br s' ∧ SReads s' G ∧ s'.ifiles = fi ∧ s'.dfiles = fd := by
  have hGD : G.length = D.length := by rw [← h.dlen, hd]; simp
  rw [List.length_append] at hlen
  -- the files with items
  obtain ⟨G0, j, hG, hfull⟩ : ∃ G0 j, G = G0 ++ List.replicate j [] ∧ ∀ g ∈ G0, g ≠ [] := by
    obtain ⟨G', g, rfl⟩ := exists_concat h.ne
    have hf : ∀ x ∈ G', x ≠ [] := by
      intro x hx
      obtain ⟨j, hj, he⟩ := List.getElem_of_mem hx
      refine h.full j x ?_ (by simp; omega)
      rw [List.getElem?_append_left hj, List.getElem?_eq_getElem hj, he]
    by_cases hg : g = []
    · exact ⟨G', 1, by rw [hg]; rfl, hf⟩
    · refine ⟨G' ++ [g], 0, by simp, ?_⟩
      intro x hx
      rcases List.mem_append.1 hx with hx | hx
      · exact hf x hx
      · rw [List.mem_singleton.1 hx]; exact hg
  have hl : locs G = locs G0 := by rw [hG, locs_pad]
  have hGl : G.length = G0.length + j := by rw [hG]; simp
  have hG0 := h.G0
  have hext : ∀ (i : Nat) (f : Bytes), t'.dfiles[i]? = some f → fd[i]? = some f := by
    intro i f hf
    rw [hd, List.getElem?_mapIdx] at hf
    obtain ⟨g, hg, rfl⟩ := Option.map_eq_some_iff.1 hf
    rw [hfd, List.getElem?_mapIdx, List.getElem?_append_left (List.getElem?_eq_some_iff.1 hg).1, hg]
    rfl
  obtain ⟨s', l1, l2, l3, l4⟩ := load_pad (fi := fi) (fd := fd) (G := G0) (n := j + E.length) br u cfg hcfg
    (by rw [hG, List.append_assoc, List.replicate_append_replicate] at hfi; exact hfi) hfull (by omega) (by omega)
    (by rw [hfd]; simp; omega)
    (by
      intro i f hf
      rw [hfd, List.getElem?_mapIdx] at hf
      obtain ⟨g, hg, rfl⟩ := Option.map_eq_some_iff.1 hf
      exact ⟨_, rfl⟩)
    (by rw [← hl]; exact h.ids8) (by rw [← hl]; exact h.offs)
    (by
      rw [← hl]
      intro l hl
      obtain ⟨prev, e0, pre, post, e1, e2⟩ := (h.recs l hl).data
      exact { h.recs l hl with data := ⟨prev, e0, pre, post, hext _ _ e1, e2⟩ })
  exact ⟨s', l1, l2.congr hl.symm, l3, l4⟩

/-! ### the records in a file that grew -/

theorem DRec.enc_inj {x y : DRec} (hx : x.WF) (hy : y.WF) {a b : Bytes} (h : x.enc ++ a = y.enc ++ b) : x = y ∧ a = b := by
  have hh : x.hdr = y.hdr := by
    have h1 : decDHdr (x.enc ++ a) = x.hdr := by
      rw [DRec.enc_eq, List.append_assoc]; exact decDHdr_encDHdr_append _ (DRec.hdr_wf hx) _
    have h2 : decDHdr (y.enc ++ b) = y.hdr := by
      rw [DRec.enc_eq, List.append_assoc]; exact decDHdr_encDHdr_append _ (DRec.hdr_wf hy) _
    rw [← h1, ← h2, h]
  rw [DRec.enc_eq x, DRec.enc_eq y, hh, List.append_assoc (encDHdr y.hdr), List.append_assoc (encDHdr y.hdr),
    List.append_assoc x.id, List.append_assoc y.id] at h
  have h1 : x.id ++ (x.payload ++ a) = y.id ++ (y.payload ++ b) := List.append_cancel_left h
  obtain ⟨i1, p1, q1, d1, t1⟩ := x
  obtain ⟨i2, p2, q2, d2, t2⟩ := y
  simp only [DRec.hdr, DHdr.mk.injEq] at hh h1
  obtain ⟨e1, e2, e3, e4, e5, e6⟩ := hh
  obtain ⟨f1, f2⟩ := List.append_inj h1 e1
  obtain ⟨f3, f4⟩ := List.append_inj f2 e2
  have hd : d1 = d2 := by revert e5; cases d1 <;> cases d2 <;> simp
  exact ⟨by simp only [DRec.mk.injEq]; exact ⟨f1, f3, e3, hd, e6⟩, f4⟩

theorem enc_prefix {a b : List DRec} (ha : ∀ r ∈ a, r.WF) (hb : ∀ r ∈ b, r.WF) {x : Bytes}
    (h : a.flatMap DRec.enc ++ x = b.flatMap DRec.enc) : ∃ c, b = a ++ c ∧ x = c.flatMap DRec.enc := by
  induction a generalizing b with
  | nil => exact ⟨b, rfl, by simpa using h⟩
  | cons r a ih =>
    cases b with
    | nil =>
      have := congrArg List.length h
      have hl := r.enc_length
      rw [List.flatMap_cons, List.flatMap_nil, List.length_append, List.length_append, List.length_nil, hl] at this
      omega
    | cons y b =>
      rw [List.flatMap_cons, List.flatMap_cons, List.append_assoc] at h
      obtain ⟨rfl, h2⟩ := DRec.enc_inj (ha r (by simp)) (hb y (by simp)) h
      obtain ⟨c, rfl, hc⟩ := ih (fun x hx => ha x (List.mem_cons_of_mem _ hx)) (fun x hx => hb x (List.mem_cons_of_mem _ hx)) h2
      exact ⟨c, rfl, hc⟩

/-- If every data file of a list of files is in the other one, the last with more bytes at its end, then so are the records. -/
theorem files_prefix {D1 D : List (List DRec)} {a : List DRec} (hw1 : ∀ g ∈ D1 ++ [a], ∀ r ∈ g, r.WF) (hw : ∀ g ∈ D, ∀ r ∈ g, r.WF)
    (h : ∀ (i : Nat) (f : Bytes), ((D1 ++ [a]).mapIdx encDFile)[i]? = some f →
      ∃ x, (D.mapIdx encDFile)[i]? = some (f ++ x) ∧ (i + 1 < (D1 ++ [a]).length → x = [])) :
    ∃ c E, D = D1 ++ (a ++ c) :: E := by
  have key : ∀ (i : Nat) (g : List DRec), (D1 ++ [a])[i]? = some g → ∃ c, D[i]? = some (g ++ c) ∧ (i < D1.length → c = []) := by
    intro i g hg
    obtain ⟨x, hx1, hx2⟩ := h i (encDFile i g) (by rw [List.getElem?_mapIdx, hg]; rfl)
    rw [List.getElem?_mapIdx] at hx1
    obtain ⟨g', hg', he⟩ := Option.map_eq_some_iff.1 hx1
    rw [encDFile, encDFile, List.append_assoc] at he
    obtain ⟨c, hc, hxc⟩ := enc_prefix (hw1 g (List.mem_of_getElem? hg)) (hw g' (List.mem_of_getElem? hg')) (List.append_cancel_left he).symm
    refine ⟨c, by rw [hg', hc], ?_⟩
    intro hi
    have h0 := hx2 (by simp; omega)
    cases c with
    | nil => rfl
    | cons r c =>
      have hl := r.enc_length
      have := congrArg List.length (hxc.symm.trans h0)
      rw [List.flatMap_cons, List.length_append, List.length_nil, hl] at this
      omega
  obtain ⟨c, hc, -⟩ := key D1.length a (by simp)
  have hlt := (List.getElem?_eq_some_iff.1 hc).1
  refine ⟨c, D.drop (D1.length + 1), ?_⟩
  apply List.ext_getElem?
  intro i
  by_cases hi : i < D1.length
  · obtain ⟨c', hc', h0⟩ := key i D1[i] (by rw [List.getElem?_append_left hi, List.getElem?_eq_getElem hi])
    rw [h0 hi, List.append_nil] at hc'
    rw [hc', List.getElem?_append_left hi, List.getElem?_eq_getElem hi]
  · rw [List.getElem?_append_right (by omega)]
    by_cases he : i = D1.length
    · subst he; rw [hc]; simp
    · obtain ⟨k, hk⟩ : ∃ k, i - D1.length = k + 1 := ⟨i - D1.length - 1, by omega⟩
      rw [hk, List.getElem?_cons_succ, List.getElem?_drop, show D1.length + 1 + k = i by omega]

/-! ### going back to a state -/

theorem starts_counts (i n : Nat) (G : Log) (D : List (List DRec)) (h : startsFrom i n G = dstarts i n D) (j : Nat)
    (hj : j + 1 < G.length) : G[j]?.map List.length = D[j]?.map dcount := by
  induction G generalizing i n D j with
  | nil => simp at hj
  | cons g G ih =>
    cases D with
    | nil => simp [startsFrom, dstarts] at h
    | cons d D =>
      simp only [startsFrom, dstarts, List.cons.injEq, true_and] at h
      have hd : g.length = dcount d := by
        cases G with
        | nil => simp at hj
        | cons g' G =>
          cases D with
          | nil => simp [startsFrom, dstarts] at h
          | cons d' D =>
            simp only [startsFrom, dstarts, List.cons.injEq, Prod.mk.injEq] at h
            omega
      cases j with
      | zero => simpa using hd
      | succ j =>
        rw [hd] at h
        simpa using ih (i + 1) (n + dcount d) D h j (by simpa using hj)

/-- The tool on the data files of a state that grew from the one of `G1`, when the limit is passed after the writes of that
    state. -/
theorem rebuild_back {u : Nat} (T : Nat) {s1 s2 : Store} {G1 : Log} {D0 E : List (List DRec)} {a c : List DRec} {W1 W2 : List Write}
    (hi : SInv s1 G1) (hD1 : SLog s1 (D0 ++ [a]) W1) (hrep : replaySlots [] W1 = some (absSlots G1))
    (hm : (absSlots G1).length < 2 ^ 64) (hD2 : SLog s2 (D0 ++ (a ++ c) :: E) W2) (hlen : (D0 ++ (a ++ c) :: E).length < 2 ^ 32)
    (c1 : ∀ g ∈ D0, cutAt T g = g) (c2 : cutAt T (a ++ c) = a) (c3 : ∀ g ∈ E, cutAt T g = []) :
    ∃ br t G, rebuild .seq T u s2.dfiles = .done br t ∧ t.dfiles = s2.dfiles ∧ absSlots G = absSlots G1 ∧
      ∀ (cfg : Option Mode) (br0 : Branches) (v : Nat), cfg = none ∨ cfg = some .seq →
        ∃ s4, loadNs cfg br0 v t.ifiles s2.dfiles = .ok br0 s4 ∧ s4.ifiles = t.ifiles ∧ s4.dfiles = s2.dfiles ∧ SReads s4 G ∧
          s4.ifiles.length = s2.dfiles.length ∧
          (E = [] → s1.indexid = 0 ∨ 29 < fileLen s1.ifiles s1.indexid → SInv s4 G) := by
  have hw1 := hD1.log.writes
  have hsum : (absSlots G1).length = ((D0 ++ [a]).map dcount).sum := by
    rw [dcount_sum, hw1, replaySlots_length hrep]; simp
  have hl1 : (D0 ++ [a]).length = G1.length := by rw [← hi.dlen, ← hD1.log.length]
  have hend := hi.items hD1.starts hl1 hsum
  have hcat : D0 ++ (a ++ c) :: E = (D0 ++ [a ++ c]) ++ E := by simp
  rw [hcat] at hD2 hlen
  have hflat : (D0 ++ [a ++ c]).flatMap (cutAt T) = (D0 ++ [a]).flatten := by
    have : D0.flatMap (cutAt T) = D0.flatten := by
      clear hD1 hw1 hsum hl1 hend hcat hD2 hlen
      induction D0 with
      | nil => rfl
      | cons g D0 ih =>
        rw [List.flatMap_cons, List.flatten_cons, c1 g (by simp), ih (fun x hx => c1 x (by simp [hx]))]
    rw [List.flatMap_append, this, List.flatten_append]
    simp [c2]
  obtain ⟨br, t, t', G, r1, r2, r3, r4, r5, r6, r7⟩ := rebuild_seq (u := u) T hD2 c3 (m := absSlots G1)
    (by rw [hflat, hw1]; exact hrep) hm
    (by
      intro i g hg hlt
      have hiD : i < D0.length := by simp at hlt; exact hlt
      have hg0 : D0[i]? = some g := by rw [List.getElem?_append_left hiD] at hg; exact hg
      rw [c1 g (List.mem_of_getElem? hg0)]
      have hj : i + 1 < G1.length := by rw [← hl1]; simp; omega
      have hcnt := starts_counts 0 0 G1 _ (hi.starts_eq hD1) i hj
      rw [List.getElem?_append_left hiD, hg0, List.getElem?_eq_getElem (by omega)] at hcnt
      simp only [Option.map_some, Option.some.injEq] at hcnt
      rw [← hcnt]
      exact List.length_pos_iff.2 (hi.full i _ (List.getElem?_eq_getElem (by omega)) hj))
    (by simp) hlen
  refine ⟨br, t, G, r1, r2, r4, ?_⟩
  intro cfg br0 v hcfg
  obtain ⟨s4, l1, l2, l3, l4⟩ := rebuilt_load r3 r5 hD2.log.files r6 hlen br0 v cfg hcfg
  refine ⟨s4, l1, l3, l4, l2, ?_, ?_⟩
  · have e1 := r6.length
    have e2 := r3.dlen
    rw [l3, e1, hD2.log.files]
    rw [r5] at e2
    simp only [List.length_append, List.length_replicate, List.length_mapIdx] at e2 ⊢
    omega
  · intro hE hlast
    subst hE
    simp only [List.append_nil, List.length_nil, List.replicate_zero] at r6 hD2 hlen
    have hGl : G.length = (D0 ++ [a ++ c]).length := by rw [← r3.dlen, r5]; simp
    have hend2 := r7 D0 (a ++ c) rfl
    rw [c2] at hend2
    have hfl := hi.fileLen
    have e1 := hi.iid
    obtain ⟨s5, k1, k2, -⟩ := r3.reload br0 v cfg hcfg (by omega) (by
      simp only [List.length_append, List.length_singleton] at hl1 hGl
      omega)
    have e2 : t'.ifiles = t.ifiles := by rw [r6]; exact r3.irep
    have e3 : t'.dfiles = s2.dfiles := by rw [hD2.log.files, ← r5]
    rw [reloadNs, r3.mode, e2, e3] at k1
    have : s5 = s4 := by
      rw [l1] at k1
      injection k1 with _ k1
      exact k1.symm
    rw [← this]
    exact k2

end Zdb
