/-
The rebuild tool on the data files of a user-key namespace.
-/
import Verif.Lemmas.Rebuild
namespace Zdb

/-- `index_set` for a record at the end of the current data file. -/
theorem indexSet_spec {br : Branches} {u : Nat} {s : Store} {G : Log} (h : UInv br u s G) (k p : Bytes) (ts prev : Nat)
    (hk0 : 0 < k.length) (hk : k.length < 256) (hp : p.length < 2 ^ 32) (hts : ts < 2 ^ 32) (hpr : prev < 2 ^ 32)
    (hfl : fileLen s.dfiles s.dataid ≤ 2 ^ 31) {b : Bytes}
    (hb : b = encDHdr { idlength := k.length, datalength := p.length, previous := prev,
                        integrity := crc32 p, flags := 0, timestamp := ts } ++ (k ++ p)) (q : Nat) :
    ∃ G', (indexSet br { s with dfiles := appendFile s.dfiles s.dataid b, dprev := q } u
        ⟨k, fileLen s.dfiles s.dataid, p.length, crc32 p, s.dataid, ts⟩ (indexGet br s u k)).2.2 = true ∧
      UInv (indexSet br { s with dfiles := appendFile s.dfiles s.dataid b, dprev := q } u
        ⟨k, fileLen s.dfiles s.dataid, p.length, crc32 p, s.dataid, ts⟩ (indexGet br s u k)).1 u
        (indexSet br { s with dfiles := appendFile s.dfiles s.dataid b, dprev := q } u
        ⟨k, fileLen s.dfiles s.dataid, p.length, crc32 p, s.dataid, ts⟩ (indexGet br s u k)).2.1 G' ∧
      absKV G' = (absKV G).put k p ts := by
  obtain ⟨f, hf⟩ := h.dataFile
  have hoff : fileLen s.dfiles s.dataid = f.length := by rw [fileLen, hf]
  have hbl : b.length = 18 + k.length + p.length := by rw [hb]; simp; omega
  have hfl' : f.length ≤ 2 ^ 31 := by rw [← hoff]; exact hfl
  obtain ⟨g, hg⟩ : ∃ g, G[s.dataid]? = some g := by
    have : s.dataid < G.length := by rw [h.did]; have := h.iid; omega
    exact ⟨_, List.getElem?_eq_getElem this⟩
  have hbnd := h.bound _ _ _ hg hf
  have h1 := h.appendData b q
  have hend : logEnd G < 2 ^ 32 := by
    obtain ⟨G', g', rfl⟩ := exists_concat h.ne
    have hii := h.iid
    have : s.dataid = G'.length := by rw [h.did]; simp at hii; omega
    rw [this] at hg
    simp at hg
    subst hg
    simp [logEnd]; omega
  have hslack : ∀ (g : List Rec) (f : Bytes), G[s.indexid]? = some g → (appendFile s.dfiles s.dataid b)[s.indexid]? = some f →
      19 * (isize g + (34 + k.length)) ≤ 35 * (f.length - 28) := by
    intro g' f' hg' hf'
    rw [← h.did] at hg' hf'
    rw [hg] at hg'
    cases hg'
    rw [appendFile, List.getElem?_modify, hf] at hf'
    simp at hf'
    rw [← hf', List.length_append, hbl]
    omega
  have htot : s.datasize + p.length ≤ ((appendFile s.dfiles s.dataid b).map List.length).sum := by
    rw [sum_lengths_append _ _ _ (List.getElem?_eq_some_iff.1 hf).1, hbl]
    have := h.total; omega
  have hdata : ∃ prev, prev < 2 ^ 32 ∧ DataAt (appendFile s.dfiles s.dataid b) s.dataid f.length
      (encDHdr { idlength := k.length, datalength := p.length, previous := prev,
                 integrity := crc32 p, flags := 0, timestamp := ts } ++ (k ++ p)) :=
    ⟨prev, hpr, by rw [← hb]; exact DataAt.new hf _⟩
  rw [h.indexGet, hoff]
  generalize hs1 : ({ s with dfiles := appendFile s.dfiles s.dataid b, dprev := q } : Store) = s1 at h1 ⊢
  have e1 : s1.dfiles = appendFile s.dfiles s.dataid b := by rw [← hs1]
  have e2 : s1.dataid = s.dataid := by rw [← hs1]
  have e3 : s1.indexid = s.indexid := by rw [← hs1]
  have e4 : s1.datasize = s.datasize := by rw [← hs1]
  rw [← e1] at hslack htot hdata
  rw [← e2] at hdata
  rw [← e3] at hslack
  rw [← e4] at htot
  cases hgk : liveGet G k with
  | none =>
    obtain ⟨i1, i2, i3⟩ := h1.insert Io.good rfl (⟨k, f.length, p.length, crc32 p, s.dataid, ts⟩ : SetReq) p hgk hk0 hk (by simp only; omega) rfl hp rfl
      (Or.inr (by rw [e3]; exact h.did)) hts hdata hend hslack htot
    simp only [indexSet, h1.mode, Option.map_none]
    exact ⟨_, i1, i2, i3⟩
  | some l =>
    obtain ⟨G', i1, i2, i3, -⟩ := h1.update Io.good rfl rfl (⟨k, f.length, p.length, crc32 p, s.dataid, ts⟩ : SetReq) p hgk (by simp only; omega) rfl hp rfl
      hts hdata hend hslack htot
    simp only [indexSet, h1.mode, Option.map_some]
    exact ⟨_, i1, i2, i3⟩

theorem indexSet_withData (br : Branches) {s : Store} (hm : s.mode = .user) (F : List Bytes) (q u : Nat) (r : SetReq) (ex : Option Entry) :
    indexSet br (s.withData F q) u r ex =
      ((indexSet br s u r ex).1, (indexSet br s u r ex).2.1.withData F q, (indexSet br s u r ex).2.2) := by
  have hm' : (s.withData F q).mode = .user := hm
  cases ex with
  | none => simp only [indexSet, hm, hm', insertUser_withData]
  | some e => simp only [indexSet, hm, hm', updateUser_withData]

theorem indexSet_same (br : Branches) {s : Store} (hm : s.mode = .user) (u : Nat) (r : SetReq) (ex : Option Entry) :
    SameData s (indexSet br s u r ex).2.1 := by
  cases ex with
  | none => simp only [indexSet, hm]; exact insertUser_same br _ _ _ _
  | some e => simp only [indexSet, hm]; exact updateUser_same br _ _ _ _ _

/-- One record. -/
theorem rebuildRecord_spec {br : Branches} {u : Nat} {t : Store} {G : Log} (h : UInv br u t G) {r : DRec} (hw : r.WF) {m : KV}
    (hs : r.step (absKV G) = some m) (hfl : r.del = false → fileLen t.dfiles t.dataid ≤ 2 ^ 31) (F : List Bytes) (q : Nat) :
    ∃ br' t' G', rebuildRecord br (t.withData F q) u r.hdr r.id (fileLen t.dfiles t.dataid) = some (br', t'.withData F q, true) ∧
      UInv br' u t' G' ∧ absKV G' = m ∧ t'.dfiles = appendFile t.dfiles t.dataid r.enc ∧ t'.dataid = t.dataid ∧
      t'.ifiles.length = t.ifiles.length := by
  obtain ⟨id, payload, prev, del, time⟩ := r
  generalize hb : DRec.enc ⟨id, payload, prev, del, time⟩ = b
  have h1 := h.appendData b t.dprev
  have hwd : t.withData F q = Store.withData { t with dfiles := appendFile t.dfiles t.dataid b, dprev := t.dprev } F q := rfl
  have hrid : (DRec.mk id payload prev del time).id = id := rfl
  cases del with
  | true =>
    have hflag : isDeleted (DRec.hdr ⟨id, payload, prev, true, time⟩).flags = true := by rfl
    simp only [DRec.step, if_true] at hs
    have hex : ((absKV G).get id).isSome = true := by
      by_cases hx : ((absKV G).get id).isSome = true
      · exact hx
      · rw [if_neg hx] at hs; cases hs
    rw [if_pos hex] at hs
    injection hs with hs
    rw [absKV_get] at hex
    cases hg : liveGet G id with
    | none => rw [hg] at hex; simp at hex
    | some l =>
      obtain ⟨G', i1, i2, i3, -⟩ := h1.delete Io.good rfl hg
      have hsm := indexDelete_same br { t with dfiles := appendFile t.dfiles t.dataid b, dprev := t.dprev } u Io.good (l.entry u)
      refine ⟨_, _, G', ?_, i2, by rw [i3]; exact hs, hsm.df, hsm.did, hsm.il.len⟩
      simp only [rebuildRecord, hflag, if_true, hrid]
      rw [indexGet_withData h.mode, h.indexGet, hg]
      simp only [Option.map_some]
      rw [hwd, indexDelete_withData, i1]
  | false =>
    have hflag : isDeleted (DRec.hdr ⟨id, payload, prev, false, time⟩).flags = false := by rfl
    simp only [DRec.step, Bool.false_eq_true, if_false] at hs
    injection hs with hs
    obtain ⟨G', i1, i2, i3⟩ := indexSet_spec h id payload time prev hw.id0 hw.id1 hw.len hw.time hw.prev (hfl rfl) hb.symm t.dprev
    have hsm := indexSet_same br (s := { t with dfiles := appendFile t.dfiles t.dataid b, dprev := t.dprev }) h.mode u
      ⟨id, fileLen t.dfiles t.dataid, payload.length, crc32 payload, t.dataid, time⟩ (indexGet br t u id)
    refine ⟨_, _, G', ?_, i2, by rw [i3]; exact hs, hsm.df, hsm.did, hsm.il.len⟩
    simp only [rebuildRecord, hflag, Bool.false_eq_true, if_false, hrid]
    rw [indexGet_withData h.mode]
    have := indexSet_withData br (s := { t with dfiles := appendFile t.dfiles t.dataid b, dprev := t.dprev }) h.mode F q u
      ⟨id, fileLen t.dfiles t.dataid, payload.length, crc32 payload, t.dataid, time⟩ (indexGet br t u id)
    rw [i1] at this
    rw [hwd]
    exact congrArg some this

theorem dsize_snoc (a : List DRec) (r : DRec) : dsize (a ++ [r]) = dsize a + r.enc.length := by
  simp [dsize]

/-- The records of a file that the tool processes, given `--time T`. -/
def cutAt (T : Nat) : List DRec → List DRec
  | [] => []
  | r :: g => if T > 0 ∧ r.time > T then [] else r :: cutAt T g

theorem cutAt_zero (g : List DRec) : cutAt 0 g = g := by
  induction g with
  | nil => rfl
  | cons r g ih => simp [cutAt, ih]

/-- The rest of one file. -/
theorem rebuildPass_spec {u : Nat} (T : Nat) (D0 : List (List DRec)) (rest : List DRec) (F : List Bytes) (q : Nat) {f : Bytes} {m : KV}
    (fuel : Nat) (hfu : rest.length < fuel) (a : List DRec) (hf : f = encDFile D0.length (a ++ rest))
    (hw : ∀ r ∈ rest, r.WF) (hroom : DRoom (a ++ rest)) {br : Branches} {t : Store} {G : Log} (h : UInv br u t G)
    (hd : t.dfiles = (D0 ++ [a]).mapIdx encDFile) (hs : replayKV (absKV G) (cutAt T rest) = some m) :
    ∃ br' t' G', rebuildPass T u f fuel br (t.withData F q) (28 + dsize a) = .ok br' (t'.withData F q) ∧
      UInv br' u t' G' ∧ absKV G' = m ∧ t'.dfiles = (D0 ++ [a ++ rest]).mapIdx encDFile ∧ t'.ifiles.length = t.ifiles.length := by
  induction rest generalizing fuel a br t G with
  | nil =>
    injection hs with hs
    cases fuel with
    | zero => cases hfu
    | succ fuel =>
      refine ⟨br, t, G, ?_, h, hs, by simpa using hd, rfl⟩
      have : readExact f (28 + dsize a) 1 = none := readExact_eq_none (by decide) (by rw [hf, encDFile_length]; simp)
      simp only [rebuildPass, this]
  | cons r rest ih =>
    cases fuel with
    | zero => cases hfu
    | succ fuel =>
      have hwr := hw r (List.mem_cons_self ..)
      have hdid : t.dataid = D0.length := by
        have h1 := h.dlen
        have h2 := h.did
        have h3 := h.iid
        rw [hd] at h1; simp at h1; omega
      have hfe : f = (encDFHeader (freshDFHeader D0.length) ++ a.flatMap DRec.enc) ++ (r.enc ++ rest.flatMap DRec.enc) := by
        rw [hf, encDFile]; simp
      have hpos : 28 + dsize a = (encDFHeader (freshDFHeader D0.length) ++ a.flatMap DRec.enc).length := by
        rw [List.length_append, flatMap_enc_length, freshDFHeader_length]
      generalize encDFHeader (freshDFHeader D0.length) ++ a.flatMap DRec.enc = X at hfe hpos
      have r1 : readExact f (28 + dsize a) 1 = some (toLE 1 r.id.length) :=
        readExact_at (a := X) (c := (encDHdr r.hdr).drop 1 ++ (r.id ++ r.payload) ++ rest.flatMap DRec.enc)
          (by rw [hfe, DRec.enc, encDHdr]; simp [DRec.hdr]) hpos (by simp)
      have hl1 : fromLE (toLE 1 r.id.length) = r.id.length := fromLE_toLE1 hwr.id1
      have r2 : readExact f (28 + dsize a) (dhdrLen + r.id.length) = some (encDHdr r.hdr ++ r.id) :=
        readExact_at (a := X) (c := r.payload ++ rest.flatMap DRec.enc) (by rw [hfe, DRec.enc_eq]; simp) hpos
          (by simp [dhdrLen])
      have hdec : decDHdr (encDHdr r.hdr ++ r.id) = r.hdr := decDHdr_encDHdr_append _ (DRec.hdr_wf hwr) _
      have hts : r.hdr.timestamp = r.time := rfl
      have happ : ∀ x : List DRec, appendFile t.dfiles t.dataid (x.flatMap DRec.enc) = (D0 ++ [a ++ x]).mapIdx encDFile := by
        intro x
        rw [hd, hdid, mapIdx_concat', mapIdx_concat']
        have := appendFile_last (D0.mapIdx encDFile) (encDFile D0.length a) (x.flatMap DRec.enc)
        have hl : (D0.mapIdx encDFile).length = D0.length := by simp
        rw [hl] at this
        rw [this, encDFile, encDFile]
        simp
      by_cases hT : T > 0 ∧ r.time > T
      · simp only [cutAt, if_pos hT] at hs
        injection hs with hs
        refine ⟨br, { t with dfiles := appendFile t.dfiles t.dataid ((r :: rest).flatMap DRec.enc), dprev := t.dprev }, G, ?_,
          h.appendData _ _, hs, happ _, rfl⟩
        simp only [rebuildPass, r1, hl1, r2, hdec, hts, if_pos hT]
        rfl
      simp only [cutAt, if_neg hT, replayKV] at hs
      cases hst : r.step (absKV G) with
      | none => rw [hst] at hs; cases hs
      | some m1 =>
        rw [hst, Option.bind_some] at hs
        have hfl : fileLen t.dfiles t.dataid = 28 + dsize a := by
          rw [hd, hdid, fileLen, mapIdx_concat']
          have : (D0.mapIdx encDFile).length = D0.length := by simp
          rw [List.getElem?_append_right (by simp)]
          simp [encDFile_length]
        obtain ⟨br1, t1, G1, i1, i2, i3, i4, i5, i6⟩ := rebuildRecord_spec h hwr hst
          (fun hdel => by rw [hfl]; exact hroom a r rest rfl hdel) F q
        have hd1 : t1.dfiles = (D0 ++ [a ++ [r]]).mapIdx encDFile := by
          rw [i4, ← happ]; simp
        obtain ⟨br', t', G', j1, j2, j3, j4, j5⟩ := ih fuel (by simpa using hfu) (a ++ [r]) (by simpa using hf)
          (fun x hx => hw x (List.mem_cons_of_mem _ hx)) (by simpa using hroom) i2 hd1 (by rw [i3]; exact hs)
        refine ⟨br', t', G', ?_, j2, j3, by simpa using j4, by omega⟩
        have hdrop : (encDHdr r.hdr ++ r.id).drop dhdrLen = r.id := by
          rw [List.drop_append]; simp [dhdrLen]
        rw [hfl] at i1
        simp only [rebuildPass, r1, hl1, r2, hdec, hdrop, i1, hts, if_neg hT, if_true]
        have hnext : 28 + dsize a + dhdrLen + r.id.length + r.hdr.datalength = 28 + dsize (a ++ [r]) := by
          rw [dsize_snoc, DRec.enc_length]
          simp only [DRec.hdr, dhdrLen]; omega
        rw [hnext]
        exact j1

theorem indexJump_withData {t : Store} {id : Nat} (hid : (t.indexid + 1) % 2 ^ 32 = id) (F : List Bytes) (q : Nat) :
    indexJump { t.withData F q with dataid := id } = (Zdb.jump t).withData F q := by
  subst hid
  rfl

theorem datHeader_read {f : Bytes} (i : Nat) (g : List DRec) (hi : i < 2 ^ 32) (hf : f = encDFile i g) :
    ∃ b, readExact f 0 dfhdrLen = some b ∧ ¬ ((decDFHeader b).magic ≠ datMagic ∨ (decDFHeader b).version ≠ 3) := by
  refine ⟨encDFHeader (freshDFHeader i), ?_, ?_⟩
  · exact readExact_at (a := []) (c := g.flatMap DRec.enc) (by rw [hf, encDFile]; rfl) rfl (by simp [dfhdrLen])
  · rw [decDFHeader_encDFHeader _ ⟨by simp [freshDFHeader, datMagic], by simp [freshDFHeader], by simp [freshDFHeader], by simp [freshDFHeader], hi⟩]
    simp [freshDFHeader]

theorem dsize_ge (g : List DRec) : g.length ≤ dsize g := by
  induction g with
  | nil => simp
  | cons r g ih =>
    have := r.enc_length
    simp only [dsize, List.map_cons, List.sum_cons, List.length_cons] at ih ⊢
    omega

/-- The files after the first. -/
theorem rebuildLoop_spec {u : Nat} (T : Nat) (Dr : List (List DRec)) (F : List Bytes) (q : Nat) {m : KV}
    (D0 : List (List DRec)) (hF : F = (D0 ++ Dr).mapIdx encDFile) (h0 : 0 < D0.length) (hlen : (D0 ++ Dr).length < 2 ^ 32)
    (hw : ∀ g ∈ Dr, ∀ r ∈ g, r.WF) (hroom : ∀ g ∈ Dr, DRoom g) {br : Branches} {t : Store} {G : Log} (h : UInv br u t G)
    (hd : t.dfiles = D0.mapIdx encDFile) (hs : replayKV (absKV G) (Dr.flatMap (cutAt T)) = some m) :
    ∃ br' t' G', rebuildLoop T u (List.range' D0.length (Dr.length + 1)) br (t.withData F q) = .done br' (t'.withData F q) ∧
      UInv br' u t' G' ∧ absKV G' = m ∧ t'.dfiles = F := by
  induction Dr generalizing D0 br t G with
  | nil =>
    injection hs with hs
    refine ⟨br, t, G, ?_, h, hs, by rw [hd, hF]; simp⟩
    have : (t.withData F q).dfiles[D0.length]? = none := by
      rw [Store.withData]; simp only; rw [hF]; simp
    simp only [List.range'_succ, rebuildLoop, this]
  | cons g Dr ih =>
    have hD0 : D0.length < 2 ^ 32 := by simp at hlen; omega
    have hF1 : F[D0.length]? = some (encDFile D0.length g) := by
      rw [hF, List.getElem?_mapIdx]; simp
    obtain ⟨b, hb1, hb2⟩ := datHeader_read D0.length g hD0 rfl
    have hil := h.irep.length
    have hid : (t.indexid + 1) % 2 ^ 32 = D0.length := by
      have h1 := h.dlen
      rw [hd] at h1
      simp at h1
      rw [h.iid, ← h1, Nat.mod_eq_of_lt hD0]
    have hGl : G.length < 2 ^ 32 := by
      have h1 := h.dlen
      rw [hd] at h1
      simp at h1
      omega
    have hc := h.toCore.jump (by rw [h.mode]; rfl) hGl
    have hj := h.jump hGl
    have hjd : (Zdb.jump t).dfiles = (D0 ++ [[]]).mapIdx encDFile := by
      have h1 := h.dlen
      rw [hd] at h1
      simp at h1
      rw [hc.2.1, hd, mapIdx_concat', ← h1]
      simp [encDFile]
    rw [List.flatMap_cons, replayKV_append] at hs
    cases hrg : replayKV (absKV G) (cutAt T g) with
    | none => rw [hrg] at hs; cases hs
    | some m1 =>
      rw [hrg, Option.bind_some] at hs
      obtain ⟨br1, t1, G1, i1, i2, i3, i4, -⟩ := rebuildPass_spec (u := u) T D0 g F q (f := encDFile D0.length g) (m := m1)
        ((encDFile D0.length g).length + 1) (by have := dsize_ge g; rw [encDFile_length]; omega) [] rfl
        (hw g (by simp)) (by simpa using hroom g (by simp)) hj hjd (by rw [absKV_jump]; exact hrg)
      obtain ⟨br', t', G', j1, j2, j3, j4⟩ := ih (D0 ++ [g]) (by rw [hF]; simp) (by simp) (by simpa using hlen)
        (fun x hx => hw x (List.mem_cons_of_mem _ hx)) (fun x hx => hroom x (List.mem_cons_of_mem _ hx)) i2
        (by simpa using i4) (by rw [i3]; exact hs)
      refine ⟨br', t', G', ?_, j2, j3, j4⟩
      have hwd : (t.withData F q).dfiles[D0.length]? = some (encDFile D0.length g) := hF1
      rw [List.length_cons, List.range'_succ, rebuildLoop, hwd]
      simp only [hb1, if_neg hb2, gt_iff_lt, if_pos h0]
      rw [indexJump_withData hid]
      have hz : 28 + dsize ([] : List DRec) = dfhdrLen := rfl
      rw [hz] at i1
      rw [i1]
      simp only
      simpa using j1

theorem rebuild_start (u : Nat) (F : List Bytes) :
    loadLoop (some .user) u [0] (fun _ => []) ((List.range 1).foldl indexSetId (initRoot (some .user) [] F)) =
      .ok (fun _ => []) ((freshStore .user).withData F 0) := by
  simp only [List.range, List.range.loop, List.foldl, loadLoop]
  generalize hx : loadFile _ _ _ _ = x
  have : x = .stop (fun _ => []) ((freshStore .user).withData F 0) := by
    rw [← hx]
    have h1 : (indexSetId (indexSetId (initRoot (some Mode.user) [] F) 0) 0) =
      (⟨.user, [], F, 0, 0, 0, 0, 0, 0, 0, 0, none, ⟨1, [0], false⟩⟩ : Store) := by rfl
    rw [h1]
    simp only [loadFile, loadBody]
    rfl
  rw [this]

/-- The tool on the data files of a namespace, with `--time T`. -/
theorem rebuild_limit {u : Nat} (T : Nat) {F : List Bytes} {D : List (List DRec)} {m0 m : KV} (hD : DRep F D m0)
    (hcut : replayKV [] (D.flatMap (cutAt T)) = some m) (hne : 0 < F.length) (hlen : F.length < 2 ^ 32) :
    ∃ br s G, rebuild .user T u F = .done br s ∧ s.dfiles = F ∧ UInv br u { s with dprev := 0 } G ∧ absKV G = m := by
  have hl := hD.length
  cases D with
  | nil => rw [hl] at hne; cases hne
  | cons g D =>
    have hF1 : F[0]? = some (encDFile 0 g) := by
      rw [hD.files, List.getElem?_mapIdx]; simp
    obtain ⟨b, hb1, hb2⟩ := datHeader_read 0 g (by decide) rfl
    have hs := hcut
    rw [List.flatMap_cons, replayKV_append] at hs
    cases hrg : replayKV [] (cutAt T g) with
    | none => rw [hrg] at hs; cases hs
    | some m1 =>
      rw [hrg, Option.bind_some] at hs
      have hu := freshStore_uinv (fun _ => []) u (fun _ => rfl)
      obtain ⟨br1, t1, G1, i1, i2, i3, i4, -⟩ := rebuildPass_spec (u := u) T [] g F 0 (f := encDFile 0 g) (m := m1)
        ((encDFile 0 g).length + 1) (by have := dsize_ge g; rw [encDFile_length]; omega) [] rfl
        (hD.wf g (by simp)) (by simpa using hD.room g (by simp)) hu (by simp [freshStore, encDFile])
        (by simpa [absKV, live, locs, locsFrom, locsIn] using hrg)
      obtain ⟨br', t', G', j1, j2, j3, j4⟩ := rebuildLoop_spec (u := u) T D F 0 (m := m) [g] (by rw [hD.files]; simp) (by simp)
        (by rw [hl] at hlen; simpa using hlen)
        (fun x hx => hD.wf x (List.mem_cons_of_mem _ hx)) (fun x hx => hD.room x (List.mem_cons_of_mem _ hx)) i2
        (by simpa using i4) (by rw [i3]; exact hs)
      refine ⟨br', t'.withData F 0, G', ?_, rfl, ?_, j3⟩
      · have hr : List.range (F.length + 1) = 0 :: List.range' 1 (D.length + 1) := by
          rw [hl, List.range_eq_range', List.length_cons, List.range'_succ]
        rw [rebuild, rebuild_start, hr]
        have hwd : ((freshStore .user).withData F 0).dfiles[0]? = some (encDFile 0 g) := hF1
        simp only [rebuildLoop, hwd, hb1, if_neg hb2, gt_iff_lt, Nat.lt_irrefl, if_false]
        have hz : 28 + dsize ([] : List DRec) = dfhdrLen := rfl
        rw [hz] at i1
        have he : ({ (freshStore .user).withData F 0 with dataid := 0 } : Store) = (freshStore .user).withData F 0 := rfl
        rw [he, i1]
        simp only
        exact j1
      · have he : ({ t'.withData F 0 with dprev := 0 } : Store) = { t' with dfiles := appendFile t'.dfiles t'.dataid [], dprev := 0 } := by
          have : appendFile t'.dfiles t'.dataid [] = t'.dfiles := by
            unfold appendFile
            apply List.ext_getElem?
            intro i
            rw [List.getElem?_modify]
            by_cases hi : t'.dataid = i
            · cases t'.dfiles[i]? <;> simp [hi]
            · cases t'.dfiles[i]? <;> simp [hi]
          rw [this, j4]; rfl
        rw [he]
        exact j2.appendData [] 0

/-- The tool on the data files of a namespace. -/
theorem rebuild_spec {u : Nat} {F : List Bytes} {D : List (List DRec)} {m : KV} (hD : DRep F D m) (hne : 0 < F.length)
    (hlen : F.length < 2 ^ 32) :
    ∃ br s G, rebuild .user 0 u F = .done br s ∧ s.dfiles = F ∧ UInv br u { s with dprev := 0 } G ∧ absKV G = m := by
  refine rebuild_limit 0 hD ?_ hne hlen
  have : D.flatMap (cutAt 0) = D.flatten := by
    rw [show cutAt 0 = id from funext cutAt_zero, List.flatMap_id]
  rw [this]
  exact hD.replay

end Zdb
