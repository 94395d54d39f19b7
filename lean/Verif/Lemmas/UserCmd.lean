/-
The user-mode commands refine the specification.
-/
import Verif.Lemmas.UserOps
import Verif.Lemmas.Growth
namespace Zdb


theorem UInv.get {br : Branches} {u : Nat} {s : Store} {G : Log} (h : UInv br u s G) {k : Bytes}
    {l : Loc} (hl : liveGet G k = some l) : RecOK s.dfiles l.file l.r :=
  h.recs l (live_mem (liveGet_some hl).1)

theorem UInv.total_eq {br : Branches} {u : Nat} {s : Store} {G : Log} (h : UInv br u s G) :
    s.datasize = (absKV G).total := by
  rw [h.size, KV.total, absKV, List.map_map]
  congr 1
  apply List.map_congr_left
  intro l hl
  exact (h.recs l (live_mem hl)).len

theorem sum_le_of_mem {l : List Nat} {a : Nat} (h : a ∈ l) : a ≤ l.sum := by
  induction l with
  | nil => cases h
  | cons x l ih =>
    rcases List.mem_cons.1 h with rfl | h
    · simp
    · have := ih h; simp; omega

theorem KV.sizeOf_le (m : KV) (k : Bytes) : m.sizeOf k ≤ m.total := by
  unfold KV.sizeOf KV.get
  cases h : m.find? (fun x => x.1 == k) with
  | none => simp
  | some x =>
    simp only [Option.map_some, KV.total]
    exact sum_le_of_mem (List.mem_map.2 ⟨x, List.mem_of_find?_eq_some h, rfl⟩)

theorem UInv.entries_eq {br : Branches} {u : Nat} {s : Store} {G : Log} (h : UInv br u s G) :
    s.entries = (absKV G).length := by
  rw [h.entries, absKV, List.length_map]

theorem absKV_nodup {br : Branches} {u : Nat} {s : Store} {G : Log} (h : UInv br u s G) :
    ((absKV G).map (·.1)).Nodup := by
  have := h.nodup
  rw [absKV, List.map_map]; exact this

/-! ### file change -/

theorem jumpIfFull_spec {br : Branches} {u : Nat} {s : Store} {G : Log} (h : UInv br u s G)
    (hcap : s.ifiles.length < 2 ^ 32) (limit len : Nat) (hlim : limit ≤ 2 ^ 31) :
    ∃ G1, UInv br u (jumpIfFull limit s len) G1 ∧ absKV G1 = absKV G ∧ liveGet G1 = liveGet G ∧
      fileLen (jumpIfFull limit s len).dfiles (jumpIfFull limit s len).dataid ≤ 2 ^ 31 ∧
      s.ifiles.length ≤ (jumpIfFull limit s len).ifiles.length ∧ locs G1 = locs G := by
  unfold jumpIfFull
  have hlen := h.irep.length
  by_cases hj : fileLen s.dfiles s.dataid + len > limit
  · rw [if_pos hj]
    have hc := h.toCore.jump (by rw [h.mode]; rfl) (by omega)
    refine ⟨logJump G, h.jump (by omega), absKV_jump G, ?_, ?_, ?_, locs_jump G⟩
    · funext k; rw [liveGet, live_jump]; rfl
    · rw [hc.1.did, hc.2.2.2, hc.2.1, fileLen, List.getElem?_append_right (by rw [h.dlen]; exact Nat.le_refl _), h.dlen]
      simp
    · rw [hc.2.2.1]; simp
  · rw [if_neg hj]
    exact ⟨G, h, rfl, rfl, by omega, Nat.le_refl _, rfl⟩

/-! ### identical payload -/

theorem upToDate_iff {s : Store} {u : Nat} {l : Loc} (h : RecOK s.dfiles l.file l.r) (p : Bytes)
    (hp : p.length < 2 ^ 32) : upToDate s (some (l.entry u)) p = decide (l.r.payload = p) := by
  have hd := h.dataGet
  rw [h.len] at hd
  simp only [upToDate, compareMatching, Loc.entry, hd, Nat.mod_eq_of_lt hp, h.len]
  by_cases he : l.r.payload = p
  · simp [he, h.crc]
  · by_cases hlen : l.r.payload.length = p.length
    · have : ¬ (List.take p.length l.r.payload = p) := by
        rw [← hlen, List.take_length]; exact he
      simp [hlen, he, this]
    · simp [hlen, he]

/-! ### SET -/

theorem timestampFromSet_lt (now : Nat) (argv : List Bytes) (i : Nat) :
    timestampFromSet now argv i < 2 ^ 32 := by
  unfold timestampFromSet
  cases argv[i]? with
  | none => exact Nat.mod_lt _ (by decide)
  | some b =>
    simp only
    have h1 := Int.emod_lt_of_pos (atoll b) (b := 2 ^ 32) (by decide)
    have h2 := Int.emod_nonneg (atoll b) (b := 2 ^ 32) (by decide)
    omega

theorem setHandlerUser_spec {c : Ctx} {br : Branches} {s : Store} {G : Log} (h : UInv br c.u s G)
    (hio1 : c.io.iapp = none) (hio2 : c.io.iflag = none) (k p : Bytes) (ts : Nat)
    (hk : k.length < 256) (hp : p.length < 2 ^ 32) (hts : ts < 2 ^ 32)
    (hfl : fileLen s.dfiles s.dataid ≤ 2 ^ 31) :
    ∃ G', UInv (setHandlerUser c br s k p ts ((liveGet G k).map (Loc.entry c.u))).1 c.u
        (setHandlerUser c br s k p ts ((liveGet G k).map (Loc.entry c.u))).2.1 G' ∧
      (absKV G', (setHandlerUser c br s k p ts ((liveGet G k).map (Loc.entry c.u))).2.2) =
        (if k = [] then (absKV G, Reply.err "Invalid argument, key needed")
         else if ((absKV G).get k).map (·.payload) = some p then (absKV G, Reply.nil)
         else if !(c.io.dhdr.ok && c.io.dpay.ok) then (absKV G, Reply.err "Cannot write data right now")
         else ((absKV G).put k p ts, Reply.bulk k)) ∧
      LogStep (fun x => x = k ∧
        (setHandlerUser c br s k p ts ((liveGet G k).map (Loc.entry c.u))).2.2 = Reply.bulk k) G G' := by
  by_cases hk0 : k = []
  · subst hk0
    exact ⟨G, by simpa [setHandlerUser] using h, by simp [setHandlerUser], LogStep.refl _ _⟩
  have hk0' : k.length ≠ 0 := fun e => hk0 (List.length_eq_zero_iff.1 e)
  rw [if_neg hk0]
  by_cases hup : upToDate s ((liveGet G k).map (Loc.entry c.u)) p = true
  · have hst : setHandlerUser c br s k p ts ((liveGet G k).map (Loc.entry c.u)) = (br, s, .nil) := by
      simp only [setHandlerUser, if_neg hk0', hup, if_true]
    rw [hst]
    refine ⟨G, h, ?_, LogStep.refl _ _⟩
    cases hg : liveGet G k with
    | none => rw [hg] at hup; simp [upToDate] at hup
    | some l =>
      rw [hg, Option.map_some, upToDate_iff (h.get hg) p hp] at hup
      simp only [decide_eq_true_eq] at hup
      rw [absKV_get, hg]
      simp [Loc.val, hup]
  · have hne : ¬ ((absKV G).get k).map (·.payload) = some p := by
      rw [absKV_get]
      cases hg : liveGet G k with
      | none => simp
      | some l =>
        rw [hg, Option.map_some, upToDate_iff (h.get hg) p hp] at hup
        simp only [decide_eq_true_eq] at hup
        simp [Loc.val, hup]
    rw [if_neg hne]
    by_cases hw : (c.io.dhdr.ok && c.io.dpay.ok) = true
    · rw [hw]
      simp only [Bool.not_true, Bool.false_eq_true, if_false]
      have hwr := dataInsert_ok (s := s) hw h.dataFile k p 0 (crc32 p) ts rfl
      generalize hdi : dataInsert s c.io k p 0 (crc32 p) ts = di at hwr
      obtain ⟨s1, off⟩ := di
      simp only at hwr
      obtain ⟨f, hf⟩ := h.dataFile
      obtain ⟨b, prev, hbl, hs1⟩ := hwr.eq
      have hoff : off = f.length := by rw [hwr.pos, fileLen, hf]
      have hfl' : f.length ≤ 2 ^ 31 := by simpa [fileLen, hf] using hfl
      obtain ⟨g, hg⟩ : ∃ g, G[s.dataid]? = some g := by
        have : s.dataid < G.length := by rw [h.did]; have := h.iid; omega
        exact ⟨_, List.getElem?_eq_getElem this⟩
      have hbnd := h.bound _ _ _ hg hf
      have hoff0 : off ≠ 0 := by omega
      have h1 : UInv br c.u s1 G := by rw [hs1]; exact h.appendData b prev
      have hend : logEnd G < 2 ^ 32 := by
        obtain ⟨G', g', rfl⟩ := exists_concat h.ne
        have hii := h.iid
        have : s.dataid = G'.length := by rw [h.did]; simp at hii; omega
        rw [this] at hg
        simp at hg
        subst hg
        simp [logEnd]; omega
      have hds : s1.datasize = s.datasize := by rw [hs1]
      have hdd : s1.dataid = s.dataid := by rw [hs1]
      have hii : s1.indexid = s.indexid := by rw [hs1]
      have hdf : s1.dfiles = appendFile s.dfiles s.dataid b := by rw [hs1]
      have hslack : ∀ (g : List Rec) (f : Bytes), G[s1.indexid]? = some g → s1.dfiles[s1.indexid]? = some f →
          19 * (isize g + (34 + k.length)) ≤ 35 * (f.length - 28) := by
        intro g' f' hg' hf'
        rw [hii, ← h.did] at hg' hf'
        rw [hg] at hg'
        cases hg'
        rw [hdf, appendFile, List.getElem?_modify, hf] at hf'
        simp at hf'
        rw [← hf', List.length_append, hbl]
        omega
      have htot : s1.datasize + p.length ≤ (s1.dfiles.map List.length).sum := by
        rw [hdf, sum_lengths_append _ _ _ (List.getElem?_eq_some_iff.1 hf).1, hds, hbl]
        have := h.total; omega
      have hdata : ∃ prev, prev < 2 ^ 32 ∧ DataAt s1.dfiles s1.dataid off
          (encDHdr { idlength := k.length, datalength := p.length, previous := prev,
                     integrity := crc32 p, flags := 0, timestamp := ts } ++ (k ++ p)) := by
        rw [hdd]; exact hwr.data
      cases hgk : liveGet G k with
      | none =>
        rw [hgk, Option.map_none] at hup
        obtain ⟨i1, i2, i3⟩ := h1.insert c.io hio1 (⟨k, off, p.length, crc32 p, 0, ts⟩ : SetReq) p hgk (by simp only; omega) hk (by simp only; omega) rfl hp rfl (Or.inl rfl) hts
          hdata hend hslack htot
        have hst : setHandlerUser c br s k p ts (Option.map (Loc.entry c.u) none) =
            ((insertUser br s1 c.u c.io (⟨k, off, p.length, crc32 p, 0, ts⟩ : SetReq)).1,
             (insertUser br s1 c.u c.io (⟨k, off, p.length, crc32 p, 0, ts⟩ : SetReq)).2.1, .bulk k) := by
          simp only [setHandlerUser, if_neg hk0', hup, hdi, if_neg hoff0, Option.map_none, i1, if_true,
            Bool.false_eq_true, if_false]
        rw [hst]
        refine ⟨_, i2, by rw [i3], ?_⟩
        refine ⟨by rw [logAppend_length]; exact Nat.le_refl _, _, _, locs_append h.ne _, Kills.refl _ _, ?_⟩
        intro e he
        rw [List.mem_singleton.1 he]
        refine ⟨⟨⟨rfl, rfl⟩, rfl⟩, fun m hm hml hmid => ?_⟩
        have := List.find?_eq_none.1 hgk m (List.mem_filter.2 ⟨hm, hml⟩)
        exact absurd (show m.id = k from hmid) (by simpa using this)
      | some l =>
        rw [hgk, Option.map_some] at hup
        obtain ⟨G', i1, i2, i3, i4⟩ := h1.update c.io hio1 hio2 (⟨k, off, p.length, crc32 p, 0, ts⟩ : SetReq) p hgk (by simp only; omega) rfl hp rfl hts
          hdata hend hslack htot
        have hst : setHandlerUser c br s k p ts (Option.map (Loc.entry c.u) (some l)) =
            ((updateUser br s1 c.u c.io (⟨k, off, p.length, crc32 p, 0, ts⟩ : SetReq) (l.entry c.u)).1,
             (updateUser br s1 c.u c.io (⟨k, off, p.length, crc32 p, 0, ts⟩ : SetReq) (l.entry c.u)).2.1, .bulk k) := by
          simp only [setHandlerUser, if_neg hk0', hdi, if_neg hoff0, Option.map_some, i1, if_true,
            hup, Bool.false_eq_true, if_false]
        rw [hst]
        exact ⟨G', i2, by rw [i3], i4.mono (fun x hx => ⟨hx, rfl⟩)⟩
    · have hw' : (c.io.dhdr.ok && c.io.dpay.ok) = false := by simpa using hw
      rw [hw']
      simp only [Bool.not_false, if_true]
      obtain ⟨d1, b, d2⟩ := dataInsert_fail (s := s) hw' k p 0 (crc32 p) ts
      have hst : setHandlerUser c br s k p ts ((liveGet G k).map (Loc.entry c.u)) =
          (br, (dataInsert s c.io k p 0 (crc32 p) ts).1, .err "Cannot write data right now") := by
        simp only [setHandlerUser, if_neg hk0', hup, d1, if_true, Bool.false_eq_true, if_false]
      rw [hst]
      refine ⟨G, ?_, rfl, LogStep.refl _ _⟩
      rw [d2]; exact h.appendData b s.dprev

theorem overQuota_iff {conf : NsConf} {m : KV} {len : Nat} (k : Bytes) (hq : conf.maxsize < 2 ^ 63)
    (ht : m.total + len < 2 ^ 64) (hs : m.sizeOf k < 2 ^ 32) :
    overQuota conf m.total len (m.sizeOf k) =
      decide (conf.maxsize ≠ 0 ∧ m.total - m.sizeOf k + len > conf.maxsize) := by
  have := KV.sizeOf_le m k
  rw [overQuota, Nat.mod_eq_of_lt ht, Nat.mod_eq_of_lt (by omega)]
  by_cases h0 : conf.maxsize = 0
  · simp [h0]
  · by_cases h1 : m.total + len > conf.maxsize + m.sizeOf k
    · have h2 : m.total - m.sizeOf k + len > conf.maxsize := by omega
      simp [h0, h1, h2]
    · have h2 : ¬ (m.total - m.sizeOf k + len > conf.maxsize) := by omega
      simp [h0, h1, h2]

theorem UInv.sizeOf {br : Branches} {u : Nat} {s : Store} {G : Log} (h : UInv br u s G) (k : Bytes) :
    floatingOf ((liveGet G k).map (Loc.entry u)) = (absKV G).sizeOf k ∧ (absKV G).sizeOf k < 2 ^ 32 := by
  unfold KV.sizeOf
  rw [absKV_get]
  cases hg : liveGet G k with
  | none => simp [floatingOf]
  | some l =>
    have := (h.get hg)
    have h2 := this.wf
    simp only [Item.WF] at h2
    simp only [Option.map_some, Loc.entry, Loc.val, floatingOf]
    rw [← this.len]
    omega

theorem lock_cases (conf : NsConf) (w : Bool) (a : Branches × Store × Reply) (br : Branches) (s : Store) :
    (if !w then (br, s, errReadOnly)
     else if conf.isFrozen then (br, s, errFrozen)
     else if conf.isLocked then (br, s, errLocked)
     else a) =
    match writeRefusal conf w with
    | some msg => (br, s, .err msg)
    | none => a := by
  unfold writeRefusal NsConf.isFrozen NsConf.isLocked
  cases w <;> cases conf.lock <;> simp [errReadOnly, errFrozen, errLocked]

theorem cmdSet_body_spec {c : Ctx} {br : Branches} {s : Store} {G : Log} (h : UInv br c.u s G)
    (hio1 : c.io.iapp = none) (hio2 : c.io.iflag = none) (hlim : c.limit ≤ 2 ^ 31)
    (hcap : s.ifiles.length < 2 ^ 32) (htot : totalData s < 2 ^ 63) (hq : c.conf.maxsize < 2 ^ 63)
    (argv : List Bytes) (k p : Bytes) (hp : p.length < 2 ^ 32) :
    ∃ G', UInv (cmdSet.body c br s argv k p).1 c.u (cmdSet.body c br s argv k p).2.1 G' ∧
      (absKV G', (cmdSet.body c br s argv k p).2.2) =
        specSet c.conf c.writable (c.io.dhdr.ok && c.io.dpay.ok) (absKV G) k p
          (timestampFromSet c.now argv 3) ∧
      LogStep (fun x => x = k ∧ (cmdSet.body c br s argv k p).2.2 = Reply.bulk k) G G' := by
  unfold cmdSet.body specSet
  by_cases hk : k.length > 255
  · simp only [if_pos hk]; exact ⟨G, h, rfl, LogStep.refl _ _⟩
  simp only [if_neg hk]
  rw [lock_cases]
  cases hr : writeRefusal c.conf c.writable with
  | some msg => exact ⟨G, h, rfl, LogStep.refl _ _⟩
  | none =>
    simp only
    have hentry : (if k.length ≠ 0 then indexGet br s c.u k else none) =
        (liveGet G k).map (Loc.entry c.u) := by
      by_cases h0 : k.length = 0
      · rw [List.length_eq_zero_iff.1 h0]; simp [liveGet_nil h]
      · rw [if_pos h0, h.indexGet]
    rw [hentry, (h.sizeOf k).1, h.total_eq]
    have hget : ((liveGet G k).map (Loc.entry c.u)).isSome = ((absKV G).get k).isSome := by
      rw [absKV_get]; simp
    rw [hget]
    have hts := timestampFromSet_lt c.now argv 3
    have hqq := overQuota_iff (conf := c.conf) (m := absKV G) (len := p.length) k hq (by
      rw [← h.total_eq]; have := h.total; unfold totalData at htot; omega) (h.sizeOf k).2
    rw [hqq]
    by_cases hworm : (((absKV G).get k).isSome && c.conf.worm) = true
    · simp only [hworm, if_true]; exact ⟨G, h, rfl, LogStep.refl _ _⟩
    · have hworm' : (((absKV G).get k).isSome && c.conf.worm) = false := by simpa using hworm
      simp only [hworm', Bool.false_eq_true, if_false]
      by_cases hover : c.conf.maxsize ≠ 0 ∧ (absKV G).total - (absKV G).sizeOf k + p.length > c.conf.maxsize
      · rw [if_pos hover]
        simp only [decide_eq_true hover, if_true]
        exact ⟨G, h, rfl, LogStep.refl _ _⟩
      · rw [if_neg hover]
        simp only [decide_eq_false hover, Bool.false_eq_true, if_false, h.mode]
        obtain ⟨G1, j1, j2, j3, j4, j5, j6⟩ := jumpIfFull_spec h hcap c.limit p.length hlim
        have := setHandlerUser_spec j1 hio1 hio2 k p _ (by omega) hp hts j4
        rw [j2, j3] at this
        obtain ⟨G', a1, a2, a3⟩ := this
        have l1 := h.irep.length
        have l2 := j1.irep.length
        exact ⟨G', a1, a2, a3.of_locs j6 (by omega)⟩

theorem cmdDel_body_spec {c : Ctx} {br : Branches} {s : Store} {G : Log} (h : UInv br c.u s G)
    (hio2 : c.io.iflag = none) (argv : List Bytes) (k : Bytes) :
    ∃ G', UInv (cmdDel.body c br s argv k).1 c.u (cmdDel.body c br s argv k).2.1 G' ∧
      (absKV G', (cmdDel.body c br s argv k).2.2) =
        specDel c.conf c.writable (c.io.dhdr.ok && c.io.dpay.ok) (absKV G) k ∧
      LogStep (fun x => x = k ∧ (cmdDel.body c br s argv k).2.2 = Reply.ok) G G' := by
  unfold cmdDel.body specDel
  by_cases hk : k.length > 255
  · simp only [if_pos hk]; exact ⟨G, h, rfl, LogStep.refl _ _⟩
  simp only [if_neg hk]
  rw [lock_cases]
  cases hr : writeRefusal c.conf c.writable with
  | some msg => exact ⟨G, h, rfl, LogStep.refl _ _⟩
  | none =>
    simp only
    rw [h.indexGet, absKV_get]
    cases hg : liveGet G k with
    | none => simp only [Option.map_none, Option.isNone_none, if_true]; exact ⟨G, h, rfl, LogStep.refl _ _⟩
    | some l =>
      simp only [Option.map_some, Option.isNone_some, Bool.false_eq_true, if_false]
      by_cases hw : c.conf.worm = true
      · simp only [hw, if_true]; exact ⟨G, h, rfl, LogStep.refl _ _⟩
      · have hw' : c.conf.worm = false := by simpa using hw
        simp only [hw', Bool.false_eq_true, if_false]
        by_cases hd : (c.io.dhdr.ok && c.io.dpay.ok) = true
        · simp only [hd, Bool.not_true, Bool.false_eq_true, if_false]
          have hwr := dataInsert_ok (s := s) hd h.dataFile (l.entry c.u).id [] 1 0
            (timestampFromSet c.now argv 2) rfl
          generalize dataInsert s c.io (l.entry c.u).id [] 1 0 (timestampFromSet c.now argv 2) = di at hwr ⊢
          obtain ⟨s1, off⟩ := di
          simp only at hwr ⊢
          obtain ⟨f, hf⟩ := h.dataFile
          obtain ⟨b, prev, hbl, hs1⟩ := hwr.eq
          have hoff0 : off ≠ 0 := by
            obtain ⟨g, hg⟩ : ∃ g, G[s.dataid]? = some g := by
              have : s.dataid < G.length := by rw [h.did]; have := h.iid; omega
              exact ⟨_, List.getElem?_eq_getElem this⟩
            have hbnd := h.bound _ _ _ hg hf
            have hoff : off = f.length := by rw [hwr.pos, fileLen, hf]
            omega
          have h1 : UInv br c.u s1 G := by rw [hs1]; exact h.appendData b prev
          obtain ⟨G', i1, i2, i3, i4⟩ := h1.delete c.io hio2 hg
          simp only [if_neg hoff0, i1, if_true]
          exact ⟨G', i2, by rw [i3], i4.mono (fun x hx => ⟨hx, trivial⟩)⟩
        · have hd' : (c.io.dhdr.ok && c.io.dpay.ok) = false := by simpa using hd
          simp only [hd', Bool.not_false, if_true]
          obtain ⟨d1, b, d2⟩ := dataInsert_fail (s := s) hd' (l.entry c.u).id [] 1 0
            (timestampFromSet c.now argv 2)
          simp only [d1, if_true]
          refine ⟨G, ?_, rfl, LogStep.refl _ _⟩
          rw [d2]; exact h.appendData b s.dprev

/-! ### reads -/

theorem getSingle_spec {c : Ctx} {br : Branches} {s : Store} {G : Log} (h : UInv br c.u s G)
    (k : Bytes) : getSingle c br s k = replyGet ((absKV G).get k) := by
  simp only [getSingle, h.indexGet, absKV_get]
  cases hg : liveGet G k with
  | none => rfl
  | some l =>
    have hd := (h.get hg).dataGet
    simp only [Option.map_some, Loc.entry, hd, replyGet, Loc.val]

theorem readChecks_spec {c : Ctx} {m : KV} (name k : Bytes) (hn : name ≠ []) (f : Bytes → Reply)
    (g : Option Val → Reply) (hfg : f k = g (m.get k)) :
    readChecks c [name, k] f = specRead c.conf m k g := by
  simp only [readChecks, argsValidate, specRead, NsConf.isFrozen]
  by_cases hk : k = []
  · subst hk; simp [errArg]
  · by_cases hl : k.length > 255
    · simp [hk, hn, hl]
    · by_cases hz : c.conf.lock = .frozen
      · simp [hk, hn, hl, hz, errFrozen]
      · simp [hk, hn, hl, hz, hfg]

theorem cmdGet_spec {c : Ctx} {br : Branches} {s : Store} {G : Log} (h : UInv br c.u s G)
    (name k : Bytes) (hn : name ≠ []) :
    cmdGet c br s [name, k] = specRead c.conf (absKV G) k replyGet :=
  readChecks_spec name k hn _ _ (getSingle_spec h k)

theorem cmdExists_spec {c : Ctx} {br : Branches} {s : Store} {G : Log} (h : UInv br c.u s G)
    (name k : Bytes) (hn : name ≠ []) :
    cmdExists c br s [name, k] = specRead c.conf (absKV G) k replyExists := by
  apply readChecks_spec name k hn
  rw [h.indexGet, absKV_get]
  cases liveGet G k <;> rfl

theorem cmdLength_spec {c : Ctx} {br : Branches} {s : Store} {G : Log} (h : UInv br c.u s G)
    (name k : Bytes) (hn : name ≠ []) :
    cmdLength c br s [name, k] = specRead c.conf (absKV G) k replyLength := by
  apply readChecks_spec name k hn
  rw [h.indexGet, absKV_get]
  cases hg : liveGet G k with
  | none => rfl
  | some l => simp only [Option.map_some, replyLength, Loc.entry, Loc.val, (h.get hg).len]

theorem cmdKeytime_spec {c : Ctx} {br : Branches} {s : Store} {G : Log} (h : UInv br c.u s G)
    (name k : Bytes) (hn : name ≠ []) :
    cmdKeytime c br s [name, k] = specRead c.conf (absKV G) k replyKeytime := by
  apply readChecks_spec name k hn
  rw [h.indexGet, absKV_get]
  cases liveGet G k <;> rfl

theorem cmdCheck_spec {c : Ctx} {br : Branches} {s : Store} {G : Log} (h : UInv br c.u s G)
    (name k : Bytes) (hn : name ≠ []) :
    cmdCheck c br s [name, k] = specRead c.conf (absKV G) k replyCheck := by
  apply readChecks_spec name k hn
  rw [h.indexGet, absKV_get]
  cases hg : liveGet G k with
  | none => rfl
  | some l =>
    have := (h.get hg).dataCheck
    simp only [Option.map_some, replyCheck, Loc.entry, this]

theorem cmdMget_spec {c : Ctx} {br : Branches} {s : Store} {G : Log} (h : UInv br c.u s G)
    (name : Bytes) (ks : List Bytes) :
    cmdMget c br s (name :: ks) = specMget c.conf (absKV G) ks := by
  cases ks with
  | nil => rfl
  | cons k ks =>
    unfold cmdMget specMget
    simp only [NsConf.isFrozen]
    by_cases h1 : ∃ x ∈ k :: ks, x.length > 255
    · have h1' : (k :: ks).any (fun k => decide (k.length > 255)) = true := by
        rw [List.any_eq_true]; simpa using h1
      simp only [h1', h1, if_true]
      simp
    · have h1' : (k :: ks).any (fun k => decide (k.length > 255)) = false := by
        rw [Bool.eq_false_iff]; intro h2; exact h1 (by rw [List.any_eq_true] at h2; simpa using h2)
      simp only [h1', h1, Bool.false_eq_true, if_false]
      by_cases hz : c.conf.lock = .frozen
      · simp [hz, errFrozen]
      · have : (k :: ks).map (getSingle c br s) = (k :: ks).map (fun k => replyGet ((absKV G).get k)) :=
          List.map_congr_left (fun x _ => getSingle_spec h x)
        rw [this]
        simp [hz]

end Zdb
