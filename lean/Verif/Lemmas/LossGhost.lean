/-
A store some data files of which were changed, beside the store that still has the old ones.
-/
import Verif.Lemmas.WithData
import Verif.Lemmas.UserRun
import Verif.Lemmas.Fault
import Verif.Spec.Loss
namespace Zdb

/-- The store with its first data files replaced by `F`. -/
def Store.gh (s : Store) (F : List Bytes) : Store := { s with dfiles := F ++ s.dfiles.drop F.length }

/-- The replaced files are not the current one. -/
def Under (F : List Bytes) (s : Store) : Prop := F.length ≤ s.dataid ∧ s.dataid < s.dfiles.length

theorem gh_len {F fs : List Bytes} (h : F.length ≤ fs.length) : (F ++ fs.drop F.length).length = fs.length := by
  rw [List.length_append, List.length_drop]; omega

theorem gh_get {F fs : List Bytes} {i : Nat} (h : F.length ≤ i) : (F ++ fs.drop F.length)[i]? = fs[i]? := by
  rw [List.getElem?_append_right h, List.getElem?_drop]
  congr 1; omega

theorem gh_append {F fs : List Bytes} {i : Nat} (h : F.length ≤ i) (b : Bytes) :
    appendFile (F ++ fs.drop F.length) i b = F ++ (appendFile fs i b).drop F.length := by
  apply List.ext_getElem?
  intro j
  unfold appendFile
  by_cases hj : F.length ≤ j
  · rw [gh_get hj, List.getElem?_modify, List.getElem?_modify, gh_get hj]
  · have hij : ¬ i = j := by omega
    rw [List.getElem?_modify, List.getElem?_append_left (by omega), List.getElem?_append_left (by omega)]
    simp [hij]

theorem gh_write {F fs : List Bytes} {i off : Nat} (h : F.length ≤ i) (b : Bytes) :
    writeFileAt (F ++ fs.drop F.length) i off b = F ++ (writeFileAt fs i off b).drop F.length := by
  apply List.ext_getElem?
  intro j
  unfold writeFileAt
  by_cases hj : F.length ≤ j
  · rw [gh_get hj, List.getElem?_modify, List.getElem?_modify, gh_get hj]
  · have hij : ¬ i = j := by omega
    rw [List.getElem?_modify, List.getElem?_append_left (by omega), List.getElem?_append_left (by omega)]
    simp [hij]

theorem gh_init {F fs : List Bytes} {i : Nat} (h : F.length ≤ i) (hl : F.length ≤ fs.length) :
    dataInitialize (F ++ fs.drop F.length) i = F ++ (dataInitialize fs i).drop F.length := by
  unfold dataInitialize
  simp only [gh_len hl]
  split
  · exact gh_write h _
  · rw [List.drop_append_of_le_length hl, List.append_assoc]

theorem init_len (fs : List Bytes) (i : Nat) : fs.length ≤ (dataInitialize fs i).length := by
  unfold dataInitialize
  simp only
  split
  · simp [writeFileAt]
  · simp

theorem dataOpen_gh {F : List Bytes} {s : Store} {i : Nat} (h : F.length ≤ i) (hl : F.length ≤ s.dfiles.length) :
    dataOpen (s.gh F) i = (dataOpen s i).gh F := by
  simp only [dataOpen, Store.gh, gh_init h hl, gh_get h]

theorem jump_gh {F : List Bytes} {s : Store} (h : Under F s) (hs : InStep s) (hcap : s.indexid + 1 < 2 ^ 32) :
    jump (s.gh F) = (jump s).gh F := by
  have hid : (s.indexid + 1) % 2 ^ 32 = s.indexid + 1 := Nat.mod_eq_of_lt hcap
  have h1 := h.1
  have h2 := h.2
  have h3 := hs.same
  simp only [jump]
  have : (s.gh F).indexid = s.indexid := rfl
  rw [this]
  exact dataOpen_gh (s := { indexSetId { s with nextid := 0 } ((s.indexid + 1) % 2 ^ 32) with
    ifiles := indexCreate s.ifiles ((s.indexid + 1) % 2 ^ 32) s.mode.byte
    seqmap := s.seqmap.map (· ++ [(s.nextentry, (s.indexid + 1) % 2 ^ 32)]) }) (by omega)
    (by show F.length ≤ s.dfiles.length; omega)

theorem fileLen_gh {F : List Bytes} {s : Store} (h : Under F s) :
    fileLen (s.gh F).dfiles s.dataid = fileLen s.dfiles s.dataid := by
  simp only [fileLen, Store.gh, gh_get h.1]

theorem jumpIfFull_gh {F : List Bytes} {s : Store} (h : Under F s) (hs : InStep s) (hcap : s.indexid + 1 < 2 ^ 32)
    (limit len : Nat) : jumpIfFull limit (s.gh F) len = (jumpIfFull limit s len).gh F := by
  unfold jumpIfFull
  have : (s.gh F).dataid = s.dataid := rfl
  rw [this, fileLen_gh h]
  split
  · exact jump_gh h hs hcap
  · rfl

theorem dataInsert_gh {F : List Bytes} {s : Store} (h : Under F s) (io : Io) (id p : Bytes) (fl crc ts : Nat) :
    dataInsert (s.gh F) io id p fl crc ts =
      ((dataInsert s io id p fl crc ts).1.gh F, (dataInsert s io id p fl crc ts).2) := by
  unfold dataInsert
  have h1 : (s.gh F).dataid = s.dataid := rfl
  have h2 : (s.gh F).dprev = s.dprev := rfl
  have h3 : (s.gh F).dfiles = F ++ s.dfiles.drop F.length := rfl
  have h4 := fileLen_gh h
  rw [h3] at h4
  simp only [h1, h2, h3, h4, gh_append h.1]
  split
  · rfl
  · split <;> rfl

theorem withData_gh {s t : Store} (F : List Bytes) (h1 : t.dfiles = s.dfiles) (h2 : t.dprev = s.dprev) :
    t.withData (s.gh F).dfiles s.dprev = t.gh F := by
  simp only [Store.withData, Store.gh, h1, ← h2]

theorem gh_withData (s : Store) (F : List Bytes) : s.gh F = s.withData (s.gh F).dfiles s.dprev := rfl

theorem insertUser_dfiles (br : Branches) (s : Store) (u : Nat) (io : Io) (r : SetReq) :
    (insertUser br s u io r).2.1.dfiles = s.dfiles :=
  congrArg (·.2.1.dfiles) (insertUser_withData br s s.dfiles s.dprev u io r)

theorem updateUser_dfiles (br : Branches) (s : Store) (u : Nat) (io : Io) (r : SetReq) (ex : Entry) :
    (updateUser br s u io r ex).2.1.dfiles = s.dfiles :=
  congrArg (·.2.1.dfiles) (updateUser_withData br s s.dfiles s.dprev u io r ex)

theorem indexDelete_dfiles (br : Branches) (s : Store) (u : Nat) (io : Io) (e : Entry) :
    (indexDelete br s u io e).2.1.dfiles = s.dfiles :=
  congrArg (·.2.1.dfiles) (indexDelete_withData br s s.dfiles s.dprev u io e)

theorem insertUser_gh (br : Branches) (s : Store) (F : List Bytes) (u : Nat) (io : Io) (r : SetReq) :
    insertUser br (s.gh F) u io r =
      ((insertUser br s u io r).1, (insertUser br s u io r).2.1.gh F, (insertUser br s u io r).2.2) := by
  rw [gh_withData, insertUser_withData, withData_gh F (insertUser_dfiles ..) (insertUser_dprev ..)]

theorem updateUser_gh (br : Branches) (s : Store) (F : List Bytes) (u : Nat) (io : Io) (r : SetReq) (ex : Entry) :
    updateUser br (s.gh F) u io r ex =
      ((updateUser br s u io r ex).1, (updateUser br s u io r ex).2.1.gh F, (updateUser br s u io r ex).2.2) := by
  rw [gh_withData, updateUser_withData, withData_gh F (updateUser_dfiles ..) (updateUser_dprev ..)]

theorem indexDelete_gh (br : Branches) (s : Store) (F : List Bytes) (u : Nat) (io : Io) (e : Entry) :
    indexDelete br (s.gh F) u io e =
      ((indexDelete br s u io e).1, (indexDelete br s u io e).2.1.gh F, (indexDelete br s u io e).2.2) := by
  rw [gh_withData, indexDelete_withData, withData_gh F (indexDelete_dfiles ..) (indexDelete_dprev ..)]

theorem indexGet_gh {br : Branches} {s : Store} (hm : s.mode = .user) (F : List Bytes) (u : Nat) (k : Bytes) :
    indexGet br (s.gh F) u k = indexGet br s u k := by
  rw [gh_withData, indexGet_withData hm]

/-! ### SET -/

/-- A SET that is not skipped. -/
def setWrite (c : Ctx) (br : Branches) (s : Store) (id p : Bytes) (ts : Nat) (ex : Option Entry) :
    Branches × Store × Reply :=
  let (s, off) := dataInsert s c.io id p 0 (crc32 p) ts
  if off = 0 then (br, s, .err "Cannot write data right now")
  else
    let r : SetReq := ⟨id, off, p.length, crc32 p, 0, ts⟩
    let (br, s, ok) := match ex with
      | some ex => updateUser br s c.u c.io r ex
      | none => insertUser br s c.u c.io r
    if ok then (br, s, .bulk id) else (br, s, .err "Cannot write index right now")

theorem setHandlerUser_eq (c : Ctx) (br : Branches) (s : Store) (id p : Bytes) (ts : Nat) (ex : Option Entry) :
    setHandlerUser c br s id p ts ex =
      if id.length = 0 then (br, s, .err "Invalid argument, key needed")
      else if upToDate s ex p then (br, s, .nil) else setWrite c br s id p ts ex := rfl

theorem setWrite_gh {F : List Bytes} {s : Store} (h : Under F s) (c : Ctx) (br : Branches) (id p : Bytes) (ts : Nat)
    (ex : Option Entry) :
    setWrite c br (s.gh F) id p ts ex =
      ((setWrite c br s id p ts ex).1, (setWrite c br s id p ts ex).2.1.gh F, (setWrite c br s id p ts ex).2.2) := by
  unfold setWrite
  rw [dataInsert_gh h]
  generalize dataInsert s c.io id p 0 (crc32 p) ts = x
  obtain ⟨s1, off⟩ := x
  simp only
  split
  · rfl
  · cases ex with
    | none =>
      simp only [insertUser_gh]
      generalize insertUser br s1 c.u c.io _ = y
      obtain ⟨b, t, ok⟩ := y
      cases ok <;> rfl
    | some e =>
      simp only [updateUser_gh]
      generalize updateUser br s1 c.u c.io _ e = y
      obtain ⟨b, t, ok⟩ := y
      cases ok <;> rfl

theorem setWrite_uinv {c : Ctx} {br : Branches} {s : Store} {G : Log} (h : UInv br c.u s G)
    (hio1 : c.io.iapp = none) (hio2 : c.io.iflag = none) (k p : Bytes) (ts : Nat) (hk0 : k ≠ [])
    (hk : k.length < 256) (hp : p.length < 2 ^ 32) (hts : ts < 2 ^ 32)
    (hfl : fileLen s.dfiles s.dataid ≤ 2 ^ 31) :
    ∃ G', UInv (setWrite c br s k p ts ((liveGet G k).map (Loc.entry c.u))).1 c.u
        (setWrite c br s k p ts ((liveGet G k).map (Loc.entry c.u))).2.1 G' := by
  have hk0' : k.length ≠ 0 := fun e => hk0 (List.length_eq_zero_iff.1 e)
  by_cases hw : (c.io.dhdr.ok && c.io.dpay.ok) = true
  · have hwr := dataInsert_ok (s := s) hw h.dataFile k p 0 (crc32 p) ts rfl
    generalize hdi : dataInsert s c.io k p 0 (crc32 p) ts = di at hwr
    obtain ⟨s1, off⟩ := di
    simp only at hwr
    obtain ⟨f, hf⟩ := h.dataFile
    obtain ⟨b, prev, hbl, hs1⟩ := hwr.eq
    have hoff : off = f.length := by rw [hwr.pos, fileLen, hf]
    have hfl' : f.length ≤ 2 ^ 31 := by simpa [fileLen, hf] using hfl
    obtain ⟨g, hg⟩ : ∃ g, G[s.dataid]? = some g := by
      have : s.dataid < G.length := by rw [h.did]; have := h.iid; omega
      exact ⟨_, List.getElem?_eq_getElem this⟩
    have hbnd := h.bound _ _ _ hg hf
    have hoff0 : off ≠ 0 := by omega
    have h1 : UInv br c.u s1 G := by rw [hs1]; exact h.appendData b prev
    have hend : logEnd G < 2 ^ 32 := by
      obtain ⟨G', g', rfl⟩ := exists_concat h.ne
      have hii := h.iid
      have : s.dataid = G'.length := by rw [h.did]; simp at hii; omega
      rw [this] at hg
      simp at hg
      subst hg
      simp [logEnd]; omega
    have hds : s1.datasize = s.datasize := by rw [hs1]
    have hdd : s1.dataid = s.dataid := by rw [hs1]
    have hii : s1.indexid = s.indexid := by rw [hs1]
    have hdf : s1.dfiles = appendFile s.dfiles s.dataid b := by rw [hs1]
    have hslack : ∀ (g : List Rec) (f : Bytes), G[s1.indexid]? = some g → s1.dfiles[s1.indexid]? = some f →
        19 * (isize g + (34 + k.length)) ≤ 35 * (f.length - 28) := by
      intro g' f' hg' hf'
      rw [hii, ← h.did] at hg' hf'
      rw [hg] at hg'
      cases hg'
      rw [hdf, appendFile, List.getElem?_modify, hf] at hf'
      simp at hf'
      rw [← hf', List.length_append, hbl]
      omega
    have htot : s1.datasize + p.length ≤ (s1.dfiles.map List.length).sum := by
      rw [hdf, sum_lengths_append _ _ _ (List.getElem?_eq_some_iff.1 hf).1, hds, hbl]
      have := h.total; omega
    have hdata : ∃ prev, prev < 2 ^ 32 ∧ DataAt s1.dfiles s1.dataid off
        (encDHdr { idlength := k.length, datalength := p.length, previous := prev,
                   integrity := crc32 p, flags := 0, timestamp := ts } ++ (k ++ p)) := by
      rw [hdd]; exact hwr.data
    cases hgk : liveGet G k with
    | none =>
      obtain ⟨i1, i2, i3⟩ := h1.insert c.io hio1 (⟨k, off, p.length, crc32 p, 0, ts⟩ : SetReq) p hgk (by simp only; omega) hk (by simp only; omega) rfl hp rfl (Or.inl rfl) hts
        hdata hend hslack htot
      have hst : setWrite c br s k p ts (Option.map (Loc.entry c.u) none) =
          ((insertUser br s1 c.u c.io (⟨k, off, p.length, crc32 p, 0, ts⟩ : SetReq)).1,
           (insertUser br s1 c.u c.io (⟨k, off, p.length, crc32 p, 0, ts⟩ : SetReq)).2.1, .bulk k) := by
        simp only [setWrite, hdi, if_neg hoff0, Option.map_none, i1, if_true]
      rw [hst]
      exact ⟨_, i2⟩
    | some l =>
      obtain ⟨G', i1, i2, i3, i4⟩ := h1.update c.io hio1 hio2 (⟨k, off, p.length, crc32 p, 0, ts⟩ : SetReq) p hgk (by simp only; omega) rfl hp rfl hts
        hdata hend hslack htot
      have hst : setWrite c br s k p ts (Option.map (Loc.entry c.u) (some l)) =
          ((updateUser br s1 c.u c.io (⟨k, off, p.length, crc32 p, 0, ts⟩ : SetReq) (l.entry c.u)).1,
           (updateUser br s1 c.u c.io (⟨k, off, p.length, crc32 p, 0, ts⟩ : SetReq) (l.entry c.u)).2.1, .bulk k) := by
        simp only [setWrite, hdi, if_neg hoff0, Option.map_some, i1, if_true]
      rw [hst]
      exact ⟨G', i2⟩
  · have hw' : (c.io.dhdr.ok && c.io.dpay.ok) = false := by simpa using hw
    obtain ⟨d1, b, d2⟩ := dataInsert_fail (s := s) hw' k p 0 (crc32 p) ts
    have hst : setWrite c br s k p ts ((liveGet G k).map (Loc.entry c.u)) =
        (br, (dataInsert s c.io k p 0 (crc32 p) ts).1, .err "Cannot write data right now") := by
      simp only [setWrite, d1, if_true]
    rw [hst]
    refine ⟨G, ?_⟩
    rw [d2]; exact h.appendData b s.dprev

/-- One command, seen from the store that still has the old files. -/
theorem command_gh {c : Ctx} {br : Branches} {s : Store} {G : Log} {F : List Bytes} (hF : Under F s) (hs : InStep s)
    (h : UInv br c.u (s.gh F) G) (hc : CtxOK c) (d : DsCmd) {argv : List Bytes} (ha : ArgsOK argv)
    (hcap : s.indexid + 1 < 2 ^ 32) :
    ∃ G', UInv (dsCommand c br s d argv).1 c.u ((dsCommand c br s d argv).2.1.gh F) G' := by
  have hm : s.mode = .user := h.mode
  have hlen : s.ifiles.length < 2 ^ 32 := by have := hs.i; omega
  cases d with
  | set =>
    have key : ∀ k p, p ∈ argv → ∃ G', UInv (cmdSet.body c br s argv k p).1 c.u
          ((cmdSet.body c br s argv k p).2.1.gh F) G' := by
      intro k p hp
      have hl := ha.size p hp
      unfold cmdSet.body
      by_cases h1 : k.length > 255
      · rw [if_pos h1]; exact ⟨G, h⟩
      rw [if_neg h1]
      split
      · exact ⟨G, h⟩
      split
      · exact ⟨G, h⟩
      split
      · exact ⟨G, h⟩
      dsimp only
      generalize hex : (if k.length ≠ 0 then indexGet br s c.u k else none) = ex
      split
      · exact ⟨G, h⟩
      split
      · exact ⟨G, h⟩
      simp only [hm]
      rw [setHandlerUser_eq]
      obtain ⟨G1, j1, j2, j3, j4, j5, j6⟩ := jumpIfFull_spec h hlen c.limit p.length hc.limit
      rw [jumpIfFull_gh hF hs hcap] at j1 j4
      have hx := jumpIfFull_ext hs hcap c.limit p.length
      have hF' : Under F (jumpIfFull c.limit s p.length) := by
        have a1 := hx.ext.1
        have a2 := hx.step.d
        exact ⟨by have := hF.1; omega, by omega⟩
      split
      · exact ⟨G1, j1⟩
      rename_i hk0
      split
      · exact ⟨G1, j1⟩
      have hentry : (if k.length ≠ 0 then indexGet br s c.u k else none) =
          (liveGet G1 k).map (Loc.entry c.u) := by
        rw [if_pos hk0, j3, ← h.indexGet, indexGet_gh hm]
      rw [← hex, hentry]
      have hfl : fileLen ((jumpIfFull c.limit s p.length).gh F).dfiles (jumpIfFull c.limit s p.length).dataid ≤ 2 ^ 31 := j4
      obtain ⟨G', a1⟩ := setWrite_uinv j1 hc.iapp hc.iflag k p (timestampFromSet c.now argv 3)
        (fun e => hk0 (by rw [e]; rfl)) (by omega) (by omega) (timestampFromSet_lt _ _ _) hfl
      rw [setWrite_gh hF'] at a1
      exact ⟨G', a1⟩
    obtain ⟨n, rest, rfl, hne⟩ := ha.name
    unfold dsCommand cmdSet
    match rest with
    | [] => exact ⟨G, h⟩
    | [_] => exact ⟨G, h⟩
    | [k, p] => exact key k p (by simp)
    | [k, p, t] =>
      simp only
      split
      · exact key k p (by simp)
      · exact ⟨G, h⟩
    | _ :: _ :: _ :: _ :: _ => exact ⟨G, h⟩
  | del =>
    have key : ∀ k, ∃ G', UInv (cmdDel.body c br s argv k).1 c.u ((cmdDel.body c br s argv k).2.1.gh F) G' := by
      intro k
      obtain ⟨G', h1, -, -⟩ := cmdDel_body_spec h hc.iflag argv k
      have : cmdDel.body c br (s.gh F) argv k =
          ((cmdDel.body c br s argv k).1, (cmdDel.body c br s argv k).2.1.gh F, (cmdDel.body c br s argv k).2.2) := by
        unfold cmdDel.body
        rw [indexGet_gh hm]
        split
        · rfl
        split
        · rfl
        split
        · rfl
        split
        · rfl
        split
        · rfl
        split
        · rfl
        rename_i e _ _
        dsimp only
        rw [dataInsert_gh hF]
        generalize dataInsert s c.io e.id [] 1 0 (timestampFromSet c.now argv 2) = x
        obtain ⟨s1, off⟩ := x
        simp only
        split
        · rfl
        rw [indexDelete_gh]
        generalize indexDelete br s1 c.u c.io e = y
        obtain ⟨b, t, ok⟩ := y
        cases ok <;> rfl
      rw [this] at h1
      exact ⟨G', h1⟩
    simp only [dsCommand]
    unfold cmdDel
    split
    · by_cases had : c.admin = true
      · rw [if_pos had]; exact key _
      · rw [if_neg had]; exact ⟨G, h⟩
    · cases argsValidate argv 2 with
      | some e => exact ⟨G, h⟩
      | none =>
        simp only
        split
        · exact key _
        · exact ⟨G, h⟩
  | nsjump =>
    simp only [dsCommand, cmdNsjump]
    split
    · have hlen := h.irep.length
      have hl2 : (s.gh F).ifiles.length = s.ifiles.length := rfl
      have := h.jump (by omega)
      rw [jump_gh hF hs hcap] at this
      exact ⟨_, this⟩
    · exact ⟨G, h⟩
  | index =>
    simp only [dsCommand]
    rcases cmdIndex_cases c s argv with h' | h' <;> rw [h']
    · exact ⟨G, h⟩
    · exact ⟨G, h.setDirty _⟩
  | _ => exact ⟨G, h⟩

/-! ### loading -/

theorem replayUser_gh (br : Branches) (s : Store) (F : List Bytes) (u off : Nat) (it : Item) :
    replayUser br (s.gh F) u off it = ((replayUser br s u off it).1, (replayUser br s u off it).2.gh F) := by
  have h0 : indexGet br (s.gh F) u it.id = indexGet br s u it.id := rfl
  unfold replayUser
  dsimp only
  rw [h0]
  cases indexGet br s u it.id with
  | some ex =>
    simp only
    have h1 : sourceEntry (s.gh F) u off it = sourceEntry s u off it := rfl
    have h2 : ∀ e, updatedEntry (s.gh F) ex e = updatedEntry s ex e := fun e => rfl
    have h3 : ∀ e, updateStats (s.gh F) ex e = (updateStats s ex e).gh F := fun e => rfl
    rw [h1, h2, h3]
    split <;> rfl
  | none =>
    simp only
    have h1 : sourceEntry (s.gh F) u off it = sourceEntry s u off it := rfl
    have h2 : ∀ e, insertMemUser br (s.gh F) u e = ((insertMemUser br s u e).1, (insertMemUser br s u e).2.gh F) :=
      fun e => rfl
    rw [h1, h2]
    split <;> rfl

theorem replaySeq_gh (s : Store) (F : List Bytes) (it : Item) : replaySeq (s.gh F) it = (replaySeq s it).gh F := by
  unfold replaySeq
  dsimp only
  split <;> rfl

theorem replayItem_gh (br : Branches) (s : Store) (F : List Bytes) (u off : Nat) (it : Item) :
    replayItem br (s.gh F) u off it = ((replayItem br s u off it).1, (replayItem br s u off it).2.gh F) := by
  unfold replayItem
  have key : ∀ t : Store,
      (match (t.gh F).mode with
        | .user => replayUser br (t.gh F) u off it
        | .seq => (br, replaySeq (t.gh F) it)) =
      ((match t.mode with
        | .user => replayUser br t u off it
        | .seq => (br, replaySeq t it)).1,
       (match t.mode with
        | .user => replayUser br t u off it
        | .seq => (br, replaySeq t it)).2.gh F) := by
    intro t
    have : (t.gh F).mode = t.mode := rfl
    rw [this]
    cases t.mode with
    | user => exact replayUser_gh br t F u off it
    | seq => simp only [replaySeq_gh]
  by_cases h : off = ihdrLen
  · simp only [if_pos h]
    have := key { s with seqmap := s.seqmap.map (· ++ [(s.nextentry, s.indexid)]) }
    exact congrArg (fun x : Branches × Store => (x.1, { x.2 with iprev := off })) this
  · simp only [if_neg h]
    exact congrArg (fun x : Branches × Store => (x.1, { x.2 with iprev := off })) (key s)

theorem replayItems_gh (F : List Bytes) (u : Nat) (its : List Item) : ∀ (br : Branches) (s : Store) (off : Nat),
    replayItems br (s.gh F) u off its = ((replayItems br s u off its).1, (replayItems br s u off its).2.gh F) := by
  induction its with
  | nil => intro br s off; rfl
  | cons it its ih =>
    intro br s off
    simp only [replayItems, replayItem_gh, ih]

/-- A result of loading, with other data files. -/
def FileRes.gh (F : List Bytes) : FileRes → FileRes
  | .next br s => .next br (s.gh F)
  | .stop br s => .stop br (s.gh F)
  | .exit => .exit
  | .ub => .ub

/-- The same for a namespace. -/
def LoadRes.gh (F : List Bytes) : LoadRes → LoadRes
  | .ok br s => .ok br (s.gh F)
  | .exit => .exit
  | .ub => .ub

theorem loadBody_gh (cfg : Option Mode) (br : Branches) (s : Store) (F : List Bytes) (u : Nat) (f : Bytes) (fresh : Bool) :
    loadBody cfg br (s.gh F) u f fresh = (loadBody cfg br s u f fresh).gh F := by
  unfold loadBody
  dsimp only
  split
  · rfl
  split
  · rfl
  cases parseItems _ _ with
  | none => rfl
  | some its =>
    simp only
    have := replayItems_gh F u its br
      { rehash { s with mode := applyMode s.mode (decIHeader f).mode } with
        ifiles := (if s.indexid < s.ifiles.length then s.ifiles.set s.indexid (pwrite f 0 (encIHeader { decIHeader f with opened := 0 }))
          else s.ifiles ++ [pwrite f 0 (encIHeader { decIHeader f with opened := 0 })])
        nextid := 0 } ihdrLen
    split
    · exact congrArg (fun x : Branches × Store => FileRes.stop x.1 x.2) this
    · exact congrArg (fun x : Branches × Store => FileRes.next x.1 x.2) this

theorem loadFile_gh (cfg : Option Mode) (br : Branches) (s : Store) (F : List Bytes) (u : Nat) :
    loadFile cfg br (s.gh F) u = (loadFile cfg br s u).gh F := by
  unfold loadFile
  have h1 : (s.gh F).ifiles = s.ifiles := rfl
  have h2 : (s.gh F).indexid = s.indexid := rfl
  have h3 : (s.gh F).mode = s.mode := rfl
  simp only [h1, h2, h3, loadBody_gh]
  split
  · split <;> rfl
  · split <;> rfl

theorem loadLoop_gh (cfg : Option Mode) (F : List Bytes) (u : Nat) (ids : List Nat) : ∀ (br : Branches) (s : Store),
    loadLoop cfg u ids br (s.gh F) = (loadLoop cfg u ids br s).gh F := by
  induction ids with
  | nil => intro br s; rfl
  | cons id ids ih =>
    intro br s
    have h1 : indexSetId (s.gh F) id = (indexSetId s id).gh F := rfl
    simp only [loadLoop, h1, loadFile_gh]
    cases loadFile cfg br (indexSetId s id) u with
    | next b t => exact ih b t
    | stop b t => rfl
    | exit => rfl
    | ub => rfl

theorem foldl_gh (F : List Bytes) (l : List Nat) : ∀ s : Store,
    l.foldl indexSetId (s.gh F) = (l.foldl indexSetId s).gh F := by
  induction l with
  | nil => intro s; rfl
  | cons a l ih => intro s; exact ih (indexSetId s a)

/-- The files are read as before at a restart, and the store is the same but for the data files. -/
theorem reloadNs_gh {cfg : Option Mode} {br b : Branches} {u : Nat} {s t : Store} {F : List Bytes}
    (h : reloadNs cfg br u (s.gh F) = .ok b t) (hid : F.length ≤ t.dataid) (hl : F.length ≤ s.dfiles.length) :
    ∃ t', reloadNs cfg br u s = .ok b t' ∧ t = t'.gh F := by
  unfold reloadNs loadNs at *
  have h3 : (s.gh F).mode = s.mode := rfl
  have h1 : (s.gh F).ifiles = s.ifiles := rfl
  have h2 : initRoot cfg s.ifiles (s.gh F).dfiles = (initRoot cfg s.ifiles s.dfiles).gh F := rfl
  simp only [h1, h2, h3, foldl_gh, loadLoop_gh] at h ⊢
  generalize hx : loadLoop cfg u _ _ _ = x at h ⊢
  cases x with
  | ok b0 s0 =>
    simp only [LoadRes.gh] at h
    injection h with e1 e2
    subst e1
    have hdid : t.dataid = s0.indexid := by rw [← e2]; rfl
    have hdl : ∀ br0, loadLoop cfg u (if maxFiles s.ifiles > 0 then List.range (maxFiles s.ifiles) else [0]) br0
        ((List.range (maxFiles s.ifiles + 1)).foldl indexSetId (initRoot cfg s.ifiles s.dfiles)) = .ok b0 s0 →
        s.dfiles.length ≤ s0.dfiles.length := by
      intro br0 hx
      have hg := loadLoop_gh cfg s.dfiles u (if maxFiles s.ifiles > 0 then List.range (maxFiles s.ifiles) else [0]) br0
        ((List.range (maxFiles s.ifiles + 1)).foldl indexSetId (initRoot cfg s.ifiles s.dfiles))
      rw [← foldl_gh] at hg
      have h4 : (initRoot cfg s.ifiles s.dfiles).gh s.dfiles = initRoot cfg s.ifiles s.dfiles := by
        have : (initRoot cfg s.ifiles s.dfiles).dfiles = s.dfiles := rfl
        simp only [Store.gh, this, List.drop_length, List.append_nil]
        rfl
      rw [h4, hx] at hg
      simp only [LoadRes.gh] at hg
      injection hg with _ hg
      rw [hg]
      simp [Store.gh]
    refine ⟨_, rfl, ?_⟩
    rw [← e2]
    have h5 : (s0.gh F).indexid = s0.indexid := rfl
    have h6 := hdl _ hx
    rw [h5]
    exact dataOpen_gh (by omega) (by omega)
  | exit => simp [LoadRes.gh] at h
  | ub => simp [LoadRes.gh] at h

end Zdb
