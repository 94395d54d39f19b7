/-
Two stores with the same index files and data files of the same lengths: what the index operations do to one they do to
the other.
-/
import Verif.Lemmas.UserRun
import Verif.Lemmas.Loader
namespace Zdb

/-- Same index files, same positions, data files of the same lengths (their bytes may differ). -/
structure Twin (s t : Store) : Prop where
  ifiles : s.ifiles = t.ifiles
  iid : s.indexid = t.indexid
  did : s.dataid = t.dataid
  iprev : s.iprev = t.iprev
  mode : s.mode = t.mode
  lens : s.dfiles.map List.length = t.dfiles.map List.length

theorem fileLen_lens {fs gs : List Bytes} (h : fs.map List.length = gs.map List.length) (i : Nat) :
    fileLen fs i = fileLen gs i := by
  have := congrArg (fun l => l[i]?) h
  simp only [List.getElem?_map] at this
  unfold fileLen
  cases hf : fs[i]? <;> cases hg : gs[i]? <;> simp_all

theorem appendFile_lens {fs gs : List Bytes} (h : fs.map List.length = gs.map List.length) (i : Nat) {a b : Bytes}
    (hab : a.length = b.length) : (appendFile fs i a).map List.length = (appendFile gs i b).map List.length := by
  apply List.ext_getElem?
  intro j
  have := congrArg (fun l => l[j]?) h
  simp only [List.getElem?_map] at this
  simp only [appendFile, List.getElem?_map, List.getElem?_modify, Option.map_eq_map]
  cases hf : fs[j]? <;> cases hg : gs[j]? <;> simp_all
  split <;> simp [hab, this]

theorem cut_lens (w : WriteFault) {a b : Bytes} (h : a.length = b.length) : (w.cut a).length = (w.cut b).length := by
  unfold WriteFault.cut
  cases w <;> simp [h]

theorem Twin.dataInsert {s t : Store} (h : Twin s t) (io : Io) (id p : Bytes) (fl crc ts : Nat) :
    Twin (dataInsert s io id p fl crc ts).1 (dataInsert t io id p fl crc ts).1 ∧
      (Zdb.dataInsert s io id p fl crc ts).2 = (Zdb.dataInsert t io id p fl crc ts).2 := by
  have hl := fileLen_lens h.lens s.dataid
  unfold Zdb.dataInsert
  simp only
  split
  · refine ⟨⟨h.ifiles, h.iid, h.did, h.iprev, h.mode, ?_⟩, rfl⟩
    simp only [← h.did]
    exact appendFile_lens h.lens _ (cut_lens _ (by simp))
  · split
    · refine ⟨⟨h.ifiles, h.iid, h.did, h.iprev, h.mode, ?_⟩, rfl⟩
      simp only [← h.did]
      exact appendFile_lens h.lens _ (by simp)
    · refine ⟨⟨h.ifiles, h.iid, h.did, h.iprev, h.mode, ?_⟩, ?_⟩
      · simp only [← h.did]
        exact appendFile_lens h.lens _ (by simp)
      · simp only [← h.did]; exact hl

theorem Twin.deleteDisk {s t : Store} (h : Twin s t) (io : Io) (e : Entry) :
    Twin (deleteDisk s io e).1 (deleteDisk t io e).1 ∧ (Zdb.deleteDisk s io e).2 = (Zdb.deleteDisk t io e).2 := by
  unfold Zdb.deleteDisk
  simp only [h.ifiles]
  cases t.ifiles[e.indexid]? with
  | none => exact ⟨h, rfl⟩
  | some f =>
    simp only
    cases readExact f e.idxoffset (itemHdr + e.id.length) with
    | none => exact ⟨h, rfl⟩
    | some b =>
      simp only
      split
      · exact ⟨⟨rfl, h.iid, h.did, h.iprev, h.mode, h.lens⟩, rfl⟩
      · exact ⟨⟨rfl, h.iid, h.did, h.iprev, h.mode, h.lens⟩, rfl⟩

theorem Twin.appendEntry {s t : Store} (h : Twin s t) (io : Io) (e : Entry) :
    Twin (appendEntry s io e).1 (appendEntry t io e).1 ∧ (Zdb.appendEntry s io e).2 = (Zdb.appendEntry t io e).2 := by
  unfold Zdb.appendEntry
  simp only [h.ifiles, h.iid, h.iprev]
  split
  · exact ⟨⟨rfl, rfl, h.did, rfl, h.mode, h.lens⟩, rfl⟩
  · exact ⟨⟨rfl, rfl, h.did, rfl, h.mode, h.lens⟩, rfl⟩

theorem Twin.insertUser {s t : Store} (h : Twin s t) (a b : Branches) (u : Nat) (io : Io) (r : SetReq) :
    Twin (insertUser a s u io r).2.1 (insertUser b t u io r).2.1 ∧
      (Zdb.insertUser a s u io r).2.2 = (Zdb.insertUser b t u io r).2.2 := by
  have := h.appendEntry io (r.entry u)
  unfold Zdb.insertUser
  generalize Zdb.appendEntry s io (r.entry u) = x at this ⊢
  generalize Zdb.appendEntry t io (r.entry u) = y at this ⊢
  obtain ⟨s1, e1, o1⟩ := x
  obtain ⟨t1, e2, o2⟩ := y
  obtain ⟨hT, he⟩ := this
  simp only at hT he
  injection he with he ho
  subst he ho
  cases o1
  · exact ⟨hT, rfl⟩
  · exact ⟨⟨hT.ifiles, hT.iid, hT.did, hT.iprev, hT.mode, hT.lens⟩, rfl⟩

theorem Twin.updateUser {s t : Store} (h : Twin s t) (a b : Branches) (u : Nat) (io : Io) (r : SetReq) (ex : Entry) :
    Twin (updateUser a s u io r ex).2.1 (updateUser b t u io r ex).2.1 ∧
      (Zdb.updateUser a s u io r ex).2.2 = (Zdb.updateUser b t u io r ex).2.2 := by
  have h1 := (h.deleteDisk io ex).1
  unfold Zdb.updateUser
  simp only
  generalize (Zdb.deleteDisk s io ex).1 = s1 at h1 ⊢
  generalize (Zdb.deleteDisk t io ex).1 = t1 at h1 ⊢
  have h2 : Twin (updateStats s1 ex (r.entry u)) (updateStats t1 ex (r.entry u)) :=
    ⟨h1.ifiles, h1.iid, h1.did, h1.iprev, h1.mode, h1.lens⟩
  have h3 : updatedEntry s1 ex (r.entry u) = updatedEntry t1 ex (r.entry u) := by simp only [updatedEntry, h1.iid]
  have h4 := h2.appendEntry io (updatedEntry s1 ex (r.entry u))
  rw [← h3]
  exact ⟨h4.1, congrArg Prod.snd h4.2⟩

theorem Twin.indexDelete {s t : Store} (h : Twin s t) (a b : Branches) (u : Nat) (io : Io) (e : Entry) :
    Twin (indexDelete a s u io e).2.1 (indexDelete b t u io e).2.1 ∧
      (Zdb.indexDelete a s u io e).2.2 = (Zdb.indexDelete b t u io e).2.2 := by
  have := h.deleteDisk io e
  unfold Zdb.indexDelete
  generalize Zdb.deleteDisk s io e = x at this ⊢
  generalize Zdb.deleteDisk t io e = y at this ⊢
  obtain ⟨s1, o1⟩ := x
  obtain ⟨t1, o2⟩ := y
  obtain ⟨hT, he⟩ := this
  simp only at hT he
  subst he
  cases o1
  · simp only [Bool.false_eq_true, if_false, hT.mode]
    cases t1.mode <;> exact ⟨hT, rfl⟩
  · simp only [if_true, hT.mode]
    cases t1.mode <;> exact ⟨⟨hT.ifiles, hT.iid, hT.did, hT.iprev, rfl, hT.lens⟩, rfl⟩

theorem map_eq_map_length {α β : Type} {f g : α → β} {l m : List α} (h : l.map f = m.map g) : l.length = m.length := by
  have := congrArg List.length h
  simpa using this

theorem pwrite_lens {f g : Bytes} (h : f.length = g.length) (off : Nat) (b : Bytes) :
    (pwrite f off b).length = (pwrite g off b).length := by
  simp [pwrite, h]

theorem dataInitialize_lens {fs gs : List Bytes} (h : fs.map List.length = gs.map List.length) (id : Nat) :
    (dataInitialize fs id).map List.length = (dataInitialize gs id).map List.length := by
  have hlen := map_eq_map_length h
  unfold dataInitialize
  simp only
  by_cases hj : id < gs.length
  · rw [if_pos hj, if_pos (by omega)]
    apply List.ext_getElem?
    intro j
    have := congrArg (fun l => l[j]?) h
    simp only [List.getElem?_map] at this
    simp only [writeFileAt, List.getElem?_map, List.getElem?_modify, Option.map_eq_map]
    cases hf : fs[j]? <;> cases hg : gs[j]? <;> simp_all
    split
    · exact pwrite_lens this _ _
    · exact this
  · rw [if_neg hj, if_neg (by omega)]
    simp [h]

theorem Twin.jump {s t : Store} (h : Twin s t) : Twin (jump s) (jump t) := by
  refine ⟨?_, ?_, ?_, ?_, ?_, ?_⟩
  · simp only [Zdb.jump, dataOpen, indexSetId, h.ifiles, h.iid, h.mode]
  · simp only [Zdb.jump, dataOpen, indexSetId, h.iid]
  · simp only [Zdb.jump, dataOpen, indexSetId, h.iid]
  · simp only [Zdb.jump, dataOpen, indexSetId, h.iprev]
  · simp only [Zdb.jump, dataOpen, indexSetId, h.mode]
  · change (dataInitialize s.dfiles ((s.indexid + 1) % 2 ^ 32)).map List.length =
      (dataInitialize t.dfiles ((t.indexid + 1) % 2 ^ 32)).map List.length
    rw [h.iid]
    exact dataInitialize_lens h.lens _

theorem Twin.jumpIfFull {s t : Store} (h : Twin s t) (limit len : Nat) :
    Twin (jumpIfFull limit s len) (jumpIfFull limit t len) := by
  unfold Zdb.jumpIfFull
  rw [fileLen_lens h.lens, h.did]
  split
  · exact h.jump
  · exact h

/-! ### the same log up to payloads -/

/-- What an item shows of its place and contents. -/
def Loc.bare (l : Loc) : Nat × Nat × Item := (l.file, l.off, l.r.item)

theorem locsIn_bare {g g' : List Rec} (h : g.map Rec.item = g'.map Rec.item) (file off : Nat) :
    (locsIn file off g).map Loc.bare = (locsIn file off g').map Loc.bare := by
  induction g generalizing g' off with
  | nil => cases g' with
    | nil => rfl
    | cons a b => simp at h
  | cons a b ih => cases g' with
    | nil => simp at h
    | cons c d =>
      simp only [List.map_cons, List.cons.injEq] at h
      simp only [locsIn, List.map_cons, Loc.bare, h.1]
      rw [ih h.2]

theorem locsFrom_bare {G G' : Log} (h : G.map (·.map Rec.item) = G'.map (·.map Rec.item)) (i : Nat) :
    (locsFrom i G).map Loc.bare = (locsFrom i G').map Loc.bare := by
  induction G generalizing G' i with
  | nil => cases G' with
    | nil => rfl
    | cons a b => simp at h
  | cons a b ih => cases G' with
    | nil => simp at h
    | cons c d =>
      simp only [List.map_cons, List.cons.injEq] at h
      simp only [locsFrom, List.map_append]
      rw [ih h.2, locsIn_bare h.1]

theorem mem_locs_of_mem {G : Log} {i : Nat} {g : List Rec} {r : Rec} (hg : G[i]? = some g) (hr : r ∈ g) :
    ∃ l ∈ locs G, l.r = r := by
  have hin : ∀ (g : List Rec) (f o : Nat), r ∈ g → ∃ l ∈ locsIn f o g, l.r = r := by
    intro g
    induction g with
    | nil => intro _ _ h; simp at h
    | cons a b ih =>
      intro f o h
      rcases List.mem_cons.1 h with rfl | h
      · exact ⟨_, List.mem_cons_self .., rfl⟩
      · obtain ⟨l, hl, e⟩ := ih f _ h
        exact ⟨l, List.mem_cons_of_mem _ hl, e⟩
  have hfr : ∀ (G : Log) (i j : Nat), G[i]? = some g → ∃ l ∈ locsFrom j G, l.r = r := by
    intro G
    induction G with
    | nil => intro i j h; simp at h
    | cons a b ih =>
      intro i j h
      cases i with
      | zero =>
        simp at h; subst h
        obtain ⟨l, hl, e⟩ := hin a j 29 hr
        exact ⟨l, List.mem_append_left _ hl, e⟩
      | succ i =>
        obtain ⟨l, hl, e⟩ := ih i (j + 1) (by simpa using h)
        exact ⟨l, List.mem_append_right _ hl, e⟩
  exact hfr G i 0 hg

theorem Core.wf {mode : Nat} {df : Loc → Nat} {s : Store} {G : Log} (h : Core mode df s G) :
    ∀ g ∈ G, ∀ r ∈ g, r.item.WF := by
  intro g hg r hr
  obtain ⟨i, hi, he⟩ := List.getElem_of_mem hg
  obtain ⟨l, hl, e⟩ := mem_locs_of_mem (List.getElem?_eq_some_iff.2 ⟨hi, he⟩) hr
  rw [← e]
  exact (h.recs l hl).wf

/-- The index files determine the items. -/
theorem Core.items_eq {mode : Nat} {df df' : Loc → Nat} {s t : Store} {G G' : Log} (h : Core mode df s G)
    (h' : Core mode df' t G') (he : s.ifiles = t.ifiles) : G.map (·.map Rec.item) = G'.map (·.map Rec.item) := by
  have hl : G.length = G'.length := by rw [← h.irep.length, ← h'.irep.length, he]
  apply List.ext_getElem?
  intro i
  simp only [List.getElem?_map]
  by_cases hi : i < G.length
  · have hi' : i < G'.length := by omega
    rw [List.getElem?_eq_getElem hi, List.getElem?_eq_getElem hi']
    simp only [Option.map_some, Option.some.injEq]
    have h1 : s.ifiles[i]? = some (encFile mode i G[i]) := by rw [h.irep]; simp [hi]
    have h2 : t.ifiles[i]? = some (encFile mode i G'[i]) := by rw [h'.irep]; simp [hi']
    rw [he, h2] at h1
    injection h1 with h1
    have h3 : (G'[i]).flatMap (fun r => encItem r.item) = (G[i]).flatMap (fun r => encItem r.item) :=
      List.append_cancel_left h1
    have p1 := parseItems_enc G[i] (h.wf _ (List.getElem_mem hi)) (isize G[i] + isize G'[i] + 1) (by omega)
    have p2 := parseItems_enc G'[i] (h'.wf _ (List.getElem_mem hi')) (isize G[i] + isize G'[i] + 1) (by omega)
    rw [h3, p1] at p2
    injection p2
  · rw [List.getElem?_eq_none (by omega), List.getElem?_eq_none (by omega)]

theorem lastOff_bare {d : Nat} {L M : List Loc} (h : L.map Loc.bare = M.map Loc.bare) : lastOff d L = lastOff d M := by
  induction L generalizing d M with
  | nil => cases M with
    | nil => rfl
    | cons a b => simp at h
  | cons a b ih => cases M with
    | nil => simp at h
    | cons c e =>
      simp only [List.map_cons, List.cons.injEq] at h
      have : a.off = c.off := congrArg (fun x => x.2.1) h.1
      simp only [lastOff, this]
      exact ih h.2

theorem live_bare {G G' : Log} (h : (locs G).map Loc.bare = (locs G').map Loc.bare) :
    (live G).map Loc.bare = (live G').map Loc.bare := by
  have : ∀ L : List Loc, (L.filter Loc.live).map Loc.bare = (L.map Loc.bare).filter (fun b => !isDeleted b.2.2.flags) := by
    intro L
    rw [List.filter_map]
    rfl
  unfold live
  rw [this, this, h]

theorem liveGet_bare {G G' : Log} (h : (live G).map Loc.bare = (live G').map Loc.bare) (k : Bytes) :
    (liveGet G k).map Loc.bare = (liveGet G' k).map Loc.bare := by
  have : ∀ L : List Loc, (L.find? (fun l => l.id == k)).map Loc.bare = (L.map Loc.bare).find? (fun b => b.2.2.id == k) := by
    intro L
    rw [List.find?_map]
    rfl
  unfold liveGet
  rw [this, this, h]

theorem entry_bare (u : Nat) {o o' : Option Loc} (h : o.map Loc.bare = o'.map Loc.bare) :
    o.map (Loc.entry u) = o'.map (Loc.entry u) := by
  cases o with
  | none => cases o' with
    | none => rfl
    | some m => cases h
  | some l => cases o' with
    | none => cases h
    | some m =>
      simp only [Option.map_some, Option.some.injEq, Loc.bare, Prod.mk.injEq] at h
      simp only [Option.map_some, Option.some.injEq, Loc.entry, h.1, h.2.1, h.2.2]

/-! ### two processes on the same namespace -/

/-- Both satisfy the invariant for the same map, have the same index files and data files of the same lengths. -/
def Sim (u : Nat) (br : Branches) (s : Store) (b : Branches) (t : Store) : Prop :=
  ∃ G G', UInv br u s G ∧ UInv b u t G' ∧ absKV G = absKV G' ∧ s.ifiles = t.ifiles ∧
    s.dfiles.map List.length = t.dfiles.map List.length

theorem UInv.bare {br b : Branches} {u u' : Nat} {s t : Store} {G G' : Log} (h : UInv br u s G) (h' : UInv b u' t G')
    (he : s.ifiles = t.ifiles) : (locs G).map Loc.bare = (locs G').map Loc.bare :=
  locsFrom_bare (h.toCore.items_eq h'.toCore he) 0

theorem UInv.twin {br b : Branches} {u u' : Nat} {s t : Store} {G G' : Log} (h : UInv br u s G) (h' : UInv b u' t G')
    (he : s.ifiles = t.ifiles) (hl : s.dfiles.map List.length = t.dfiles.map List.length) : Twin s t := by
  have hb := h.bare h' he
  have hlen : G.length = G'.length := by rw [← h.irep.length, ← h'.irep.length, he]
  have hi : s.indexid = t.indexid := by have := h.iid; have := h'.iid; omega
  exact ⟨he, hi, by rw [h.did, h'.did, hi], by rw [h.iprev, h'.iprev, lastOff_bare hb], by rw [h.mode, h'.mode], hl⟩

theorem UInv.sameGet {br b : Branches} {u : Nat} {s t : Store} {G G' : Log} (h : UInv br u s G) (h' : UInv b u t G')
    (he : s.ifiles = t.ifiles) (k : Bytes) : Zdb.indexGet br s u k = Zdb.indexGet b t u k := by
  rw [h.indexGet, h'.indexGet]
  exact entry_bare u (liveGet_bare (live_bare (h.bare h' he)) k)

theorem UInv.sameUpToDate {br b : Branches} {u : Nat} {s t : Store} {G G' : Log} (h : UInv br u s G) (h' : UInv b u t G')
    (he : s.ifiles = t.ifiles) (ha : absKV G = absKV G') (k p : Bytes) (hp : p.length < 2 ^ 32) :
    upToDate s (Zdb.indexGet br s u k) p = upToDate t (Zdb.indexGet br s u k) p := by
  have hg := liveGet_bare (live_bare (h.bare h' he)) k
  have hv : ((absKV G).get k).map (·.payload) = ((absKV G').get k).map (·.payload) := by rw [ha]
  rw [absKV_get, absKV_get] at hv
  rw [h.indexGet]
  have e := entry_bare u hg
  cases h1 : liveGet G k with
  | none => rfl
  | some l =>
    cases h2 : liveGet G' k with
    | none => rw [h1, h2] at hg; cases hg
    | some m =>
      rw [h1, h2] at hv e
      simp only [Option.map_some, Option.some.injEq, Loc.val] at hv e
      simp only [Option.map_some]
      rw [upToDate_iff (h.recs l (live_mem (liveGet_some h1).1)) p hp, e,
        upToDate_iff (h'.recs m (live_mem (liveGet_some h2).1)) p hp, hv]

/-! ### commands -/

theorem Twin.setHandler {s t : Store} (h : Twin s t) (c : Ctx) (a b : Branches) (id p : Bytes) (ts : Nat)
    (ex : Option Entry) (hu : upToDate s ex p = upToDate t ex p) :
    Twin (setHandlerUser c a s id p ts ex).2.1 (setHandlerUser c b t id p ts ex).2.1 := by
  unfold setHandlerUser
  split
  · exact h
  rw [hu]
  split
  · exact h
  have := h.dataInsert c.io id p 0 (crc32 p) ts
  simp only
  generalize Zdb.dataInsert s c.io id p 0 (crc32 p) ts = x at this ⊢
  generalize Zdb.dataInsert t c.io id p 0 (crc32 p) ts = y at this ⊢
  obtain ⟨s1, o⟩ := x
  obtain ⟨t1, o'⟩ := y
  obtain ⟨hT, ho⟩ := this
  simp only at hT ho ⊢
  subst ho
  split
  · exact hT
  · cases ex with
    | none =>
      have := hT.insertUser a b c.u c.io { id := id, offset := o, length := p.length, crc := crc32 p, dataid := 0, timestamp := ts }
      simp only
      generalize Zdb.insertUser a s1 c.u c.io _ = x at this ⊢
      generalize Zdb.insertUser b t1 c.u c.io _ = y at this ⊢
      obtain ⟨h1, h2⟩ := this
      rw [h2]
      split <;> exact h1
    | some e =>
      have := hT.updateUser a b c.u c.io { id := id, offset := o, length := p.length, crc := crc32 p, dataid := 0, timestamp := ts } e
      simp only
      generalize Zdb.updateUser a s1 c.u c.io _ e = x at this ⊢
      generalize Zdb.updateUser b t1 c.u c.io _ e = y at this ⊢
      obtain ⟨h1, h2⟩ := this
      rw [h2]
      split <;> exact h1

theorem UInv.sameSize {br b : Branches} {u u' : Nat} {s t : Store} {G G' : Log} (h : UInv br u s G) (h' : UInv b u' t G')
    (he : s.ifiles = t.ifiles) : s.datasize = t.datasize := by
  have hb := live_bare (h.bare h' he)
  have := congrArg (List.map (fun b : Nat × Nat × Item => b.2.2.length)) hb
  rw [List.map_map, List.map_map] at this
  rw [h.size, h'.size]
  exact congrArg List.sum this

theorem UInv.twinSet {c : Ctx} {br b : Branches} {s t : Store} {G G' : Log} (h : UInv br c.u s G) (h' : UInv b c.u t G')
    (hT : Twin s t) (ha : absKV G = absKV G') (hcap : s.ifiles.length < 2 ^ 32) (hlim : c.limit ≤ 2 ^ 31)
    (argv : List Bytes) (k p : Bytes) (hp : p.length < 2 ^ 32) :
    Twin (cmdSet.body c br s argv k p).2.1 (cmdSet.body c b t argv k p).2.1 := by
  have hE : (if k.length ≠ 0 then Zdb.indexGet br s c.u k else none) = (if k.length ≠ 0 then Zdb.indexGet b t c.u k else none) := by
    rw [h.sameGet h' hT.ifiles]
  unfold cmdSet.body
  simp only [← hE, ← h.sameSize h' hT.ifiles]
  generalize hx : (if k.length ≠ 0 then Zdb.indexGet br s c.u k else none) = ex
  split
  · exact hT
  split
  · exact hT
  split
  · exact hT
  split
  · exact hT
  split
  · exact hT
  split
  · exact hT
  simp only [h.mode, h'.mode]
  have hJ := hT.jumpIfFull c.limit p.length
  refine hJ.setHandler c br b k p _ _ ?_
  obtain ⟨G1, j1, j2, j3, -, -, -⟩ := jumpIfFull_spec h hcap c.limit p.length hlim
  obtain ⟨G2, i1, i2, -, -, -, -⟩ := jumpIfFull_spec h' (by rw [← hT.ifiles]; exact hcap) c.limit p.length hlim
  subst hx
  by_cases h0 : k.length = 0
  · rw [if_neg (by simpa using h0)]; rfl
  · rw [if_pos h0]
    have := j1.sameUpToDate i1 hJ.ifiles (by rw [j2, i2, ha]) k p hp
    have e : Zdb.indexGet br (jumpIfFull c.limit s p.length) c.u k = Zdb.indexGet br s c.u k := by
      rw [j1.indexGet, h.indexGet, j3]
    rw [e] at this
    exact this

theorem UInv.twinDel {c : Ctx} {br b : Branches} {s t : Store} {G G' : Log} (h : UInv br c.u s G) (h' : UInv b c.u t G')
    (hT : Twin s t) (argv : List Bytes) (k : Bytes) :
    Twin (cmdDel.body c br s argv k).2.1 (cmdDel.body c b t argv k).2.1 := by
  unfold cmdDel.body
  rw [← h.sameGet h' hT.ifiles]
  split
  · exact hT
  split
  · exact hT
  split
  · exact hT
  split
  · exact hT
  cases Zdb.indexGet br s c.u k with
  | none => exact hT
  | some e =>
    simp only
    split
    · exact hT
    have := hT.dataInsert c.io e.id [] 1 0 (timestampFromSet c.now argv 2)
    generalize dataInsert s c.io e.id [] 1 0 (timestampFromSet c.now argv 2) = x at this ⊢
    generalize dataInsert t c.io e.id [] 1 0 (timestampFromSet c.now argv 2) = y at this ⊢
    obtain ⟨s1, o⟩ := x
    obtain ⟨t1, o'⟩ := y
    obtain ⟨hT, ho⟩ := this
    simp only at hT ho ⊢
    subst ho
    split
    · exact hT
    · have := hT.indexDelete br b c.u c.io e
      generalize indexDelete br s1 c.u c.io e = x at this ⊢
      generalize indexDelete b t1 c.u c.io e = y at this ⊢
      obtain ⟨h1, h2⟩ := this
      rw [h2]
      split <;> exact h1

/-- A command keeps two stores alike. -/
theorem UInv.twinCommand {c : Ctx} {br b : Branches} {s t : Store} {G G' : Log} (h : UInv br c.u s G) (h' : UInv b c.u t G')
    (hT : Twin s t) (ha : absKV G = absKV G') (hcap : s.ifiles.length < 2 ^ 32) (hlim : c.limit ≤ 2 ^ 31)
    (d : DsCmd) (argv : List Bytes) (hl : ∀ x ∈ argv, x.length ≤ 2 ^ 23) :
    Twin (dsCommand c br s d argv).2.1 (dsCommand c b t d argv).2.1 := by
  cases d with
  | set =>
    simp only [dsCommand]
    unfold cmdSet
    split
    · exact h.twinSet h' hT ha hcap hlim _ _ _ (by have := hl _ (List.mem_cons_of_mem _ (List.mem_cons_of_mem _ (List.mem_cons_self ..))); omega)
    · split
      · exact h.twinSet h' hT ha hcap hlim _ _ _ (by have := hl _ (List.mem_cons_of_mem _ (List.mem_cons_of_mem _ (List.mem_cons_self ..))); omega)
      · exact hT
    · exact hT
  | del =>
    simp only [dsCommand]
    unfold cmdDel
    split
    · split
      · exact h.twinDel h' hT _ _
      · exact hT
    · split
      · exact hT
      · split
        · exact h.twinDel h' hT _ _
        · exact hT
  | nsjump =>
    simp only [dsCommand, cmdNsjump]
    split
    · exact hT.jump
    · exact hT
  | index =>
    simp only [dsCommand]
    rcases cmdIndex_cases c s argv with e | e <;> rcases cmdIndex_cases c t argv with e' | e' <;> rw [e, e']
    · exact hT
    all_goals exact ⟨hT.ifiles, hT.iid, hT.did, hT.iprev, hT.mode, hT.lens⟩
  | _ => exact hT

end Zdb
