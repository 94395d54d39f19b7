/-
Reloading a user-key namespace gives back the same log.
-/
import Verif.Lemmas.Loader
import Verif.Lemmas.UserInv
namespace Zdb

/-- State reached after replaying the records `P`; `br0` is the table before loading. -/
structure LInv (br0 br : Branches) (u : Nat) (fi fd : List Bytes) (s : Store) (P : List Loc) : Prop where
  mode : s.mode = .user
  ifiles : s.ifiles = fi
  dfiles : s.dfiles = fd
  brs : ∀ h, (nsBranch br u h).Perm (ents u h (P.filter Loc.live))
  other : ∀ v h, v ≠ u → nsBranch br v h = nsBranch br0 v h
  entries : s.entries = (P.filter Loc.live).length
  size : s.datasize = ((P.filter Loc.live).map (fun l => l.r.item.length)).sum
  iprev : s.iprev = lastOff 0 P
  next : s.nextentry = P.length

theorem LInv.item {br0 br : Branches} {u : Nat} {fi fd : List Bytes} {s : Store} {P : List Loc}
    (h : LInv br0 br u fi fd s P) (l : Loc) (hfile : l.file = s.indexid) (hoff : l.off < 2 ^ 32)
    (hfl : l.r.item.flags = 0 ∨ l.r.item.flags = 1)
    (hnew : ∀ m ∈ P, m.live = true → m.id ≠ l.id) :
    LInv br0 (replayItem br s u l.off l.r.item).1 u fi fd (replayItem br s u l.off l.r.item).2
      (P ++ [l]) ∧ (replayItem br s u l.off l.r.item).2.indexid = s.indexid := by
  -- no live entry has this key
  have hno : ∀ x ∈ nsBranch br u (keyHash l.id), ¬ (x.id == l.id) = true := by
    intro x hx
    have hx := (h.brs (keyHash l.id)).mem_iff.1 hx
    simp only [ents, List.mem_map, List.mem_filter] at hx
    obtain ⟨m, ⟨⟨hm, hlv⟩, _⟩, rfl⟩ := hx
    simpa [Loc.entry, Loc.id] using hnew m hm hlv
  have hget : ∀ t : Store, t.mode = .user → indexGet br t u l.r.item.id = none := by
    intro t ht
    have : brGet br u l.r.item.id = none := by
      rw [brGet_eq]; exact List.find?_eq_none.2 hno
    simp only [indexGet, ht, this]
  obtain ⟨t, ht1, ht⟩ : ∃ t : Store, (if l.off = ihdrLen then
      { s with seqmap := s.seqmap.map (· ++ [(s.nextentry, s.indexid)]) } else s) = t ∧
      t.mode = s.mode ∧ t.ifiles = s.ifiles ∧ t.dfiles = s.dfiles ∧ t.entries = s.entries ∧
      t.datasize = s.datasize ∧ t.nextentry = s.nextentry ∧ t.indexid = s.indexid := by
    refine ⟨_, rfl, ?_⟩
    split <;> simp
  obtain ⟨hm, h1, h2, h3, h4, h5, h6⟩ := ht
  have hmu : t.mode = .user := by rw [hm, h.mode]
  have hent : ({ sourceEntry t u l.off l.r.item with ns := u, dataid := t.indexid } : Entry) =
      l.entry u := by
    simp only [sourceEntry, Loc.entry, h6, hfile, Nat.mod_eq_of_lt hoff]
  unfold replayItem
  simp only [ht1, hmu]
  unfold replayUser
  rw [hget t hmu]
  simp only [insertMemUser, hent]
  have happ : ∀ h, nsBranch (brAppend br (l.entry u)) u h =
      nsBranch br u h ++ (if h = keyHash l.id then [l.entry u] else []) := by
    intro h
    rw [nsBranch_append]
    have e1 : keyHash (l.entry u).id = keyHash l.id := rfl
    have e2 : (l.entry u).ns = u := rfl
    rw [e1, e2]
    congr 1
    by_cases hh : h = keyHash l.id <;> simp [hh]
  rcases hfl with hfl | hfl
  · have hlive : l.live = true := by simp [Loc.live, hfl, isDeleted]
    have hd : isDeleted (sourceEntry t u l.off l.r.item).flags = false := by
      simp [sourceEntry, hfl, isDeleted]
    simp only [hd, Bool.false_eq_true, if_false]
    refine ⟨⟨hmu, by rw [← h.ifiles, ← h1], by rw [← h.dfiles, ← h2], ?_, ?_, ?_, ?_, ?_, ?_⟩, h6⟩
    · intro k
      rw [happ, List.filter_append, ents_append]
      apply (h.brs k).append
      by_cases hk : k = keyHash l.id
      · simp [ents, hlive, hk]
      · simp [ents, hlive, hk, Ne.symm hk]
    · intro v k hv
      rw [nsBranch_append, if_neg (by simp [Loc.entry, Ne.symm hv]), List.append_nil]
      exact h.other v k hv
    · simp [h3, h.entries, List.filter_append, hlive]
    · simp [h4, h.size, List.filter_append, hlive, sourceEntry]
    · rw [lastOff_append]; rfl
    · simp [h5, h.next]
  · have hlive : l.live = false := by simp [Loc.live, hfl, isDeleted]
    have hd : isDeleted (sourceEntry t u l.off l.r.item).flags = true := by
      simp [sourceEntry, hfl, isDeleted]
    simp only [hd, if_true]
    have hP : (P ++ [l]).filter Loc.live = P.filter Loc.live := by simp [hlive]
    refine ⟨⟨hmu, by rw [← h.ifiles, ← h1], by rw [← h.dfiles, ← h2], ?_, ?_, ?_, ?_, ?_, ?_⟩, h6⟩
    · intro k
      rw [hP, nsBranch_remove, happ]
      have e1 : keyHash l.r.item.id = keyHash l.id := rfl
      rw [e1]
      by_cases hk : k = keyHash l.id
      · subst hk
        simp only [if_true]
        rw [List.eraseP_append_right]
        · have : [l.entry u].eraseP (fun e => e.id == l.r.item.id) = [] := by
            simp [Loc.entry]
          rw [this, List.append_nil]
          exact h.brs _
        · exact hno
      · simp only [if_neg hk, List.append_nil]; exact h.brs k
    · intro v k hv
      rw [nsBranch_remove_other _ _ _ _ _ hv, nsBranch_append,
        if_neg (by simp [Loc.entry, Ne.symm hv]), List.append_nil]
      exact h.other v k hv
    · rw [hP]; simp [sub64, h3, h.entries]
    · rw [hP]; simp [sub64, h4, h.size]
    · rw [lastOff_append]; rfl
    · simp [h5, h.next]

theorem LInv.items {br0 br : Branches} {u : Nat} {fi fd : List Bytes} {s : Store} {P : List Loc}
    (h : LInv br0 br u fi fd s P) (off : Nat) (g : List Rec)
    (hwf : ∀ r ∈ g, r.item.WF) (hfl : ∀ r ∈ g, r.item.flags = 0 ∨ r.item.flags = 1)
    (hoff : ∀ l ∈ locsIn s.indexid off g, l.off < 2 ^ 32)
    (hnew : (P ++ locsIn s.indexid off g).Pairwise (fun a b => a.live = true → a.id ≠ b.id)) :
    LInv br0 (replayItems br s u off (g.map Rec.item)).1 u fi fd
      (replayItems br s u off (g.map Rec.item)).2 (P ++ locsIn s.indexid off g) ∧
      (replayItems br s u off (g.map Rec.item)).2.indexid = s.indexid := by
  induction g generalizing br s P off with
  | nil => simpa [locsIn, replayItems] using h
  | cons r g ih =>
    simp only [locsIn] at hoff hnew
    have hone := h.item ⟨s.indexid, off, r⟩ rfl (hoff _ (by simp)) (hfl r (by simp)) (by
      rw [List.pairwise_append] at hnew
      exact fun m hm => hnew.2.2 m hm _ (by simp))
    simp only [List.map_cons, replayItems]
    have hid := hone.2
    have hlen : off + itemHdr + r.item.idlength = off + (34 + r.item.id.length) := by
      rw [(hwf r (by simp)).1, itemHdr]; omega
    have := ih hone.1 (off + (34 + r.item.id.length)) (fun x hx => hwf x (by simp [hx]))
      (fun x hx => hfl x (by simp [hx]))
      (by simp only [hid]; exact fun l hl => hoff l (by simp [hl]))
      (by simp only [hid]; simpa using hnew)
    simp only [hid] at this
    rw [hlen]
    simpa [locsIn] using this

theorem LInv.rehash {br0 br : Branches} {u : Nat} {fi fd : List Bytes} {s : Store} {P : List Loc}
    (h : LInv br0 br u fi fd s P) (n : Nat) :
    LInv br0 br u fi fd { rehash { s with mode := .user } with nextid := n } P :=
  ⟨rfl, h.ifiles, h.dfiles, h.brs, h.other, h.entries, h.size, h.iprev, h.next⟩

theorem LInv.setId {br0 br : Branches} {u : Nat} {fi fd : List Bytes} {s : Store} {P : List Loc}
    (h : LInv br0 br u fi fd s P) (i : Nat) : LInv br0 br u fi fd (indexSetId s i) P :=
  ⟨h.mode, h.ifiles, h.dfiles, h.brs, h.other, h.entries, h.size, h.iprev, h.next⟩

theorem LInv.loop {br0 br : Branches} {u : Nat} {fi fd : List Bytes} {s : Store}
    (cfg : Option Mode) (hcfg : cfg = none ∨ cfg = some .user) (Gp Gr : Log)
    (h : LInv br0 br u fi fd s (locs Gp)) (hrep : IRep 0 fi (Gp ++ Gr))
    (hlen : (Gp ++ Gr).length ≤ 2 ^ 32)
    (hwf : ∀ l ∈ locs (Gp ++ Gr), l.r.item.WF)
    (hfl : ∀ l ∈ locs (Gp ++ Gr), l.r.item.flags = 0 ∨ l.r.item.flags = 1)
    (hoff : ∀ l ∈ locs (Gp ++ Gr), l.off < 2 ^ 32)
    (hnew : (locs (Gp ++ Gr)).Pairwise (fun a b => a.live = true → a.id ≠ b.id)) :
    ∃ br' s', loadLoop cfg u (List.range' Gp.length Gr.length) br s = .ok br' s' ∧
      LInv br0 br' u fi fd s' (locs (Gp ++ Gr)) ∧ (Gr ≠ [] → s'.indexid + 1 = (Gp ++ Gr).length) ∧
      (Gr = [] → s' = s) := by
  induction Gr generalizing Gp br s with
  | nil => exact ⟨br, s, rfl, by simpa using h, by simp, by simp⟩
  | cons g Gr ih =>
    have hcat : Gp ++ g :: Gr = (Gp ++ [g]) ++ Gr := by simp
    have hsub : ∀ l ∈ locsIn Gp.length 29 g, l ∈ locs (Gp ++ g :: Gr) := by
      intro l hl
      rw [locs, locsFrom_append, locsFrom]
      simp [hl]
    have hpre : locs (Gp ++ g :: Gr) = (locs Gp ++ locsIn Gp.length 29 g) ++ locsFrom (Gp.length + 1) Gr := by
      rw [locs, locsFrom_append, locsFrom]; simp [locs]
    have hmem : ∀ r ∈ g, ∃ l ∈ locs (Gp ++ g :: Gr), l.r = r := by
      intro r hr
      obtain ⟨a, b, rfl⟩ := List.append_of_mem hr
      refine ⟨⟨Gp.length, 29 + isize a, r⟩, hsub _ ?_, rfl⟩
      rw [locsIn_append]; simp [locsIn]
    rw [List.length_append] at hlen
    have hf : (indexSetId s Gp.length).ifiles[(indexSetId s Gp.length).indexid]? =
        some (encFile Mode.user.byte (indexSetId s Gp.length).indexid g) := by
      show s.ifiles[Gp.length]? = some (encFile 0 Gp.length g)
      rw [h.ifiles, hrep.get]
      simp
    have hwfg : ∀ r ∈ g, r.item.WF := by
      intro r hr; obtain ⟨l, hl, rfl⟩ := hmem r hr; exact hwf l hl
    simp only [List.length_cons, List.range'_succ, loadLoop]
    rw [loadFile_encFile cfg br _ u .user g hcfg
      (by show Gp.length < 2 ^ 32; simp at hlen; omega) hf hwfg]
    simp only
    have h1 := ((h.setId Gp.length).rehash 0).items 29 g hwfg
      (by intro r hr; obtain ⟨l, hl, rfl⟩ := hmem r hr; exact hfl l hl)
      (fun l hl => hoff l (hsub l hl))
      (by
        rw [hpre, List.pairwise_append] at hnew
        exact hnew.1)
    have e2 : (({ Zdb.rehash { indexSetId s Gp.length with mode := .user } with nextid := 0 } : Store)).indexid =
      Gp.length := rfl
    rw [e2] at h1
    rw [← locs_concat] at h1
    obtain ⟨br', s', h2, h3, h4, h5⟩ := ih (Gp ++ [g]) h1.1 (by rw [← hcat]; exact hrep)
      (by rw [← hcat]; simpa using hlen)
      (by rw [← hcat]; exact hwf) (by rw [← hcat]; exact hfl) (by rw [← hcat]; exact hoff)
      (by rw [← hcat]; exact hnew)
    simp only [List.length_append, List.length_singleton] at h2
    refine ⟨br', s', h2, by rw [hcat]; exact h3, ?_, by simp⟩
    intro _
    by_cases hGr : Gr = []
    · rw [h5 hGr]
      simp only [h1.2]
      simp [hGr]
    · rw [hcat]; exact h4 hGr

/-- Loading the files of a user-key namespace, possibly under another identity. -/
theorem UInv.load' {br br0 : Branches} {u0 u : Nat} {s : Store} {G : Log} (h : UInv br u0 s G)
    (cfg : Option Mode) (hcfg : cfg = none ∨ cfg = some .user) (hlen : G.length < 2 ^ 32)
    (hbr : ∀ h, nsBranch br0 u h = []) :
    ∃ br' s', loadNs cfg br0 u s.ifiles s.dfiles = .ok br' s' ∧ UInv br' u s' G ∧
      s'.ifiles = s.ifiles ∧ s'.dfiles = s.dfiles ∧
      (∀ v h, v ≠ u → nsBranch br' v h = nsBranch br0 v h) ∧ s'.nextentry = (locs G).length := by
  have hG : 0 < G.length := List.length_pos_iff.2 h.ne
  have hn : maxFiles s.ifiles = G.length := by
    rw [maxFiles, h.irep.length]; omega
  have hm0 : (initRoot cfg s.ifiles s.dfiles).mode = .user := by
    rcases hcfg with rfl | rfl <;> rfl
  have h0 : ∀ i d, LInv br0 br0 u s.ifiles s.dfiles
      ({ initRoot cfg s.ifiles s.dfiles with indexid := i, dirty := d } : Store) (locs []) := by
    intro i d
    refine ⟨hm0, rfl, rfl, ?_, fun _ _ _ => rfl, rfl, rfl, rfl, rfl⟩
    intro k; rw [hbr]; exact List.Perm.refl _
  obtain ⟨i, d, hfold⟩ := indexSetId_foldl (List.range (G.length + 1)) (initRoot cfg s.ifiles s.dfiles)
  obtain ⟨br', s', h1, h2, h3, -⟩ := LInv.loop cfg hcfg [] G (h0 i d) h.irep h.files
    (fun l hl => (h.recs l hl).wf) (fun l hl => (h.recs l hl).flags) h.offs h.newest
  simp only [List.nil_append] at h2 h3
  have hid := h3 h.ne
  have hsame : s'.indexid = s.indexid := by have := h.iid; omega
  have hlt : s'.indexid < s'.dfiles.length := by rw [h2.dfiles, h.dlen]; omega
  obtain ⟨p, hp⟩ := dataOpen_same hlt (by
    obtain ⟨t, ht⟩ := h.dhead s'.indexid _ (List.getElem?_eq_getElem (by rw [h.dlen]; omega))
    refine ⟨t, ?_⟩
    simp only [h2.dfiles]
    rw [← ht]
    exact List.getElem?_eq_getElem _)
  refine ⟨br', { s' with dataid := s'.indexid, dprev := p }, ?_, ?_, h2.ifiles, h2.dfiles, h2.other,
    h2.next⟩
  · unfold loadNs
    simp only [hn, hfold, if_pos hG]
    rw [List.range_eq_range']
    simp only [List.length_nil] at h1
    rw [h1]
    simp only [hp]
  · have hcore : Core 0 Loc.file { s' with dataid := s'.indexid, dprev := p } G := by
      refine ⟨?_, hid, rfl, ?_, h.files, ?_, h.offs, h2.iprev, h.prevs, ?_, ?_⟩
      · simp only [h2.ifiles]; exact h.irep
      · simp only [h2.dfiles]; exact h.dlen
      · simp only [h2.dfiles]; exact h.recs
      · simp only [h2.dfiles]; exact h.bound
      · simp only [h2.dfiles]; exact h.dhead
    refine { hcore with
      mode := h2.mode, ids := h.ids, parents := h.parents, nodup := h.nodup, brs := h2.brs,
      entries := h2.entries, size := h2.size, total := ?_, newest := h.newest, used := ?_,
      diskid := h.diskid, chain := h.chain }
    · have e1 : s'.datasize = s.datasize := by rw [h2.size, h.size]; rfl
      simp only [h2.dfiles, e1]
      exact h.total
    · intro hne
      simp only [h2.next]
      exact List.length_pos_iff.2 hne

/-- Loading the files of a user-key namespace. -/
theorem UInv.load {br br0 : Branches} {u : Nat} {s : Store} {G : Log} (h : UInv br u s G)
    (cfg : Option Mode) (hcfg : cfg = none ∨ cfg = some .user) (hlen : G.length < 2 ^ 32)
    (hbr : ∀ h, nsBranch br0 u h = []) :
    ∃ br' s', loadNs cfg br0 u s.ifiles s.dfiles = .ok br' s' ∧ UInv br' u s' G ∧
      s'.ifiles = s.ifiles ∧ s'.dfiles = s.dfiles ∧
      (∀ v h, v ≠ u → nsBranch br' v h = nsBranch br0 v h) ∧ s'.nextentry = (locs G).length := h.load' cfg hcfg hlen hbr

theorem UInv.reload {br : Branches} {u : Nat} {s : Store} {G : Log} (h : UInv br u s G)
    (cfg : Option Mode) (hcfg : cfg = none ∨ cfg = some .user) (hlen : G.length < 2 ^ 32) :
    ∃ br' s', reloadNs cfg br u s = .ok br' s' ∧ UInv br' u s' G ∧
      s'.ifiles = s.ifiles ∧ s'.dfiles = s.dfiles ∧
      (∀ v h, v ≠ u → nsBranch br' v h = nsBranch br v h) ∧ s'.nextentry = (locs G).length := by
  unfold reloadNs
  simp only [h.mode]
  obtain ⟨br', s', h1, h2, h3, h4, h5, h6⟩ := h.load (br0 := brClean br u) cfg hcfg hlen
    (fun k => nsBranch_clean br u k)
  exact ⟨br', s', h1, h2, h3, h4, fun v k hv => by rw [h5 v k hv, nsBranch_clean_other _ _ _ _ hv], h6⟩

end Zdb
