/-
Reloading a sequential namespace gives back the same log.
-/
import Verif.Lemmas.Loader
import Verif.Lemmas.SeqOps
import Verif.Lemmas.Fresh
namespace Zdb

/-- The map of first ids the loader builds: files without items get no pair. -/
def startsNE (i n : Nat) : Log → List (Nat × Nat)
  | [] => []
  | g :: G => if g = [] then startsNE (i + 1) n G else (n, i) :: startsNE (i + 1) (n + g.length) G

theorem startsNE_append (i n : Nat) (G H : Log) :
    startsNE i n (G ++ H) = startsNE i n G ++ startsNE (i + G.length) (n + (G.map List.length).sum) H := by
  induction G generalizing i n with
  | nil => simp [startsNE]
  | cons g G ih =>
    simp only [List.cons_append, startsNE, ih, List.length_cons, List.map_cons, List.sum_cons]
    by_cases hg : g = []
    · subst hg
      simp only [if_true, List.length_nil]
      rw [show i + 1 + G.length = i + (G.length + 1) by omega, Nat.zero_add]
    · simp only [if_neg hg, List.cons_append]
      rw [show i + 1 + G.length = i + (G.length + 1) by omega, Nat.add_assoc]

theorem startsNE_full (i n : Nat) (G : Log) (h : ∀ g ∈ G, g ≠ []) : startsNE i n G = startsFrom i n G := by
  induction G generalizing i n with
  | nil => rfl
  | cons g G ih =>
    simp only [startsNE, startsFrom, if_neg (h g (by simp)), ih _ _ (fun x hx => h x (by simp [hx]))]

/-- State reached after replaying the records `P`. -/
structure SL (fi fd : List Bytes) (s : Store) (P : List Loc) : Prop where
  mode : s.mode = .seq
  ifiles : s.ifiles = fi
  dfiles : s.dfiles = fd
  entries : s.entries = (P.filter Loc.live).length
  size : s.datasize = ((P.filter Loc.live).map (fun l => l.r.item.length)).sum
  iprev : s.iprev = lastOff 0 P
  next : s.nextentry = P.length

theorem SL.item {fi fd : List Bytes} {s : Store} {P : List Loc} (h : SL fi fd s P) (br : Branches) (u : Nat)
    (l : Loc) (hfl : l.r.item.flags = 0 ∨ l.r.item.flags = 1) :
    (replayItem br s u l.off l.r.item).1 = br ∧
      SL fi fd (replayItem br s u l.off l.r.item).2 (P ++ [l]) ∧
      (replayItem br s u l.off l.r.item).2.indexid = s.indexid ∧
      (replayItem br s u l.off l.r.item).2.seqmap =
        if l.off = 29 then s.seqmap.map (· ++ [(s.nextentry, s.indexid)]) else s.seqmap := by
  obtain ⟨t, ht1, ht⟩ : ∃ t : Store, (if l.off = ihdrLen then
      { s with seqmap := s.seqmap.map (· ++ [(s.nextentry, s.indexid)]) } else s) = t ∧
      t.mode = s.mode ∧ t.ifiles = s.ifiles ∧ t.dfiles = s.dfiles ∧ t.entries = s.entries ∧
      t.datasize = s.datasize ∧ t.nextentry = s.nextentry ∧ t.indexid = s.indexid ∧
      t.seqmap = if l.off = 29 then s.seqmap.map (· ++ [(s.nextentry, s.indexid)]) else s.seqmap := by
    refine ⟨_, rfl, ?_⟩
    rw [ihdrLen]
    split <;> simp
  obtain ⟨hm, h1, h2, h3, h4, h5, h6, h7⟩ := ht
  have hmu : t.mode = .seq := by rw [hm, h.mode]
  unfold replayItem
  simp only [ht1, hmu]
  refine ⟨trivial, ?_⟩
  unfold replaySeq
  rcases hfl with hfl | hfl
  · have hlive : l.live = true := by simp [Loc.live, hfl, isDeleted]
    have hd : isDeleted l.r.item.flags = false := by simp [hfl, isDeleted]
    simp only [hd, Bool.false_eq_true, if_false]
    refine ⟨⟨hmu, by rw [← h.ifiles, ← h1], by rw [← h.dfiles, ← h2], ?_, ?_, ?_, ?_⟩, h6, h7⟩
    · simp [h3, h.entries, List.filter_append, hlive]
    · simp [h4, h.size, List.filter_append, hlive]
    · rw [lastOff_append]; rfl
    · simp [h5, h.next]
  · have hlive : l.live = false := by simp [Loc.live, hfl, isDeleted]
    have hd : isDeleted l.r.item.flags = true := by simp [hfl, isDeleted]
    simp only [hd, if_true]
    have hP : (P ++ [l]).filter Loc.live = P.filter Loc.live := by simp [hlive]
    refine ⟨⟨hmu, by rw [← h.ifiles, ← h1], by rw [← h.dfiles, ← h2], ?_, ?_, ?_, ?_⟩, h6, h7⟩
    · rw [hP]; simp [sub64, h3, h.entries]
    · rw [hP]; simp [sub64, h4, h.size]
    · rw [lastOff_append]; rfl
    · simp [h5, h.next]

theorem SL.items {fi fd : List Bytes} {s : Store} {P : List Loc} (h : SL fi fd s P) (br : Branches) (u : Nat)
    (off : Nat) (g : List Rec)
    (hwf : ∀ r ∈ g, r.item.WF) (hfl : ∀ r ∈ g, r.item.flags = 0 ∨ r.item.flags = 1) :
    (replayItems br s u off (g.map Rec.item)).1 = br ∧
      SL fi fd (replayItems br s u off (g.map Rec.item)).2 (P ++ locsIn s.indexid off g) ∧
      (replayItems br s u off (g.map Rec.item)).2.indexid = s.indexid ∧
      (29 ≤ off → (replayItems br s u off (g.map Rec.item)).2.seqmap =
        if off = 29 ∧ g ≠ [] then s.seqmap.map (· ++ [(s.nextentry, s.indexid)]) else s.seqmap) := by
  induction g generalizing br s P off with
  | nil => simpa [locsIn, replayItems] using h
  | cons r g ih =>
    have hone := h.item br u ⟨s.indexid, off, r⟩ (hfl r (by simp))
    simp only [List.map_cons, replayItems]
    obtain ⟨hb, hsl, hid, hmap⟩ := hone
    have hlen : off + itemHdr + r.item.idlength = off + (34 + r.item.id.length) := by
      rw [(hwf r (by simp)).1, itemHdr]; omega
    have := ih hsl br (off + (34 + r.item.id.length)) (fun x hx => hwf x (by simp [hx]))
      (fun x hx => hfl x (by simp [hx]))
    simp only [hid] at this
    simp only at hb hmap
    simp only [hlen, hb]
    refine ⟨this.1, by simpa [locsIn] using this.2.1, this.2.2.1, fun ho => ?_⟩
    rw [this.2.2.2 (by omega), if_neg (by omega), hmap]
    simp

theorem SL.loop {fi fd : List Bytes} {s : Store} (br : Branches) (u : Nat)
    (cfg : Option Mode) (hcfg : cfg = none ∨ cfg = some .seq) (Gp Gr : Log) (hGr : Gr ≠ [])
    (h : s.ifiles = fi ∧ s.dfiles = fd ∧ s.entries = ((locs Gp).filter Loc.live).length ∧
      s.datasize = (((locs Gp).filter Loc.live).map (fun l => l.r.item.length)).sum ∧
      s.iprev = lastOff 0 (locs Gp) ∧ s.nextentry = (locs Gp).length)
    (hmap : (rehash { s with mode := .seq }).seqmap = some ((0, 0) :: startsNE 0 0 Gp))
    (hrep : IRep 1 fi (Gp ++ Gr))
    (hlen : (Gp ++ Gr).length ≤ 2 ^ 32)
    (hwf : ∀ l ∈ locs (Gp ++ Gr), l.r.item.WF)
    (hfl : ∀ l ∈ locs (Gp ++ Gr), l.r.item.flags = 0 ∨ l.r.item.flags = 1) :
    ∃ s', loadLoop cfg u (List.range' Gp.length Gr.length) br s = .ok br s' ∧
      SL fi fd s' (locs (Gp ++ Gr)) ∧ s'.indexid + 1 = (Gp ++ Gr).length ∧
      s'.seqmap = some ((0, 0) :: startsNE 0 0 (Gp ++ Gr)) := by
  induction Gr generalizing Gp s with
  | nil => exact absurd rfl hGr
  | cons g Gr ih =>
    have hcat : Gp ++ g :: Gr = (Gp ++ [g]) ++ Gr := by simp
    have hsub : ∀ l ∈ locsIn Gp.length 29 g, l ∈ locs (Gp ++ g :: Gr) := by
      intro l hl
      rw [locs, locsFrom_append, locsFrom]
      simp [hl]
    have hmem : ∀ r ∈ g, ∃ l ∈ locs (Gp ++ g :: Gr), l.r = r := by
      intro r hr
      obtain ⟨a, b, rfl⟩ := List.append_of_mem hr
      refine ⟨⟨Gp.length, 29 + isize a, r⟩, hsub _ ?_, rfl⟩
      rw [locsIn_append]; simp [locsIn]
    rw [List.length_append] at hlen
    obtain ⟨e1, e2, e3, e4, e5, e6⟩ := h
    have hf : (indexSetId s Gp.length).ifiles[(indexSetId s Gp.length).indexid]? =
        some (encFile Mode.seq.byte (indexSetId s Gp.length).indexid g) := by
      show s.ifiles[Gp.length]? = some (encFile 1 Gp.length g)
      rw [e1, hrep.get]
      simp
    have hwfg : ∀ r ∈ g, r.item.WF := by
      intro r hr; obtain ⟨l, hl, rfl⟩ := hmem r hr; exact hwf l hl
    simp only [List.length_cons, List.range'_succ, loadLoop]
    rw [loadFile_encFile cfg br _ u .seq g hcfg
      (by show Gp.length < 2 ^ 32; simp at hlen; omega) hf hwfg]
    simp only
    have h0 : SL fi fd ({ rehash { indexSetId s Gp.length with mode := .seq } with nextid := 0 } : Store) (locs Gp) :=
      ⟨rfl, e1, e2, e3, e4, e5, e6⟩
    have h1 := h0.items br u 29 g hwfg
      (by intro r hr; obtain ⟨l, hl, rfl⟩ := hmem r hr; exact hfl l hl)
    have e7 : (({ rehash { indexSetId s Gp.length with mode := .seq } with nextid := 0 } : Store)).indexid =
      Gp.length := rfl
    have e8 : (({ rehash { indexSetId s Gp.length with mode := .seq } with nextid := 0 } : Store)).seqmap =
      (rehash { s with mode := .seq }).seqmap := rfl
    have e9 : (({ rehash { indexSetId s Gp.length with mode := .seq } with nextid := 0 } : Store)).nextentry =
      s.nextentry := rfl
    rw [e7, e8, e9, hmap, e6] at h1
    obtain ⟨hb, hsl, hid, hmap1⟩ := h1
    have hmap2 := hmap1 (Nat.le_refl _)
    clear hmap1
    rw [← locs_concat] at hsl
    have hstarts : startsNE 0 0 (Gp ++ [g]) = startsNE 0 0 Gp ++
        (if g = [] then [] else [((locs Gp).length, Gp.length)]) := by
      rw [startsNE_append, ← locs_length]
      simp only [startsNE, Nat.zero_add]
    have hmap3 : (replayItems br ({ rehash { indexSetId s Gp.length with mode := .seq } with nextid := 0 } : Store) u 29 (g.map Rec.item)).2.seqmap =
        some ((0, 0) :: startsNE 0 0 (Gp ++ [g])) := by
      rw [hmap2, hstarts]
      by_cases hg : g = []
      · simp [hg]
      · simp [hg]
    rw [hb]
    by_cases hGr' : Gr = []
    · subst hGr'
      exact ⟨_, rfl, hsl, by simp only [hid]; simp, hmap3⟩
    · obtain ⟨s', h2, h3, h4, h5⟩ := ih (Gp ++ [g]) hGr'
        ⟨hsl.ifiles, hsl.dfiles, hsl.entries, hsl.size, hsl.iprev, hsl.next⟩
        (by
          have : ∀ t : Store, t.seqmap = some ((0, 0) :: startsNE 0 0 (Gp ++ [g])) →
              (rehash { t with mode := .seq }).seqmap = some ((0, 0) :: startsNE 0 0 (Gp ++ [g])) := by
            intro t ht; simp [rehash, ht]
          exact this _ hmap3)
        (by rw [← hcat]; exact hrep)
        (by rw [← hcat]; simpa using hlen)
        (by rw [← hcat]; exact hwf) (by rw [← hcat]; exact hfl)
      simp only [List.length_append, List.length_singleton] at h2
      exact ⟨s', h2, by rw [hcat]; exact h3, by rw [hcat]; exact h4, by rw [hcat]; exact h5⟩

/-- Reloading the files of a sequential namespace whose current index file has items (or is the only
    one). -/
theorem SInv.reload {s : Store} {G : Log} (h : SInv s G) (br : Branches) (u : Nat)
    (cfg : Option Mode) (hcfg : cfg = none ∨ cfg = some .seq) (hlen : G.length < 2 ^ 32)
    (hlast : G.length = 1 ∨ 29 < logEnd G) :
    ∃ s', reloadNs cfg br u s = .ok br s' ∧ SInv s' G ∧
      s'.ifiles = s.ifiles ∧ s'.dfiles = s.dfiles ∧ s'.nextentry = s.nextentry ∧
      s'.entries = s.entries ∧ s'.datasize = s.datasize := by
  have hG : 0 < G.length := List.length_pos_iff.2 h.ne
  have hn : maxFiles s.ifiles = G.length := by
    rw [maxFiles, h.irep.length]; omega
  obtain ⟨i, d, hfold⟩ := indexSetId_foldl (List.range (G.length + 1)) (initRoot cfg s.ifiles s.dfiles)
  have hmap0 : (rehash { ({ initRoot cfg s.ifiles s.dfiles with indexid := i, dirty := d } : Store) with mode := .seq }).seqmap =
      some ((0, 0) :: startsNE 0 0 []) := by
    rcases hcfg with rfl | rfl <;> rfl
  obtain ⟨s', h1, h2, h3, h4⟩ := SL.loop (fi := s.ifiles) (fd := s.dfiles) br u cfg hcfg [] G h.ne (s := { initRoot cfg s.ifiles s.dfiles with indexid := i, dirty := d })
    ⟨rfl, rfl, rfl, rfl, rfl, rfl⟩ hmap0 h.irep h.files
    (fun l hl => (h.recs l hl).wf) (fun l hl => (h.recs l hl).flags)
  simp only [List.nil_append] at h2 h3 h4
  have hsame : s'.indexid = s.indexid := by have := h.iid; omega
  have hlt : s'.indexid < s'.dfiles.length := by rw [h2.dfiles, h.dlen]; omega
  obtain ⟨p, hp⟩ := dataOpen_same hlt (by
    obtain ⟨t, ht⟩ := h.dhead s'.indexid _ (List.getElem?_eq_getElem (by rw [h.dlen]; omega))
    refine ⟨t, ?_⟩
    simp only [h2.dfiles]
    rw [← ht]
    exact List.getElem?_eq_getElem _)
  refine ⟨{ s' with dataid := s'.indexid, dprev := p }, ?_, ?_, h2.ifiles, h2.dfiles, ?_, ?_, ?_⟩
  · unfold reloadNs loadNs
    simp only [h.mode, hn, hfold, if_pos hG]
    rw [List.range_eq_range']
    simp only [List.length_nil] at h1
    rw [h1]
    simp only [hp]
  · have hcore : Core 1 (fun l => l.r.item.dataid) { s' with dataid := s'.indexid, dprev := p } G := by
      refine ⟨?_, h3, rfl, ?_, h.files, ?_, h.offs, h2.iprev, h.prevs, ?_, ?_⟩
      · simp only [h2.ifiles]; exact h.irep
      · simp only [h2.dfiles]; exact h.dlen
      · simp only [h2.dfiles]; exact h.recs
      · simp only [h2.dfiles]; exact h.bound
      · simp only [h2.dfiles]; exact h.dhead
    refine { hcore with
      mode := h2.mode, ids8 := h.ids8, own := h.own, map := ?_, full := h.full, next := h2.next,
      entries := h2.entries, size := h2.size, total := ?_, few := ?_, chain := h.chain }
    · simp only [h4]
      by_cases hall : ∀ g ∈ G, g ≠ []
      · exact ⟨[(0, 0)], by rw [startsNE_full 0 0 G hall]; rfl, Or.inr rfl⟩
      · obtain ⟨G', g, rfl⟩ := exists_concat h.ne
        have hg : g = [] := by
          apply Classical.byContradiction
          intro hg
          apply hall
          intro x hx
          obtain ⟨j, hj, he⟩ := List.getElem_of_mem hx
          by_cases hl : j + 1 < (G' ++ [g]).length
          · exact h.full j x (by rw [List.getElem?_eq_getElem hj, he]) hl
          · have : j = G'.length := by simp at hj hl; omega
            subst this
            simp at he
            rw [← he]; exact hg
        subst hg
        rcases hlast with hl | hl
        · have : G' = [] := by simpa using hl
          subst this
          exact ⟨[], by simp [startsNE, startsFrom], Or.inl rfl⟩
        · simp [logEnd, isize] at hl
    · have e1 : s'.datasize = s.datasize := by rw [h2.size, h.size]; rfl
      simp only [h2.dfiles, e1]
      exact h.total
    · simp only [h2.dfiles]; exact h.few
  · simp only [h2.next, h.next]
  · simp only [h2.entries, h.entries]; rfl
  · simp only [h2.size, h.size]; rfl

theorem freshStore_sinv : SInv (freshStore .seq) [[]] :=
  { freshStore_core .seq (fun l => l.r.item.dataid) with
    mode := rfl
    ids8 := by intro l hl; simp [locs, locsFrom, locsIn] at hl
    own := by intro i l hl; simp [locs, locsFrom, locsIn] at hl
    map := ⟨[], rfl, Or.inl rfl⟩
    full := by intro i g hg hi; simp at hi
    next := rfl
    entries := rfl
    size := rfl
    total := Nat.zero_le _
    few := Nat.zero_le _
    chain := by intro l hl; simp [locs, locsFrom, locsIn] at hl }

end Zdb
