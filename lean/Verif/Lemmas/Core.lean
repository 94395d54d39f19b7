/-
Facts about the files of a namespace that hold in both modes.
-/
import Verif.Lemmas.Log
namespace Zdb

/-- Offset of the last record of a list, `d` if there is none. -/
def lastOff : Nat → List Loc → Nat
  | d, [] => d
  | _, l :: ls => lastOff l.off ls

/-- Every `previous` field is the offset of the record appended before. -/
def PrevOK : Nat → List Loc → Prop
  | _, [] => True
  | p, l :: ls => l.r.item.previous = p ∧ PrevOK l.off ls

theorem lastOff_append (d : Nat) (a b : List Loc) : lastOff d (a ++ b) = lastOff (lastOff d a) b := by
  induction a generalizing d with
  | nil => rfl
  | cons l a ih => simp [lastOff, ih]

theorem PrevOK_append (p : Nat) (a b : List Loc) :
    PrevOK p (a ++ b) ↔ PrevOK p a ∧ PrevOK (lastOff p a) b := by
  induction a generalizing p with
  | nil => simp [PrevOK, lastOff]
  | cons l a ih => simp [PrevOK, lastOff, ih, and_assoc]

theorem lastOff_lt {d : Nat} {L : List Loc} {b : Nat} (hd : d < b) (h : ∀ l ∈ L, l.off < b) :
    lastOff d L < b := by
  induction L generalizing d with
  | nil => exact hd
  | cons l L ih =>
    exact ih (h l (by simp)) (fun x hx => h x (by simp [hx]))

/-- Header of the data record of `r`. -/
def recHdr (prev : Nat) (r : Rec) : DHdr :=
  { idlength := r.item.id.length, datalength := r.item.length, previous := prev,
    integrity := r.item.crc, flags := 0, timestamp := r.item.timestamp }

/-- A record is well formed and its data is in data file `df`. -/
structure RecOK (dfiles : List Bytes) (df : Nat) (r : Rec) : Prop where
  wf : r.item.WF
  len : r.item.length = r.payload.length
  crc : r.item.crc = crc32 r.payload
  flags : r.item.flags = 0 ∨ r.item.flags = 1
  data : ∃ prev, prev < 2 ^ 32 ∧
    DataAt dfiles df r.item.offset (encDHdr (recHdr prev r) ++ (r.item.id ++ r.payload))

/-- Facts about the files and cursors of a namespace; `df` tells in which data file a
    record has its payload. -/
structure Core (mode : Nat) (df : Loc → Nat) (s : Store) (G : Log) : Prop where
  irep : IRep mode s.ifiles G
  iid : s.indexid + 1 = G.length
  did : s.dataid = s.indexid
  dlen : s.dfiles.length = G.length
  files : G.length ≤ 2 ^ 32
  recs : ∀ l ∈ locs G, RecOK s.dfiles (df l) l.r
  offs : ∀ l ∈ locs G, l.off < 2 ^ 32
  iprev : s.iprev = lastOff 0 (locs G)
  prevs : PrevOK 0 (locs G)
  bound : ∀ (i : Nat) (g : List Rec) (f : Bytes), G[i]? = some g → s.dfiles[i]? = some f →
    28 ≤ f.length ∧ 19 * isize g ≤ 35 * (f.length - 28)
  dhead : ∀ (i : Nat) (f : Bytes), s.dfiles[i]? = some f →
    ∃ t, f = encDFHeader (freshDFHeader i) ++ t

theorem Core.ne {mode : Nat} {df : Loc → Nat} {s : Store} {G : Log} (h : Core mode df s G) :
    G ≠ [] := by
  intro h0; have := h.iid; simp [h0] at this

theorem Core.iprev_lt {mode : Nat} {df : Loc → Nat} {s : Store} {G : Log} (h : Core mode df s G) :
    s.iprev < 2 ^ 32 := by
  rw [h.iprev]; exact lastOff_lt (by decide) h.offs

theorem Core.congr {mode : Nat} {df : Loc → Nat} {s t : Store} {G : Log} (h : Core mode df s G)
    (h1 : t.ifiles = s.ifiles) (h2 : t.dfiles = s.dfiles) (h3 : t.indexid = s.indexid)
    (h4 : t.dataid = s.dataid) (h5 : t.iprev = s.iprev) : Core mode df t G where
  irep := by rw [h1]; exact h.irep
  iid := by rw [h3]; exact h.iid
  did := by rw [h3, h4]; exact h.did
  dlen := by rw [h2]; exact h.dlen
  files := h.files
  recs := by rw [h2]; exact h.recs
  offs := h.offs
  iprev := by rw [h5]; exact h.iprev
  prevs := h.prevs
  bound := by rw [h2]; exact h.bound
  dhead := by rw [h2]; exact h.dhead

/-! ### data records -/

theorem RecOK.appendFile {fs : List Bytes} {df : Nat} {r : Rec} (h : RecOK fs df r) (i : Nat)
    (b : Bytes) : RecOK (appendFile fs i b) df r :=
  { h with data := by obtain ⟨p, hp, hd⟩ := h.data; exact ⟨p, hp, hd.append i b⟩ }

theorem RecOK.concat {fs : List Bytes} {df : Nat} {r : Rec} (h : RecOK fs df r) (f : Bytes) :
    RecOK (fs ++ [f]) df r :=
  { h with data := by obtain ⟨p, hp, hd⟩ := h.data; exact ⟨p, hp, hd.concat f⟩ }

theorem recHdr_wf {fs : List Bytes} {df : Nat} {r : Rec} (h : RecOK fs df r) {prev : Nat}
    (hp : prev < 2 ^ 32) : (recHdr prev r).WF := by
  have := h.wf
  simp only [Item.WF] at this
  simp only [DHdr.WF, recHdr]
  omega

theorem RecOK.readHdr {fs : List Bytes} {df : Nat} {r : Rec} (h : RecOK fs df r) :
    ∃ f prev, prev < 2 ^ 32 ∧ fs[df]? = some f ∧
      readExact f r.item.offset dhdrLen = some (encDHdr (recHdr prev r)) ∧
      readExact f (r.item.offset + dhdrLen + r.item.id.length) r.payload.length = some r.payload := by
  obtain ⟨prev, hp, pre, post, h1, h2⟩ := h.data
  refine ⟨_, prev, hp, h1, ?_, ?_⟩
  · apply readExact_at (a := pre) (c := r.item.id ++ (r.payload ++ post)) (by simp) h2.symm
    simp [dhdrLen]
  · apply readExact_at (a := pre ++ (encDHdr (recHdr prev r) ++ r.item.id)) (c := post)
    · simp
    · simp [h2, dhdrLen]; omega
    · rfl

/-- Reading a sound record back. -/
theorem RecOK.dataGet {s : Store} {df : Nat} {r : Rec} (h : RecOK s.dfiles df r) :
    dataGet s r.item.offset r.item.length df r.item.id.length = some r.payload := by
  obtain ⟨f, prev, hp, h1, h2, h3⟩ := h.readHdr
  simp only [Zdb.dataGet, h1, h2]
  have hd : (decDHdr (encDHdr (recHdr prev r))).datalength = r.item.length := by
    rw [decDHdr_encDHdr _ (recHdr_wf h hp)]; rfl
  rw [hd]
  simp only [ite_self, h.len]
  by_cases h0 : r.payload.length = 0
  · simp [h0, List.length_eq_zero_iff.1 h0]
  · rw [if_neg h0, h3]

theorem RecOK.dataCheck {s : Store} {df : Nat} {r : Rec} (h : RecOK s.dfiles df r) :
    dataCheck s r.item.offset df = 1 := by
  obtain ⟨f, prev, hp, h1, h2, h3⟩ := h.readHdr
  simp only [Zdb.dataCheck, h1, h2]
  rw [decDHdr_encDHdr _ (recHdr_wf h hp)]
  simp only [recHdr, h.len, h3]
  simp [h.crc]

/-! ### core operations -/

@[simp] theorem dataOpen_ifiles (s : Store) (id : Nat) : (dataOpen s id).ifiles = s.ifiles := rfl
@[simp] theorem dataOpen_indexid (s : Store) (id : Nat) : (dataOpen s id).indexid = s.indexid := rfl
@[simp] theorem dataOpen_dataid (s : Store) (id : Nat) : (dataOpen s id).dataid = id := rfl
@[simp] theorem dataOpen_iprev (s : Store) (id : Nat) : (dataOpen s id).iprev = s.iprev := rfl
@[simp] theorem dataOpen_dfiles (s : Store) (id : Nat) :
    (dataOpen s id).dfiles = dataInitialize s.dfiles id := rfl

theorem Core.jump {mode : Nat} {df : Loc → Nat} {s : Store} {G : Log} (h : Core mode df s G)
    (hm : s.mode.byte = mode) (hcap : G.length < 2 ^ 32) :
    Core mode df (jump s) (logJump G) ∧ (jump s).dfiles = s.dfiles ++ [encDFHeader (freshDFHeader G.length)] ∧
      (jump s).ifiles = s.ifiles ++ [encIHeader (freshIHeader G.length mode)] ∧
      (jump s).indexid = G.length := by
  have hid : (s.indexid + 1) % 2 ^ 32 = G.length := by rw [h.iid, Nat.mod_eq_of_lt hcap]
  have hil := h.irep.length
  have hdf : (Zdb.jump s).dfiles = s.dfiles ++ [encDFHeader (freshDFHeader G.length)] := by
    simp only [Zdb.jump, dataOpen_dfiles, indexSetId, hid, dataInitialize]
    rw [if_neg (by rw [h.dlen]; omega)]
  have hif : (Zdb.jump s).ifiles = indexCreate s.ifiles G.length mode := by
    simp only [Zdb.jump, dataOpen_ifiles, indexSetId, hid, hm]
  have hii : (Zdb.jump s).indexid = G.length := by
    simp only [Zdb.jump, dataOpen_indexid, indexSetId, hid]
  have hdd : (Zdb.jump s).dataid = G.length := by
    simp only [Zdb.jump, dataOpen_dataid, hid]
  have hpp : (Zdb.jump s).iprev = s.iprev := by
    simp only [Zdb.jump, dataOpen_iprev, indexSetId]
  refine ⟨?_, hdf, ?_, hii⟩
  · constructor
    · rw [hif]; exact h.irep.jump _ rfl
    · rw [hii]; simp
    · rw [hii, hdd]
    · rw [hdf]; simp [h.dlen]
    · simp; omega
    · rw [locs_jump, hdf]; intro l hl; exact (h.recs l hl).concat _
    · rw [locs_jump]; exact h.offs
    · rw [locs_jump, hpp]; exact h.iprev
    · rw [locs_jump]; exact h.prevs
    · rw [hdf]
      intro i g f hg hf
      by_cases hi : i < G.length
      · rw [logJump, List.getElem?_append_left hi] at hg
        rw [List.getElem?_append_left (by rw [h.dlen]; exact hi)] at hf
        exact h.bound i g f hg hf
      · have hi' := (List.getElem?_eq_some_iff.1 hg).1
        simp at hi'
        have : i = G.length := by omega
        subst this
        simp [logJump] at hg
        rw [List.getElem?_append_right (by rw [h.dlen]; exact Nat.le_refl _), h.dlen] at hf
        simp at hf
        subst hg hf
        simp [isize]
    · rw [hdf]
      intro i f hf
      by_cases hi : i < G.length
      · rw [List.getElem?_append_left (by rw [h.dlen]; exact hi)] at hf
        exact h.dhead i f hf
      · have hi' := (List.getElem?_eq_some_iff.1 hf).1
        simp [h.dlen] at hi'
        have : i = G.length := by omega
        subst this
        rw [List.getElem?_append_right (by rw [h.dlen]; exact Nat.le_refl _), h.dlen] at hf
        simp at hf
        exact ⟨[], by rw [← hf]; simp⟩
  · rw [hif, indexCreate]
    rw [if_neg (by omega)]

theorem Core.dataFile {mode : Nat} {df : Loc → Nat} {s : Store} {G : Log} (h : Core mode df s G) :
    ∃ f, s.dfiles[s.dataid]? = some f := by
  have : s.dataid < s.dfiles.length := by rw [h.dlen, h.did]; have := h.iid; omega
  exact ⟨_, List.getElem?_eq_getElem this⟩

/-- Appending bytes to the current data file. -/
theorem Core.appendData {mode : Nat} {df : Loc → Nat} {s : Store} {G : Log} (h : Core mode df s G)
    (b : Bytes) (p : Nat) :
    Core mode df { s with dfiles := appendFile s.dfiles s.dataid b, dprev := p } G where
  irep := h.irep
  iid := h.iid
  did := h.did
  dlen := by simp [h.dlen]
  files := h.files
  recs := fun l hl => (h.recs l hl).appendFile _ _
  offs := h.offs
  iprev := h.iprev
  prevs := h.prevs
  bound := by
    intro i g f hg hf
    simp only [appendFile, List.getElem?_modify] at hf
    by_cases hi : s.dataid = i
    · subst hi
      obtain ⟨f0, h0⟩ := h.dataFile
      rw [h0] at hf
      simp at hf
      have := h.bound _ g f0 hg h0
      rw [← hf, List.length_append]; omega
    · cases h0 : s.dfiles[i]? with
      | none => rw [h0] at hf; simp at hf
      | some f0 =>
        rw [h0] at hf; simp [hi] at hf
        subst hf
        exact h.bound _ g f0 hg h0
  dhead := by
    intro i f hf
    simp only [appendFile, List.getElem?_modify] at hf
    cases h0 : s.dfiles[i]? with
    | none => rw [h0] at hf; simp at hf
    | some f0 =>
      obtain ⟨t, ht⟩ := h.dhead i f0 h0
      rw [h0] at hf
      by_cases hi : s.dataid = i
      · simp [hi] at hf
        exact ⟨t ++ b, by rw [← hf, ht]; simp⟩
      · simp [hi] at hf
        exact ⟨t, by rw [← hf, ht]⟩

/-- Appending an item to the current index file. -/
theorem Core.appendItem {mode : Nat} {df : Loc → Nat} {s : Store} {G : Log} (h : Core mode df s G)
    (r : Rec) (hend : logEnd G < 2 ^ 32) (hprev : r.item.previous = s.iprev)
    (hr : RecOK s.dfiles (df ⟨s.indexid, logEnd G, r⟩) r)
    (hb : ∀ (g : List Rec) (f : Bytes), G[s.indexid]? = some g → s.dfiles[s.indexid]? = some f →
      19 * (isize g + (34 + r.item.id.length)) ≤ 35 * (f.length - 28)) :
    Core mode df { s with iprev := logEnd G,
                          ifiles := appendFile s.ifiles s.indexid (encItem r.item) } (logAppend G r) := by
  have hne := h.ne
  have hlocs := locs_append hne r
  have hix : G.length - 1 = s.indexid := by have := h.iid; omega
  rw [hix] at hlocs
  constructor
  · exact h.irep.append hne _ h.iid r
  · rw [logAppend_length]; exact h.iid
  · exact h.did
  · rw [logAppend_length]; exact h.dlen
  · rw [logAppend_length]; exact h.files
  · rw [hlocs]
    intro l hl
    simp only [List.mem_append, List.mem_singleton] at hl
    rcases hl with hl | rfl
    · exact h.recs l hl
    · exact hr
  · rw [hlocs]
    intro l hl
    simp only [List.mem_append, List.mem_singleton] at hl
    rcases hl with hl | rfl
    · exact h.offs l hl
    · exact hend
  · rw [hlocs, lastOff_append]; rfl
  · rw [hlocs, PrevOK_append]
    refine ⟨h.prevs, ?_, trivial⟩
    simp only
    rw [hprev, h.iprev]
  · intro i g f hg hf
    obtain ⟨G', g', rfl⟩ := exists_concat hne
    have hix' : s.indexid = G'.length := by simp at hix; omega
    rw [logAppend_eq] at hg
    by_cases hi : i < G'.length
    · rw [List.getElem?_append_left hi] at hg
      exact h.bound i g f (by rw [List.getElem?_append_left hi]; exact hg) hf
    · have hi' := (List.getElem?_eq_some_iff.1 hg).1
      simp at hi'
      have : i = G'.length := by omega
      subst this
      simp at hg
      subst hg
      have h1 := h.bound G'.length g' f (by simp) hf
      have h2 := hb g' f (by simp [hix']) (by rw [hix']; exact hf)
      rw [isize_append]
      simp only [isize]
      omega
  · exact h.dhead

/-- Overwriting an item in place by one of the same size and the same `previous`. -/
theorem Core.replaceItem {mode : Nat} {df : Loc → Nat} {s : Store} {G : Log} (h : Core mode df s G)
    {A B : List Loc} {l : Loc} {G1 : Log} {g1 g2 : List Rec}
    {G2 : Log} (hs : SplitAt 0 G A l B G1 g1 g2 G2) (r : Rec)
    (hr : r.item.id.length = l.r.item.id.length) (hp : r.item.previous = l.r.item.previous)
    (hok : RecOK s.dfiles (df { l with r := r }) r) (d : Dirty) :
    Core mode df { s with ifiles := writeFileAt s.ifiles l.file l.off (encItem r.item), dirty := d }
      (G1 ++ (g1 ++ r :: g2) :: G2) := by
  have hlocs : locs G = A ++ l :: B := by
    have := locs_replace hs l.r rfl
    rw [← hs.log] at this
    exact this
  have hlocs' : locs (G1 ++ (g1 ++ r :: g2) :: G2) = A ++ { l with r := r } :: B := locs_replace hs r hr
  have hlen : (G1 ++ (g1 ++ r :: g2) :: G2).length = G.length := by rw [hs.log]; simp
  have hprevs := h.prevs
  have hrecs := h.recs
  have hoffs := h.offs
  have hiprev := h.iprev
  rw [hlocs] at hprevs hrecs hoffs hiprev
  constructor
  · exact h.irep.replace hs r hr
  · rw [hlen]; exact h.iid
  · exact h.did
  · rw [hlen]; exact h.dlen
  · rw [hlen]; exact h.files
  · rw [hlocs']
    intro x hx
    simp only [List.mem_append, List.mem_cons] at hx
    rcases hx with hx | rfl | hx
    · exact hrecs x (by simp [hx])
    · exact hok
    · exact hrecs x (by simp [hx])
  · rw [hlocs']
    intro x hx
    simp only [List.mem_append, List.mem_cons] at hx
    rcases hx with hx | rfl | hx
    · exact hoffs x (by simp [hx])
    · exact hoffs l (by simp)
    · exact hoffs x (by simp [hx])
  · rw [hlocs']
    simp only
    rw [hiprev, lastOff_append, lastOff_append]; rfl
  · rw [hlocs']
    rw [PrevOK_append] at hprevs ⊢
    refine ⟨hprevs.1, ?_, hprevs.2.2⟩
    rw [← hprevs.2.1]; exact hp
  · intro i g f hg hf
    by_cases hi : i = G1.length
    · subst hi
      simp at hg
      have h1 := h.bound G1.length (g1 ++ l.r :: g2) f (by rw [hs.log]; simp) hf
      subst hg
      rw [isize_append] at h1 ⊢
      simp only [isize] at h1 ⊢
      rw [hr]; exact h1
    · apply h.bound i g f _ hf
      rw [hs.log]
      by_cases hlt : i < G1.length
      · rw [List.getElem?_append_left hlt] at hg ⊢; exact hg
      · rw [List.getElem?_append_right (by omega)] at hg ⊢
        obtain ⟨k, hk⟩ : ∃ k, i - G1.length = k + 1 := ⟨i - G1.length - 1, by omega⟩
        rw [hk] at hg ⊢; simpa using hg
  · exact h.dhead

/-! ### reading an item from disk -/

theorem Core.readItem {mode : Nat} {df : Loc → Nat} {s : Store} {G : Log} (h : Core mode df s G)
    {l : Loc} (hl : l ∈ locs G) :
    ∃ f, s.ifiles[l.file]? = some f ∧
      readExact f l.off (itemHdr + l.r.item.id.length) = some (encItem l.r.item) := by
  obtain ⟨pre, post, h1, h2⟩ := h.irep.at hl
  exact ⟨_, h1, readExact_at rfl h2.symm (by simp [itemHdr])⟩

end Zdb
