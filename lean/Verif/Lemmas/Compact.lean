/-
The pass of the compaction tool over the files of a namespace.
-/
import Verif.Spec.Compact
import Verif.Lemmas.UserRun
namespace Zdb.Compact

def ofRec (r : Rec) : Entry := (r.item, r.payload)

theorem record_length (p : Nat) (x : Entry) : (record p x).length = dhdrLen + x.1.id.length + (kept x).length := by
  simp [record, dhdrLen]; omega

theorem kept_length {fs : List Bytes} {df : Nat} {r : Rec} (h : RecOK fs df r) :
    (kept (ofRec r)).length = if isDeleted r.item.flags then 0 else r.item.length := by
  by_cases hx : isDeleted r.item.flags = true
  · simp [kept, ofRec, hx]
  · simp [kept, ofRec, hx, h.len]

theorem entry_ok {fs : List Bytes} {i : Nat} {d : Bytes} {r : Rec} (h : RecOK fs i r) (hd : fs[i]? = some d)
    (hi : r.item.dataid = i) (w : Work) :
    entry i d r.item w = some
      { index := w.index ++ encItem (item i w.offset (ofRec r)), data := w.data ++ record w.prev (ofRec r),
        offset := w.data.length % 2 ^ 32, prev := w.data.length % 2 ^ 32 } := by
  obtain ⟨p, hp, pre, post, h1, h2⟩ := h.data
  rw [hd] at h1
  have hwf := h.wf
  have hb : readExact d r.item.offset (dhdrLen + r.item.idlength + r.item.length) =
      some (encDHdr (recHdr p r) ++ (r.item.id ++ r.payload)) := by
    apply readExact_at (a := pre) (c := post) (Option.some.inj h1) h2.symm
    simp only [List.length_append, encDHdr_length, dhdrLen, h.len, hwf.1]; omega
  have hk := kept_length h
  unfold entry
  simp only [hi, ne_eq, not_true_eq_false, if_false, hb]
  rw [decDHdr_encDHdr_append _ (recHdr_wf h hp)]
  have hdrop : (encDHdr (recHdr p r) ++ (r.item.id ++ r.payload)).drop dhdrLen = r.item.id ++ r.payload := by
    rw [List.drop_left' (by simp [dhdrLen])]
  rw [hdrop]
  simp only [Option.some.injEq, Work.mk.injEq, and_true]
  refine ⟨?_, ?_⟩
  · simp only [item, hk]; rfl
  · congr 1
    rw [← hk]
    have htake : ∀ H : DHdr, (encDHdr H ++ (r.item.id ++ r.payload)).take (dhdrLen + r.item.idlength + (kept (ofRec r)).length)
        = encDHdr H ++ (r.item.id ++ kept (ofRec r)) := by
      intro H
      have e : r.item.id ++ r.payload = (r.item.id ++ kept (ofRec r)) ++ r.payload.drop (kept (ofRec r)).length := by
        rw [List.append_assoc]; congr 1
        by_cases hx : isDeleted r.item.flags = true <;> simp [kept, ofRec, hx]
      rw [e, ← List.append_assoc]
      apply List.take_left'
      simp only [List.length_append, encDHdr_length, dhdrLen, hwf.1]; omega
    rw [htake]
    simp only [record]
    congr 2
    by_cases hz : kept (ofRec r) = []
    · simp only [hz, List.length_nil, if_true, recHdr]; rfl
    · have hz' : ¬ (kept (ofRec r)).length = 0 := by simpa using hz
      have hv : kept (ofRec r) = r.payload := by
        by_cases hx : isDeleted r.item.flags = true
        · exact absurd (by simp [kept, ofRec, hx]) hz
        · simp [kept, ofRec, hx]
      simp only [if_neg hz, if_neg hz', recHdr]
      rw [hv, h.len, h.crc]; rfl

theorem decItem_bare (it : Item) (h : it.WF) : decItem (encItem { it with id := [] }) = { it with id := [] } := by
  obtain ⟨h0, h1, h2, h3, h4, h5, h6, h7, h8, h9, h10⟩ := h
  have hid : it.idlength < 256 := by omega
  cases it
  simp_all [decItem, encItem, pread_skip, pread_head, pread_all, fromLE_toLE1, fromLE_toLE4, drop_toLE]

theorem entries_ok {fs : List Bytes} {i : Nat} {d f : Bytes} (hd : fs[i]? = some d) :
    ∀ (g : List Rec) (pre : Bytes) (fuel : Nat) (w : Work), f = pre ++ g.flatMap (fun r => encItem r.item) →
      g.length < fuel → (∀ r ∈ g, RecOK fs i r ∧ r.item.dataid = i) →
      entries i f d fuel pre.length w = some
        { index := w.index ++ (late i w.offset w.data.length (g.map ofRec)).flatMap encItem,
          data := w.data ++ records w.prev w.data.length (g.map ofRec),
          offset := lastPos w.offset w.data.length (g.map ofRec),
          prev := lastPos w.prev w.data.length (g.map ofRec) }
  | [], pre, fuel + 1, w, hf, _, _ => by
    have : readExact f pre.length itemHdr = none := by
      apply readExact_eq_none (by decide); rw [hf]; simp [itemHdr]
    simp [entries, this, late, records, lastPos]
  | r :: g, pre, fuel + 1, w, hf, hl, hr => by
    obtain ⟨h, hi⟩ := hr r (List.mem_cons_self ..)
    have hwf := h.wf
    have hf' : f = pre ++ (encItem r.item ++ g.flatMap (fun r => encItem r.item)) := by rw [hf]; simp
    have hsplit : encItem r.item = encItem { r.item with id := [] } ++ r.item.id := by simp [encItem]
    have hl34 : (encItem { r.item with id := [] }).length = 34 := by simp [encItem]
    have hdec := decItem_bare r.item hwf
    generalize encItem { r.item with id := [] } = hd34 at hsplit hl34 hdec
    have hb : readExact f pre.length itemHdr = some hd34 := by
      apply readExact_at (a := pre) (c := r.item.id ++ g.flatMap (fun r => encItem r.item)) (by rw [hf', hsplit]; simp) rfl
      rw [hl34]; rfl
    have hid : readExact f (pre.length + itemHdr) r.item.idlength = some r.item.id := by
      apply readExact_at (a := pre ++ hd34) (c := g.flatMap (fun r => encItem r.item)) (by rw [hf', hsplit]; simp)
      · simp [hl34, itemHdr]
      · exact hwf.1
    unfold entries
    simp only [hb, hdec, hid]
    rw [show ({ r.item with id := r.item.id } : Item) = r.item from rfl, entry_ok h hd hi]
    simp only
    rw [show pre.length + itemHdr + r.item.idlength = (pre ++ encItem r.item).length by
      rw [hsplit]; simp [hl34, itemHdr, hwf.1]; omega]
    rw [entries_ok hd g (pre ++ encItem r.item) fuel _ (by rw [hf']; simp) (by simp at hl; omega)
      (fun r h => hr r (List.mem_cons_of_mem _ h))]
    simp only [List.map_cons, late, records, lastPos, List.flatMap_cons, List.length_append, List.append_assoc, record_length]

theorem entries_die {fs : List Bytes} {i : Nat} {d f : Bytes} (hd : fs[i]? = some d) :
    ∀ (g : List Rec) (pre : Bytes) (fuel : Nat) (w : Work), f = pre ++ g.flatMap (fun r => encItem r.item) →
      g.length < fuel → (∀ r ∈ g, r.item.WF ∧ (r.item.dataid = i → RecOK fs i r)) → (∃ r ∈ g, r.item.dataid ≠ i) → entries i f d fuel pre.length w = none
  | [], _, _, _, _, _, _, hx => by simp at hx
  | r :: g, pre, fuel + 1, w, hf, hl, hr, hx => by
    obtain ⟨hwf, h⟩ := hr r (List.mem_cons_self ..)
    have hf' : f = pre ++ (encItem r.item ++ g.flatMap (fun r => encItem r.item)) := by rw [hf]; simp
    have hsplit : encItem r.item = encItem { r.item with id := [] } ++ r.item.id := by simp [encItem]
    have hl34 : (encItem { r.item with id := [] }).length = 34 := by simp [encItem]
    have hdec := decItem_bare r.item hwf
    generalize encItem { r.item with id := [] } = hd34 at hsplit hl34 hdec
    have hb : readExact f pre.length itemHdr = some hd34 := by
      apply readExact_at (a := pre) (c := r.item.id ++ g.flatMap (fun r => encItem r.item)) (by rw [hf', hsplit]; simp) rfl
      rw [hl34]; rfl
    have hid : readExact f (pre.length + itemHdr) r.item.idlength = some r.item.id := by
      apply readExact_at (a := pre ++ hd34) (c := g.flatMap (fun r => encItem r.item)) (by rw [hf', hsplit]; simp)
      · simp [hl34, itemHdr]
      · exact hwf.1
    unfold entries
    simp only [hb, hdec, hid]
    rw [show ({ r.item with id := r.item.id } : Item) = r.item from rfl]
    by_cases hi : r.item.dataid = i
    · rw [entry_ok (h hi) hd hi]
      simp only
      rw [show pre.length + itemHdr + r.item.idlength = (pre ++ encItem r.item).length by
        rw [hsplit]; simp [hl34, itemHdr, hwf.1]; omega]
      apply entries_die hd g (pre ++ encItem r.item) fuel _ (by rw [hf']; simp) (by simp at hl; omega)
        (fun r h => hr r (List.mem_cons_of_mem _ h))
      obtain ⟨q, hq, hn⟩ := hx
      rcases List.mem_cons.1 hq with rfl | hq
      · exact absurd hi hn
      · exact ⟨q, hq, hn⟩
    · simp only [entry, ne_eq, hi, not_false_eq_true, if_true]

/-- One file of the namespace. -/
structure FileOK (m : Nat) (fs : List Bytes) (i : Nat) (g : List Rec) (f d : Bytes) : Prop where
  index : f = encFile m i g
  data : fs[i]? = some d
  head : ∃ t, d = encDFHeader (freshDFHeader i) ++ t
  small : i < 2 ^ 32
  recs : ∀ r ∈ g, r.item.WF ∧ (r.item.dataid = i → RecOK fs i r)

theorem FileOK.fuel {m : Nat} {fs : List Bytes} {i : Nat} {g : List Rec} {f d : Bytes} (h : FileOK m fs i g f d) : g.length < f.length + 1 := by
  have e : f.length = 29 + isize g := by rw [h.index]; exact encFile_length ..
  have : ∀ g : List Rec, g.length ≤ isize g := by
    intro g
    induction g with
    | nil => simp
    | cons r g ih => simp only [List.length_cons, isize]; omega
  have := this g
  omega

theorem FileOK.start {m : Nat} {fs : List Bytes} {i : Nat} {g : List Rec} {f d : Bytes} (h : FileOK m fs i g f d) (prev : Nat) :
    readExact d 0 dfhdrLen = some (encDFHeader (freshDFHeader i)) ∧
    pass i prev f d = entries i f d (f.length + 1) ihdrLen
      { index := encIHeader (freshIHeader i m), data := encDFHeader (freshDFHeader i), offset := dfhdrLen, prev := prev } := by
  obtain ⟨t, ht⟩ := h.head
  have h1 : readExact d 0 dfhdrLen = some (encDFHeader (freshDFHeader i)) :=
    readExact_at (a := []) (c := t) (by simpa using ht) rfl (by simp [encDFHeader, dfhdrLen, freshDFHeader, datMagic])
  have h2 : readExact f 0 ihdrLen = some (encIHeader (freshIHeader i m)) :=
    readExact_at (a := []) (c := g.flatMap (fun r => encItem r.item)) (by simpa [encFile] using h.index) rfl (by simp [ihdrLen])
  exact ⟨h1, by simp only [pass, h1, h2]⟩

theorem freshDF_valid {i : Nat} (hi : i < 2 ^ 32) :
    ¬ ((decDFHeader (encDFHeader (freshDFHeader i))).magic ≠ datMagic ∨ (decDFHeader (encDFHeader (freshDFHeader i))).version ≠ 3) := by
  rw [decDFHeader_encDFHeader _ (by refine ⟨rfl, by simp [freshDFHeader], by simp [freshDFHeader], by simp [freshDFHeader], hi⟩)]
  simp [freshDFHeader]

theorem FileOK.pass_ok {m : Nat} {fs : List Bytes} {i : Nat} {g : List Rec} {f d : Bytes} (h : FileOK m fs i g f d) (prev : Nat)
    (hi : ∀ r ∈ g, r.item.dataid = i) :
    ∃ w, pass i prev f d = some w ∧
      w.index = encIHeader (freshIHeader i m) ++ (late i dfhdrLen dfhdrLen (g.map ofRec)).flatMap encItem ∧
      w.data = encDFHeader (freshDFHeader i) ++ records prev dfhdrLen (g.map ofRec) ∧
      w.prev = lastPos prev dfhdrLen (g.map ofRec) := by
  rw [(h.start prev).2]
  have hl : ihdrLen = (encIHeader (freshIHeader i m)).length := by simp [ihdrLen]
  have hdl : (encDFHeader (freshDFHeader i)).length = dfhdrLen := by simp [encDFHeader, dfhdrLen, freshDFHeader, datMagic]
  rw [hl, entries_ok h.data g _ _ _ (by rw [h.index]; rfl) h.fuel (fun r hr => ⟨(h.recs r hr).2 (hi r hr), hi r hr⟩)]
  exact ⟨_, rfl, by rw [hdl], by rw [hdl], by rw [hdl]⟩

theorem FileOK.pass_die {m : Nat} {fs : List Bytes} {i : Nat} {g : List Rec} {f d : Bytes} (h : FileOK m fs i g f d) (prev : Nat)
    (hi : ∃ r ∈ g, r.item.dataid ≠ i) : pass i prev f d = none := by
  rw [(h.start prev).2]
  have hl : ihdrLen = (encIHeader (freshIHeader i m)).length := by simp [ihdrLen]
  rw [hl, entries_die h.data g _ _ _ (by rw [h.index]; rfl) h.fuel h.recs hi]

theorem mem_locsIn {file off : Nat} {g : List Rec} {r : Rec} (h : r ∈ g) : ∃ l ∈ locsIn file off g, l.r = r ∧ l.file = file := by
  induction g generalizing off with
  | nil => simp at h
  | cons q g ih =>
    rcases List.mem_cons.1 h with rfl | h
    · exact ⟨_, List.mem_cons_self .., rfl, rfl⟩
    · obtain ⟨l, hl, e⟩ := ih (off := off + (34 + q.item.id.length)) h
      exact ⟨l, List.mem_cons_of_mem _ hl, e⟩

theorem mem_locsFrom {i j : Nat} {G : Log} {g : List Rec} {r : Rec} (hg : G[j]? = some g) (h : r ∈ g) :
    ∃ l ∈ locsFrom i G, l.r = r ∧ l.file = i + j := by
  induction G generalizing i j with
  | nil => simp at hg
  | cons g0 G ih =>
    cases j with
    | zero =>
      simp only [List.getElem?_cons_zero, Option.some.injEq] at hg
      subst hg
      obtain ⟨l, hl, e⟩ := mem_locsIn (file := i) (off := 29) h
      exact ⟨l, List.mem_append_left _ hl, e⟩
    | succ j =>
      obtain ⟨l, hl, e1, e2⟩ := ih (i := i + 1) (by simpa using hg)
      exact ⟨l, List.mem_append_right _ hl, e1, by omega⟩

theorem fileOK {m : Nat} {df : Loc → Nat} {s : Store} {G : Log} (h : Core m df s G)
    (hdf : ∀ l ∈ locs G, l.r.item.dataid = l.file → df l = l.file) {i : Nat} {g : List Rec} (hg : G[i]? = some g) :
    ∃ f d, s.ifiles[i]? = some f ∧ s.dfiles[i]? = some d ∧ FileOK m s.dfiles i g f d := by
  have hlt : i < G.length := (List.getElem?_eq_some_iff.1 hg).1
  obtain ⟨d, hd⟩ : ∃ d, s.dfiles[i]? = some d := ⟨s.dfiles[i]'(by rw [h.dlen]; exact hlt), List.getElem?_eq_getElem _⟩
  refine ⟨encFile m i g, d, ?_, hd, rfl, hd, h.dhead i d hd, ?_, ?_⟩
  · rw [h.irep, List.getElem?_mapIdx, hg]; rfl
  · have := h.files; omega
  · intro r hr
    obtain ⟨l, hl, rfl, e⟩ := mem_locsFrom (i := 0) hg hr
    have hr := h.recs l hl
    refine ⟨hr.wf, fun hd => ?_⟩
    rw [hdf l hl (by rw [hd, e, Nat.zero_add]), e, Nat.zero_add] at hr
    exact hr

/-- The records of every file are in the data file of the same number, as the items tell. -/
def AllHere (i : Nat) (G : Log) : Prop := ∀ j g, G[j]? = some g → ∀ r ∈ g, r.item.dataid = i + j

theorem loop_spec {m : Nat} {df : Loc → Nat} {s : Store} {G : Log} (h : Core m df s G)
    (hdf : ∀ l ∈ locs G, l.r.item.dataid = l.file → df l = l.file) : ∀ (n i prev : Nat), i + n = G.length →
    (AllHere i (G.drop i) → loop i prev ((s.ifiles.zip s.dfiles).drop i) =
      some (layout m i prev ((G.drop i).map (·.map ofRec)))) ∧
    (¬ AllHere i (G.drop i) → loop i prev ((s.ifiles.zip s.dfiles).drop i) = none) := by
  intro n
  induction n with
  | zero =>
    intro i prev hi
    have hG : G.drop i = [] := List.drop_of_length_le (by omega)
    have hZ : (s.ifiles.zip s.dfiles).drop i = [] := by
      apply List.drop_of_length_le
      rw [List.length_zip, h.irep.length, h.dlen]; omega
    rw [hG, hZ]
    exact ⟨fun _ => rfl, fun hn => absurd (fun j g hg => by simp at hg) hn⟩
  | succ n ih =>
    intro i prev hi
    have hlt : i < G.length := by omega
    have hg : G[i]? = some G[i] := List.getElem?_eq_getElem hlt
    obtain ⟨f, d, hf, hd, ok⟩ := fileOK h hdf hg
    have hG : G.drop i = G[i] :: G.drop (i + 1) := List.drop_eq_getElem_cons hlt
    have hz : (s.ifiles.zip s.dfiles)[i]? = some (f, d) := by rw [List.getElem?_zip_eq_some]; exact ⟨hf, hd⟩
    obtain ⟨hzl, hze⟩ := List.getElem?_eq_some_iff.1 hz
    have hZ : (s.ifiles.zip s.dfiles).drop i = (f, d) :: (s.ifiles.zip s.dfiles).drop (i + 1) := by
      rw [List.drop_eq_getElem_cons hzl, hze]
    rw [hZ, hG]
    unfold loop
    simp only [(ok.start prev).1]
    rw [if_neg (freshDF_valid ok.small)]
    by_cases hh : ∀ r ∈ G[i], r.item.dataid = i
    · obtain ⟨w, hw, e1, e2, e3⟩ := ok.pass_ok prev hh
      simp only [hw]
      obtain ⟨i1, i2⟩ := ih (i + 1) w.prev (by omega)
      have hall : AllHere i (G[i] :: G.drop (i + 1)) ↔ AllHere (i + 1) (G.drop (i + 1)) := by
        constructor
        · intro a j g hj r hr
          have := a (j + 1) g (by rwa [List.getElem?_cons_succ]) r hr
          omega
        · intro a j g hj r hr
          cases j with
          | zero => simp only [List.getElem?_cons_zero, Option.some.injEq] at hj; subst hj; simpa using hh r hr
          | succ j => have := a j g (by rwa [List.getElem?_cons_succ] at hj) r hr; omega
      rw [hall]
      constructor
      · intro a
        rw [i1 a, Option.map_some, e1, e2, e3]
        rfl
      · intro a
        rw [i2 a]; rfl
    · have hx : ∃ r ∈ G[i], r.item.dataid ≠ i := by
        apply Classical.byContradiction
        intro hc
        exact hh (fun r hr => Classical.byContradiction fun hn => hc ⟨r, hr, hn⟩)
      rw [ok.pass_die prev hx]
      refine ⟨fun a => absurd (fun r hr => ?_) hh, fun _ => rfl⟩
      simpa using a 0 _ (by simp) r hr

end Zdb.Compact
