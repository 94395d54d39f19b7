/-
Loading the files of a namespace gives back the log: parts common to both modes.
-/
import Verif.Model.Loader
import Verif.Lemmas.Core
namespace Zdb

/-! ### cutting the buffer -/

theorem parseItems_enc (g : List Rec) (hwf : ∀ r ∈ g, r.item.WF) (fuel : Nat)
    (hf : isize g < fuel) :
    parseItems fuel (g.flatMap (fun r => encItem r.item)) = some (g.map Rec.item) := by
  induction g generalizing fuel with
  | nil =>
    cases fuel with
    | zero => omega
    | succ n => simp [parseItems]
  | cons r g ih =>
    simp only [isize] at hf
    cases fuel with
    | zero => omega
    | succ n =>
      have hr := hwf r (by simp)
      have hlen := encItem_length r.item
      have h1 : fromLE (pread (encItem r.item ++ g.flatMap (fun r => encItem r.item)) 0 1) =
          r.item.id.length := by
        have h2 : pread (encItem r.item ++ g.flatMap (fun r => encItem r.item)) 0 1 =
            toLE 1 r.item.idlength := by
          rw [encItem, List.append_assoc]
          exact pread_head _ _ _ (by simp)
        rw [h2, hr.1]
        exact fromLE_toLE1 hr.2.1
      have hne : encItem r.item ++ g.flatMap (fun r => encItem r.item) ≠ [] := by
        intro h0
        have := congrArg List.length h0
        simp at this
      simp only [List.flatMap_cons, parseItems, if_neg hne, h1, itemHdr]
      rw [if_neg (by simp), ← hlen, List.drop_left, List.take_left,
        ih (fun x hx => hwf x (by simp [hx])) n (by omega), decItem_encItem _ hr]
      rfl

/-! ### ids -/

theorem indexSetId_foldl (ids : List Nat) (s : Store) :
    ∃ i d, ids.foldl indexSetId s = { s with indexid := i, dirty := d } := by
  induction ids generalizing s with
  | nil => exact ⟨s.indexid, s.dirty, rfl⟩
  | cons a ids ih =>
    obtain ⟨i, d, h⟩ := ih (indexSetId s a)
    exact ⟨i, d, by rw [List.foldl_cons, h]; rfl⟩

/-! ### one file -/

theorem decIHeader_encFile (mode i : Nat) (hm : mode < 256) (hi : i < 2 ^ 32) (g : List Rec) :
    decIHeader (encFile mode i g) = freshIHeader i mode := by
  have hw : (freshIHeader i mode).WF := by
    refine ⟨rfl, ?_, ?_, ?_, hi, hm⟩ <;> simp [freshIHeader]
  have h1 := decIHeader_encIHeader _ hw
  have hp : ∀ (t : Bytes) (off len : Nat), off + len ≤ 29 →
      pread (encIHeader (freshIHeader i mode) ++ t) off len =
        pread (encIHeader (freshIHeader i mode)) off len := by
    intro t off len h
    exact pread_append_left (by rw [freshIHeader_length]; exact h)
  rw [encFile]
  unfold decIHeader
  rw [hp _ 0 4 (by omega), hp _ 4 4 (by omega), hp _ 8 8 (by omega), hp _ 16 8 (by omega),
    hp _ 24 4 (by omega), hp _ 28 1 (by omega)]
  exact h1

theorem pwrite_same (a c : Bytes) : pwrite (a ++ c) 0 a = a ++ c := by
  have := pwrite_at' (f := a ++ c) (a := []) (b := a) (b' := a) (c := c) (off := 0) (by simp) rfl rfl
  rw [this]; simp

theorem loadFile_encFile (cfg : Option Mode) (br : Branches) (s : Store) (u : Nat) (m : Mode)
    (g : List Rec) (hcfg : cfg = none ∨ cfg = some m) (hi : s.indexid < 2 ^ 32)
    (hf : s.ifiles[s.indexid]? = some (encFile m.byte s.indexid g))
    (hwf : ∀ r ∈ g, r.item.WF) :
    loadFile cfg br s u =
      .next (replayItems br { rehash { s with mode := m } with nextid := 0 } u 29 (g.map Rec.item)).1
        (replayItems br { rehash { s with mode := m } with nextid := 0 } u 29 (g.map Rec.item)).2 := by
  have hm : m.byte < 256 := by cases m <;> decide
  have hlen : (encFile m.byte s.indexid g).length = 29 + isize g := encFile_length _ _ _
  unfold loadFile
  simp only [hf, Option.getD_some]
  rw [if_neg (by omega), if_neg (by rw [hlen, ihdrLen]; omega)]
  unfold loadBody
  simp only [decIHeader_encFile m.byte s.indexid hm hi g]
  have hmode : applyMode s.mode (freshIHeader s.indexid m.byte).mode = m := by
    cases m <;> rfl
  rw [if_neg (by simp [freshIHeader])]
  rw [hmode]
  have hpw : pwrite (encFile m.byte s.indexid g) 0
      (encIHeader { freshIHeader s.indexid m.byte with opened := 0 }) = encFile m.byte s.indexid g := by
    rw [encFile]
    exact pwrite_same _ _
  have hlt : s.indexid < s.ifiles.length := (List.getElem?_eq_some_iff.1 hf).1
  have hset : s.ifiles.set s.indexid (encFile m.byte s.indexid g) = s.ifiles := by
    apply List.ext_getElem?
    intro j
    rw [List.getElem?_set]
    by_cases hj : s.indexid = j
    · subst hj; simp only [if_true, hlt, hf]
    · simp [hj]
  have hc : cfg.any (fun x => decide (x.byte ≠ (freshIHeader s.indexid m.byte).mode)) = false := by
    rcases hcfg with rfl | rfl <;> simp [freshIHeader]
  have hitems : (encFile m.byte s.indexid g).drop ihdrLen = g.flatMap (fun r => encItem r.item) := by
    rw [encFile, ihdrLen, ← freshIHeader_length s.indexid m.byte, List.drop_left]
  rw [hpw]
  simp only [hc, hitems, hlen]
  rw [parseItems_enc g hwf _ (by omega)]
  have hst : (if (rehash { s with mode := m }).indexid < (rehash { s with mode := m }).ifiles.length then
          (rehash { s with mode := m }).ifiles.set (rehash { s with mode := m }).indexid (encFile m.byte s.indexid g)
        else (rehash { s with mode := m }).ifiles ++ [encFile m.byte s.indexid g]) =
      (rehash { s with mode := m }).ifiles := by
    have e1 : (rehash { s with mode := m }).ifiles = s.ifiles := rfl
    have e2 : (rehash { s with mode := m }).indexid = s.indexid := rfl
    rw [e1, e2, if_pos hlt, hset]
  simp only [hst, Bool.false_eq_true, if_false, ihdrLen]

/-! ### data file -/

theorem dataOpen_same {s : Store} (hlt : s.indexid < s.dfiles.length)
    (hh : ∃ t, s.dfiles[s.indexid]? = some (encDFHeader (freshDFHeader s.indexid) ++ t)) :
    ∃ p, dataOpen s s.indexid = { s with dataid := s.indexid, dprev := p } := by
  obtain ⟨t, ht⟩ := hh
  have h1 : dataInitialize s.dfiles s.indexid = s.dfiles := by
    unfold dataInitialize
    simp only
    rw [if_pos hlt, writeFileAt]
    apply List.ext_getElem?
    intro j
    rw [List.getElem?_modify]
    by_cases hj : s.indexid = j
    · subst hj; simp [ht, pwrite_same]
    · simp [hj]
  unfold dataOpen
  simp only [h1]
  exact ⟨_, rfl⟩

end Zdb
