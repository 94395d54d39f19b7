/-
Loading keeps the data files and their number, in any mode.
-/
import Verif.Lemmas.DataExt
import Verif.Lemmas.Loader
import Verif.Lemmas.Fresh
import Verif.Model.Node
namespace Zdb

theorem replayItem_kept (br : Branches) (s : Store) (u off : Nat) (it : Item) :
    SameData s (replayItem br s u off it).2 := by
  unfold replayItem
  have hu : ∀ t : Store, SameData t (replayUser br t u off it).2 := by
    intro t
    unfold replayUser insertMemUser updateStats
    dsimp only
    repeat' split
    all_goals exact ⟨rfl, rfl, rfl, .refl _⟩
  have hq : ∀ t : Store, SameData t (replaySeq t it) := by
    intro t
    unfold replaySeq
    dsimp only
    split <;> exact ⟨rfl, rfl, rfl, .refl _⟩
  dsimp only
  generalize ht : (if off = ihdrLen then { s with seqmap := s.seqmap.map (· ++ [(s.nextentry, s.indexid)]) } else s : Store) = t
  have h1 : SameData s t := by rw [← ht]; split <;> exact ⟨rfl, rfl, rfl, .refl _⟩
  cases t.mode
  · have := h1.trans (hu t); exact ⟨this.df, this.did, this.iid, this.il⟩
  · have := h1.trans (hq t); exact ⟨this.df, this.did, this.iid, this.il⟩

theorem replayItems_kept (its : List Item) (br : Branches) (s : Store) (u off : Nat) :
    SameData s (replayItems br s u off its).2 := by
  induction its generalizing br s off with
  | nil => exact .refl _
  | cons it its ih =>
    unfold replayItems
    have := replayItem_kept br s u off it
    generalize replayItem br s u off it = x at this
    obtain ⟨b, t⟩ := x
    exact SameData.trans this (ih _ _ _)

/-- What `index_load_file` leaves. -/
def FileRes.same (s : Store) : FileRes → Prop
  | .next _ t => SameData s t
  | .stop _ _ => False
  | _ => True

theorem loadBody_files (cfg : Option Mode) (br : Branches) (s : Store) (u : Nat) {f : Bytes} (hf : f ≠ [])
    (hi : s.indexid < s.ifiles.length) : (loadBody cfg br s u f false).same s := by
  unfold loadBody
  dsimp only
  split
  · exact trivial
  split
  · exact trivial
  split
  · exact trivial
  rename_i its _
  have h0 : SameData s { rehash { s with mode := applyMode s.mode (decIHeader f).mode } with
    ifiles := (if s.indexid < s.ifiles.length then s.ifiles.set s.indexid (pwrite f 0 (encIHeader { decIHeader f with opened := 0 }))
               else s.ifiles ++ [pwrite f 0 (encIHeader { decIHeader f with opened := 0 })])
    nextid := 0 } := by
    refine ⟨rfl, rfl, rfl, ?_⟩
    rw [if_pos hi]
    refine ⟨by simp, fun h g hg => ?_⟩
    rcases List.mem_or_eq_of_mem_set hg with hg | hg
    · exact h g hg
    · rw [hg]
      intro h1
      have h2 : (pwrite f 0 (encIHeader { decIHeader f with opened := 0 })).length = 0 := by rw [h1]; rfl
      unfold pwrite at h2
      have : 0 < f.length := List.length_pos_iff.2 hf
      simp only [List.length_append, List.length_drop, encIHeader_length] at h2
      omega
  have := replayItems_kept its br { rehash { s with mode := applyMode s.mode (decIHeader f).mode } with
    ifiles := (if s.indexid < s.ifiles.length then s.ifiles.set s.indexid (pwrite f 0 (encIHeader { decIHeader f with opened := 0 }))
               else s.ifiles ++ [pwrite f 0 (encIHeader { decIHeader f with opened := 0 })])
    nextid := 0 } u ihdrLen
  exact h0.trans this

theorem loadFile_files (cfg : Option Mode) (br : Branches) (s : Store) (u : Nat) (h : ∀ f ∈ s.ifiles, f ≠ [])
    (hi : s.indexid < s.ifiles.length) : (loadFile cfg br s u).same s := by
  unfold loadFile
  have hf : s.ifiles[s.indexid] ≠ [] := h _ (List.getElem_mem hi)
  have hl : (s.ifiles[s.indexid]).length ≠ 0 := by
    have := List.length_pos_iff.2 hf; omega
  simp only [List.getElem?_eq_getElem hi, Option.getD_some, if_neg hl]
  split
  · exact trivial
  · exact loadBody_files cfg br s u hf hi

theorem loadLoop_files (cfg : Option Mode) (u : Nat) (ids : List Nat) (br : Branches) (s : Store)
    (h : ∀ f ∈ s.ifiles, f ≠ []) (hids : ∀ id ∈ ids, id < s.ifiles.length) {br' : Branches} {s' : Store}
    (hl : loadLoop cfg u ids br s = .ok br' s') :
    s'.dfiles = s.dfiles ∧ Fuller s.ifiles s'.ifiles ∧ s'.indexid = (ids.getLast?).getD s.indexid := by
  induction ids generalizing br s with
  | nil =>
    simp only [loadLoop, LoadRes.ok.injEq] at hl
    obtain ⟨-, rfl⟩ := hl
    exact ⟨rfl, .refl _, rfl⟩
  | cons id ids ih =>
    have hid := hids id (List.mem_cons_self ..)
    have hk := loadFile_files cfg br (indexSetId s id) u h hid
    unfold loadLoop at hl
    generalize loadFile cfg br (indexSetId s id) u = x at hk hl
    cases x with
    | next b t =>
      simp only [FileRes.same] at hk
      have e1 : Fuller s.ifiles t.ifiles := hk.il
      obtain ⟨i1, i2, i3⟩ := ih b t (e1.ne h) (fun i hi => by rw [e1.len]; exact hids i (List.mem_cons_of_mem _ hi)) hl
      refine ⟨i1.trans hk.df, e1.trans i2, ?_⟩
      rw [i3]
      cases ids with
      | nil => exact hk.iid
      | cons a l =>
        rw [List.getLast?_cons_cons]
        cases hh : (a :: l).getLast? with
        | none => simp at hh
        | some x => rfl
    | stop b t => exact absurd hk (by simp [FileRes.same])
    | exit => cases hl
    | ub => cases hl

theorem indexSetId_files (l : List Nat) (s : Store) :
    (l.foldl indexSetId s).ifiles = s.ifiles ∧ (l.foldl indexSetId s).dfiles = s.dfiles := by
  induction l generalizing s with
  | nil => exact ⟨rfl, rfl⟩
  | cons a l ih => exact ih _

/-- Loading a namespace whose files are in step. -/
theorem loadNs_files {cfg : Option Mode} {br br' : Branches} {u : Nat} {s s' : Store} (hs : InStep s) (hh : Headed s)
    (hcap : s.indexid + 1 < 2 ^ 32) (h : loadNs cfg br u s.ifiles s.dfiles = .ok br' s') : InStep s' ∧ Headed s' ∧ s'.dfiles = s.dfiles := by
  have hi := hs.i
  have hd := hs.d
  have hsame := hs.same
  have hn : maxFiles s.ifiles = s.indexid + 1 := by unfold maxFiles; omega
  unfold loadNs at h
  simp only [hn, if_pos (Nat.succ_pos _), gt_iff_lt] at h
  obtain ⟨f1, f2⟩ := indexSetId_files (List.range (s.indexid + 1 + 1)) (initRoot cfg s.ifiles s.dfiles)
  have g1 : (initRoot cfg s.ifiles s.dfiles).ifiles = s.ifiles := rfl
  have g2 : (initRoot cfg s.ifiles s.dfiles).dfiles = s.dfiles := rfl
  rw [g1] at f1
  rw [g2] at f2
  generalize (List.range (s.indexid + 1 + 1)).foldl indexSetId (initRoot cfg s.ifiles s.dfiles) = t at h f1 f2
  cases hr : loadLoop cfg u (List.range (s.indexid + 1)) br t with
  | exit => rw [hr] at h; exact absurd h (by simp)
  | ub => rw [hr] at h; exact absurd h (by simp)
  | ok b v =>
    rw [hr] at h
    simp only [LoadRes.ok.injEq] at h
    obtain ⟨-, rfl⟩ := h
    obtain ⟨l1, l2, l3⟩ := loadLoop_files cfg u (List.range (s.indexid + 1)) br t (by rw [f1]; exact hh.i)
      (fun i hi' => by rw [f1, hi]; exact List.mem_range.1 hi') hr
    rw [List.range_succ, List.getLast?_append] at l3
    simp only [List.getLast?_singleton, Option.some_or, Option.getD_some] at l3
    rw [f2] at l1
    rw [f1] at l2
    have hdf : (dataOpen v v.indexid).dfiles = s.dfiles := by
      have e : (dataOpen v v.indexid).dfiles = dataInitialize v.dfiles v.indexid := rfl
      rw [e, l1, l3]
      unfold dataInitialize
      have hlt : s.indexid < s.dfiles.length := by omega
      simp only [if_pos hlt]
      unfold writeFileAt
      obtain ⟨x, hx⟩ := hh.d s.indexid _ (List.getElem?_eq_getElem hlt)
      apply List.ext_getElem?
      intro j
      rw [List.getElem?_modify]
      by_cases hj : s.indexid = j
      · subst hj
        simp only [if_true, List.getElem?_eq_getElem hlt, Option.map_eq_map, Option.map_some]
        rw [hx, pwrite_same]
      · simp [if_neg hj]
    have hif : (dataOpen v v.indexid).ifiles = v.ifiles := rfl
    refine ⟨⟨?_, ?_, ?_⟩, ⟨?_, ?_⟩, hdf⟩
    · rw [hdf]; show s.dfiles.length = v.indexid + 1; omega
    · rw [hif, l2.len]; show s.ifiles.length = v.indexid + 1; omega
    · rfl
    · rw [hif]; exact l2.ne hh.i
    · rw [hdf]; exact hh.d

theorem reloadNs_files {cfg : Option Mode} {br br' : Branches} {u : Nat} {s s' : Store} (hs : InStep s) (hh : Headed s)
    (hcap : s.indexid + 1 < 2 ^ 32) (h : reloadNs cfg br u s = .ok br' s') : InStep s' ∧ Headed s' ∧ s'.dfiles = s.dfiles := by
  unfold reloadNs at h
  exact loadNs_files hs hh hcap h

theorem freshStore_files (m : Mode) : InStep (freshStore m) ∧ Headed (freshStore m) := by
  cases m <;> refine ⟨⟨rfl, rfl, rfl⟩, ⟨?_, ?_⟩⟩
  all_goals first
    | (intro f hf
       simp only [freshStore, List.mem_singleton] at hf
       rw [hf]; simp [encIHeader, toLE])
    | (intro i f hf
       have hi : i = 0 := by
         have := (List.getElem?_eq_some_iff.1 hf).1
         simp [freshStore] at this; omega
       subst hi
       simp only [freshStore, List.getElem?_cons_zero, Option.some.injEq] at hf
       exact ⟨[], by rw [← hf]; simp⟩)

/-- What happens to the files of one namespace in an event. -/
structure Keeps (s s' : Store) : Prop where
  step : InStep s'
  headed : Headed s'
  ext : DataExt s s'
  next : s'.indexid ≤ s.indexid + 1

theorem Ext.keeps {s s' : Store} (h : Ext s s') (hh : Headed s) : Keeps s s' := ⟨h.step, h.headed hh, h.ext, h.next⟩

theorem Keeps.refl {s : Store} (hs : InStep s) (hh : Headed s) : Keeps s s := (Ext.refl hs).keeps hh

theorem keeps_of_dfiles {s s' : Store} (hs : InStep s) (h1 : InStep s') (h2 : Headed s') (h3 : s'.dfiles = s.dfiles) : Keeps s s' := by
  have e : s'.dataid = s.dataid := by
    have a1 := hs.d
    have a2 := h1.d
    rw [h3] at a2
    omega
  refine ⟨h1, h2, ⟨by omega, fun i f hf => ⟨[], by rw [h3]; simpa using hf, fun _ => rfl⟩⟩, ?_⟩
  have b1 := hs.same
  have b2 := h1.same
  omega

/-- Executions of one namespace, in any mode, whatever writes fail. -/
theorem NsRun.keeps {cfg : Option Mode} {u : Nat} {br br' : Branches} {s s' : Store} {tr : List (NsEvent × Reply)}
    (h : NsRun cfg u br s tr br' s') (hs : InStep s) (hh : Headed s) (hcap : s.indexid + tr.length < 2 ^ 32 - 1) :
    InStep s' ∧ Headed s' ∧ DataExt s s' ∧ s'.indexid ≤ s.indexid + tr.length := by
  induction h with
  | nil br s => exact ⟨hs, hh, DataExt.refl _, by simp⟩
  | @cmd c d argv br br1 br2 s s1 s2 r tr hu h1 h2 ih =>
    simp only [List.length_cons] at hcap ⊢
    have he := dsCommand_ext c br hs (by omega) d argv
    rw [h1] at he
    have hn := he.next
    obtain ⟨i1, i2, i3, i4⟩ := ih he.step (he.headed hh) (by simp only at hn; omega)
    exact ⟨i1, i2, he.ext.trans i3, by simp only at hn; omega⟩
  | @foreign br br1 br2 s s2 tr h1 h2 ih =>
    simp only [List.length_cons] at hcap ⊢
    obtain ⟨i1, i2, i3, i4⟩ := ih hs hh (by omega)
    exact ⟨i1, i2, i3, by omega⟩
  | @reload br br1 br2 s s1 s2 tr h1 h2 ih =>
    simp only [List.length_cons] at hcap ⊢
    obtain ⟨k1, k2, k3⟩ := reloadNs_files hs hh (by omega) h1
    have hk := keeps_of_dfiles hs k1 k2 k3
    have e : s1.indexid = s.indexid := by
      have a1 := hs.d
      have a2 := k1.d
      have a3 := hs.same
      have a4 := k1.same
      rw [k3] at a2
      omega
    obtain ⟨i1, i2, i3, i4⟩ := ih k1 k2 (by omega)
    exact ⟨i1, i2, hk.ext.trans i3, by omega⟩

end Zdb
