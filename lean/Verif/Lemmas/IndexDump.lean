/-
The index listing shows the items of the files.
-/
import Verif.Spec.IndexDump
import Verif.Lemmas.Loader
import Verif.Lemmas.SeqInv
namespace Zdb

theorem dumpLoop_nil (f : Bytes) {pos : Nat} (hp : f.length ≤ pos) (fuel num : Nat) : dumpLoop f fuel pos num = ([], true) := by
  cases fuel with
  | zero => rfl
  | succ n => rw [dumpLoop, readExact_past hp (by decide)]

theorem item_head (it : Item) (hw : it.WF) : ∃ r, encItem it = toLE 1 it.id.length ++ r := ⟨_, by rw [encItem, hw.1]⟩

theorem dumpLoop_items {f : Bytes} (g : List Item) (hw : ∀ it ∈ g, it.WF) {a rest : Bytes} (hf : f = a ++ (g.flatMap encItem ++ rest))
    {fuel : Nat} (hfu : (g.flatMap encItem).length < fuel) (num : Nat) :
    ∃ fuel', rest.length + fuel ≤ rest.length + (g.flatMap encItem).length + fuel' ∧
      dumpLoop f fuel a.length num = (itemLines num a.length g ++
        (dumpLoop f fuel' (a.length + (g.flatMap encItem).length) (num + g.length)).1,
        (dumpLoop f fuel' (a.length + (g.flatMap encItem).length) (num + g.length)).2) := by
  induction g generalizing a fuel num with
  | nil => exact ⟨fuel, by simp, by simp [itemLines]⟩
  | cons it g ih =>
    have hi := hw it (by simp)
    have hl := encItem_length it
    rw [List.flatMap_cons, List.length_append, hl] at hfu
    obtain ⟨r, hr⟩ := item_head it hi
    cases fuel with
    | zero => omega
    | succ n =>
      have h1 : readExact f a.length 1 = some (toLE 1 it.id.length) := by
        refine readExact_at (c := r ++ (g.flatMap encItem ++ rest)) ?_ rfl (by simp)
        rw [hf, List.flatMap_cons, hr]; simp
      have hlen : fromLE (toLE 1 it.id.length) = it.id.length := fromLE_toLE1 hi.2.1
      have h2 : readExact f a.length (itemHdr + it.id.length) = some (encItem it) := by
        refine readExact_at (c := g.flatMap encItem ++ rest) ?_ rfl (by rw [hl]; rfl)
        rw [hf, List.flatMap_cons]; simp
      have hf' : f = (a ++ encItem it) ++ (g.flatMap encItem ++ rest) := by rw [hf, List.flatMap_cons]; simp
      obtain ⟨fuel', h3, h4⟩ := ih (fun x hx => hw x (by simp [hx])) hf' (fuel := n) (by omega) (num + 1)
      refine ⟨fuel', by rw [List.flatMap_cons, List.length_append, hl]; omega, ?_⟩
      rw [dumpLoop, h1]
      simp only [hlen, h2]
      rw [List.length_append, hl] at h4
      rw [show a.length + itemHdr + it.id.length = a.length + (34 + it.id.length) by unfold itemHdr; omega, h4,
        decItem_encItem _ hi, List.flatMap_cons, List.length_append, hl, List.length_cons]
      rw [show a.length + (34 + it.id.length) + (g.flatMap encItem).length = a.length + (34 + it.id.length + (g.flatMap encItem).length) by omega,
        show num + 1 + g.length = num + (g.length + 1) by omega]
      rfl

theorem itemLines_length (num off : Nat) (g : List Item) : (itemLines num off g).length = g.length := by
  induction g generalizing num off with
  | nil => rfl
  | cons it g ih => simp [itemLines, ih]

theorem dumpLoop_index {h : Bytes} (hh : GoodIndex h) {g : List Item} (hw : ∀ it ∈ g, it.WF) :
    dumpLoop (encIndex h g) ((encIndex h g).length + 1) ihdrLen 0 = (itemLines 0 29 g, true) := by
  obtain ⟨fuel', -, h2⟩ := dumpLoop_items (f := encIndex h g) g hw (a := h) (rest := []) (by simp [encIndex])
    (fuel := (encIndex h g).length + 1) (by simp [encIndex]; omega) 0
  rw [hh.length] at h2
  rw [show ihdrLen = 29 from rfl, h2, dumpLoop_nil _ (by simp [encIndex, hh.length])]
  simp

theorem dumpLoop_cut {h : Bytes} (hh : GoodIndex h) {g : List Item} (hw : ∀ it ∈ g, it.WF) {it : Item} (hi : it.WF) {t u : Bytes}
    (ht : encItem it = t ++ u) (ht0 : t ≠ []) (hu0 : u ≠ []) :
    dumpLoop (encIndex h g ++ t) ((encIndex h g ++ t).length + 1) ihdrLen 0 = (itemLines 0 29 g, false) := by
  have htl : 0 < t.length := List.length_pos_iff.2 ht0
  have hul : 0 < u.length := List.length_pos_iff.2 hu0
  obtain ⟨fuel', h1, h2⟩ := dumpLoop_items (f := encIndex h g ++ t) g hw (a := h) (rest := t) (by simp [encIndex])
    (fuel := (encIndex h g ++ t).length + 1) (by simp [encIndex]; omega) 0
  rw [hh.length] at h2
  rw [show ihdrLen = 29 from rfl, h2]
  have hfl : (encIndex h g ++ t).length = 29 + (g.flatMap encItem).length + t.length := by simp [encIndex, hh.length]; omega
  rw [hfl] at h1
  cases fuel' with
  | zero => omega
  | succ n =>
    obtain ⟨r, hr⟩ := item_head it hi
    cases t with
    | nil => exact absurd rfl ht0
    | cons b t =>
      have hb : toLE 1 it.id.length = [b] := by
        rw [hr] at ht
        have := congrArg (List.take 1) ht
        rwa [List.take_left' (by simp), List.cons_append, List.take_succ_cons, List.take_zero] at this
      have h3 : readExact (encIndex h g ++ b :: t) (29 + (g.flatMap encItem).length) 1 = some (toLE 1 it.id.length) := by
        refine readExact_at (a := encIndex h g) (c := t) ?_ (by simp [encIndex, hh.length]) (by simp)
        rw [hb]; rfl
      have hll := congrArg List.length ht
      rw [encItem_length, List.length_append] at hll
      have h4 : readExact (encIndex h g ++ b :: t) (29 + (g.flatMap encItem).length) (itemHdr + it.id.length) = none := by
        refine readExact_eq_none (by unfold itemHdr; omega) ?_
        rw [hfl]; unfold itemHdr; omega
      rw [dumpLoop, h3]
      simp only [fromLE_toLE1 hi.2.1, h4]
      simp

theorem GoodIndex.read {h : Bytes} (hh : GoodIndex h) (t : Bytes) :
    readExact (h ++ t) 0 ihdrLen = some h ∧ (decIHeader h).magic = idxMagic ∧ (decIHeader h).version = 4 := by
  refine ⟨readExact_at (a := []) (c := t) rfl rfl hh.length.symm, ?_, ?_⟩
  · show pread h 0 4 = _
    simp only [pread, List.drop_zero]; exact hh.magic
  · show fromLE (pread h 4 4) = 4
    rw [pread, hh.version]; decide

/-- the files that are intact, then others -/
theorem dumpFiles_good (ps : List (Bytes × List Item)) (hw : ∀ p ∈ ps, GoodIndex p.1 ∧ ∀ it ∈ p.2, it.WF) (count : Nat)
    (rest : List Bytes) :
    dumpFiles count (ps.map (fun p => encIndex p.1 p.2) ++ rest) =
      { dumpFiles (count + (ps.map (fun p => p.2.length)).sum) rest with
        files := ps.map (fun p => (decIHeader p.1, itemLines 0 29 p.2)) ++
          (dumpFiles (count + (ps.map (fun p => p.2.length)).sum) rest).files } := by
  induction ps generalizing count with
  | nil => simp
  | cons p ps ih =>
    obtain ⟨hg, hi⟩ := hw p (by simp)
    obtain ⟨h1, h2, h3⟩ := hg.read (p.2.flatMap encItem)
    rw [List.map_cons, List.cons_append, dumpFiles]
    rw [show readExact (encIndex p.1 p.2) 0 ihdrLen = some p.1 from h1]
    simp only [h2, h3, dumpLoop_index hg hi, itemLines_length]
    rw [if_neg (by simp), ih (fun q hq => hw q (by simp [hq]))]
    simp [Nat.add_assoc]

theorem dumpFiles_cut {h : Bytes} (hh : GoodIndex h) {g : List Item} (hw : ∀ it ∈ g, it.WF) {it : Item} (hi : it.WF) {t u : Bytes}
    (ht : encItem it = t ++ u) (ht0 : t ≠ []) (hu0 : u ≠ []) (count : Nat) (rest : List Bytes) :
    dumpFiles count ((encIndex h g ++ t) :: rest) = ⟨[(decIHeader h, itemLines 0 29 g)], none, 1⟩ := by
  obtain ⟨h1, h2, h3⟩ := hh.read (g.flatMap encItem ++ t)
  rw [dumpFiles, show readExact (encIndex h g ++ t) 0 ihdrLen = some h by rw [← h1, encIndex, List.append_assoc]]
  simp only [h2, h3, dumpLoop_cut hh hw hi ht ht0 hu0]
  simp

/-! ### the files of a namespace -/

theorem freshIHeader_good (i mode : Nat) : GoodIndex (encIHeader (freshIHeader i mode)) :=
  ⟨freshIHeader_length i mode, rfl, rfl⟩

theorem itemLines_items (num off : Nat) (g : List Item) : (itemLines num off g).map (·.item) = g := by
  induction g generalizing num off with
  | nil => rfl
  | cons it g ih => simp [itemLines, ih]

theorem itemLines_loc {num i off : Nat} {g : List Rec} {x : DumpLine} (h : x ∈ itemLines num off (g.map Rec.item)) :
    ∃ l ∈ locsIn i off g, x.item = l.r.item ∧ x.off = l.off := by
  induction g generalizing num off with
  | nil => simp [itemLines] at h
  | cons r g ih =>
    simp only [List.map_cons, itemLines, List.mem_cons] at h
    rcases h with rfl | h
    · exact ⟨⟨i, off, r⟩, by simp [locsIn], rfl, rfl⟩
    · obtain ⟨l, h1, h2, h3⟩ := ih h
      exact ⟨l, by simp only [locsIn, List.mem_cons]; exact Or.inr h1, h2, h3⟩

theorem locsIn_file {i off : Nat} {g : List Rec} {l : Loc} (h : l ∈ locsIn i off g) : l.file = i := by
  induction g generalizing off with
  | nil => simp [locsIn] at h
  | cons r g ih =>
    simp only [locsIn, List.mem_cons] at h
    rcases h with rfl | h
    · rfl
    · exact ih h

theorem locsIn_recs (i off : Nat) (g : List Rec) : (locsIn i off g).map (·.r) = g := by
  induction g generalizing off with
  | nil => rfl
  | cons r g ih => simp [locsIn, ih]

theorem locsFrom_recs (i : Nat) (G : Log) : (locsFrom i G).map (·.r) = G.flatten := by
  induction G generalizing i with
  | nil => rfl
  | cons g G ih => simp [locsFrom, locsIn_recs, ih]

theorem locsFrom_mem {G : Log} {i j : Nat} {g : List Rec} (h : G[j]? = some g) {l : Loc} (hl : l ∈ locsIn (i + j) 29 g) :
    l ∈ locsFrom i G := by
  induction G generalizing i j with
  | nil => simp at h
  | cons a G ih =>
    rw [locsFrom, List.mem_append]
    cases j with
    | zero =>
      simp only [List.getElem?_cons_zero, Option.some.injEq] at h
      subst h
      exact Or.inl hl
    | succ j =>
      exact Or.inr (ih (by simpa using h) (by rw [show i + 1 + j = i + (j + 1) by omega]; exact hl))

theorem map_mapIdx_eq {α β γ : Type} (f : Nat → α → β) (k : β → γ) (l : List α) :
    (l.mapIdx f).map k = l.mapIdx (fun i a => k (f i a)) := by
  apply List.ext_getElem?
  intro i
  simp [Function.comp_def]

/-- what is printed for the files of a namespace -/
def logDump (mode : Nat) (G : Log) : DumpOut :=
  ⟨G.mapIdx (fun i g => (decIHeader (encIHeader (freshIHeader i mode)), itemLines 0 29 (g.map Rec.item))), some (locs G).length, 0⟩

theorem Core.dump {mode : Nat} {df : Loc → Nat} {s : Store} {G : Log} (h : Core mode df s G) (hG : G.length < 2 ^ 32) :
    indexDump s.ifiles = logDump mode G := by
  have hlen : s.ifiles.length = G.length := h.irep.length
  have hne : 0 < G.length := List.length_pos_iff.2 h.ne
  have hmax : maxFiles s.ifiles = G.length := by unfold maxFiles; omega
  unfold indexDump
  rw [hmax, if_neg (by omega), List.take_of_length_le (by omega)]
  have hmap : s.ifiles = (G.mapIdx (fun i g => (encIHeader (freshIHeader i mode), g.map Rec.item))).map (fun p => encIndex p.1 p.2) ++ [] := by
    rw [h.irep, List.append_nil, map_mapIdx_eq]
    congr 1
    funext i g
    simp [encFile, encIndex, List.flatMap_map]
  rw [hmap, dumpFiles_good _ ?_ 0 []]
  · have hsum : ((G.mapIdx (fun i g => (encIHeader (freshIHeader i mode), g.map Rec.item))).map (fun p => p.2.length)).sum = (locs G).length := by
      have h1 : (locs G).length = G.flatten.length := by rw [← locsFrom_recs 0 G, List.length_map]; rfl
      rw [h1, List.length_flatten, map_mapIdx_eq]
      simp only [List.length_map]
      congr 1
      apply List.ext_getElem?
      intro i
      simp
    rw [hsum]
    simp only [dumpFiles, Nat.zero_add, List.append_nil, logDump, map_mapIdx_eq]
  · intro p hp
    rw [List.mem_mapIdx] at hp
    obtain ⟨i, hi, rfl⟩ := hp
    refine ⟨freshIHeader_good i mode, fun it hit => ?_⟩
    obtain ⟨r, hr, rfl⟩ := List.mem_map.1 hit
    have : r ∈ (locs G).map (·.r) := by
      rw [locs, locsFrom_recs]; exact List.mem_flatten.2 ⟨_, List.getElem_mem hi, hr⟩
    obtain ⟨l, hl, rfl⟩ := List.mem_map.1 this
    exact (h.recs l hl).wf

theorem logDump_items (mode : Nat) (G : Log) : (logDump mode G).lines.map (·.item) = (locs G).map (fun l => l.r.item) := by
  have h1 : (locs G).map (fun l => l.r.item) = G.flatten.map Rec.item := by
    rw [← locsFrom_recs 0 G, List.map_map]; rfl
  rw [h1]
  unfold logDump DumpOut.lines
  simp only [List.flatMap_def, map_mapIdx_eq, List.map_flatten, itemLines_items]
  congr 1
  apply List.ext_getElem?
  intro i
  simp

theorem logDump_loc {mode : Nat} {G : Log} {i : Nat} {p : IHeader × List DumpLine} (hp : (logDump mode G).files[i]? = some p)
    {x : DumpLine} (hx : x ∈ p.2) : ∃ l ∈ locs G, l.file = i ∧ x.item = l.r.item ∧ x.off = l.off := by
  simp only [logDump, List.getElem?_mapIdx, Option.map_eq_some_iff] at hp
  obtain ⟨g, hg, rfl⟩ := hp
  obtain ⟨l, h1, h2, h3⟩ := itemLines_loc (i := i) hx
  exact ⟨l, locsFrom_mem (i := 0) hg (by rw [Nat.zero_add]; exact h1), locsIn_file h1, h2, h3⟩

theorem RecOK.leads {dfiles : List Bytes} {d : Nat} {r : Rec} (h : RecOK dfiles d r) {x : DumpLine} (hx : x.item = r.item) :
    ∃ f, dfiles[d]? = some f ∧ x.Leads f := by
  obtain ⟨prev, -, pre, post, h1, h2⟩ := h.data
  refine ⟨_, h1, pre, prev, r.payload, post, ?_, by rw [hx]; exact h2, by rw [hx, h.len], by
    rw [hx, h.crc]; exact (C25_software_is_castagnoli _).symm⟩
  have hc : castagnoli (bufferBits r.payload) = r.item.crc := by rw [h.crc]; exact (C25_software_is_castagnoli _).symm
  rw [hx, hc, ← h.len]
  simp [encDHdr, recHdr]

end Zdb
