/-
The dirty bitmap.
-/
import Verif.Lemmas.Fault
import Verif.Lemmas.SeqRun
import Verif.Spec.Dirty
namespace Zdb

/-! ### bits -/

theorem bit_set : ∀ (b : Fin 256) (x y : Fin 8),
    (((UInt8.ofFin b ||| (1 <<< UInt8.ofNat x.val)) &&& (1 <<< UInt8.ofNat y.val) != 0) =
      ((UInt8.ofFin b &&& (1 <<< UInt8.ofNat y.val) != 0) || decide (x = y))) := by
  decide +kernel

theorem bit_set' (b : UInt8) (x y : Nat) (hx : x < 8) (hy : y < 8) :
    ((b ||| (1 <<< UInt8.ofNat x)) &&& (1 <<< UInt8.ofNat y) != 0) =
      ((b &&& (1 <<< UInt8.ofNat y) != 0) || decide (x = y)) := by
  have := bit_set b.toFin ⟨x, hx⟩ ⟨y, hy⟩
  simpa using this

theorem dirtyGet_set {d : Dirty} {id : Nat} (h : id / 8 < d.map.length) (i : Nat) :
    dirtyGet (dirtySet d id) i = (dirtyGet d i || decide (i = id)) := by
  unfold dirtySet
  rw [List.getElem?_eq_getElem h]
  simp only [dirtyGet, List.getElem?_set]
  by_cases hi : id / 8 = i / 8
  · rw [if_pos hi, if_pos h, ← hi, List.getElem?_eq_getElem h]
    simp only
    rw [bit_set' _ _ _ (Nat.mod_lt _ (by decide)) (Nat.mod_lt _ (by decide))]
    congr 1
    rw [decide_eq_decide]
    omega
  · rw [if_neg hi]
    have : ¬ i = id := fun h => hi (by rw [h])
    simp [this]

theorem dirtyGet_lt {d : Dirty} {i : Nat} (h : dirtyGet d i = true) : i < 8 * d.map.length := by
  unfold dirtyGet at h
  split at h
  · rename_i b hb
    have := (List.getElem?_eq_some_iff.1 hb).1
    omega
  · simp at h

theorem mem_dirtyList (d : Dirty) (i : Nat) : i ∈ dirtyList d ↔ dirtyGet d i = true := by
  simp only [dirtyList, List.mem_filter, List.mem_range]
  exact ⟨fun h => h.2, fun h => ⟨dirtyGet_lt h, h⟩⟩

theorem dirtyList_sorted (d : Dirty) : (dirtyList d).Pairwise (· < ·) :=
  List.Pairwise.filter _ List.pairwise_lt_range

/-- The bitmap is big enough for file numbers up to `n`, was never read outside, and has no bit beyond `n`. -/
structure DWF (d : Dirty) (n : Nat) : Prop where
  oob : d.oob = false
  len : d.map.length = (d.maxid + 8) / 8
  one : 1 ≤ d.maxid
  le : n ≤ d.maxid
  bits : ∀ i, dirtyGet d i = true → i ≤ n

theorem dirtyResize_next {d : Dirty} {n : Nat} (h : DWF d n) :
    DWF (dirtyResize d (n + 1)) (n + 1) ∧ ∀ i, dirtyGet (dirtyResize d (n + 1)) i = dirtyGet d i := by
  have hlen := h.len
  have hle := h.le
  unfold dirtyResize
  by_cases h1 : n + 1 ≤ d.maxid
  · rw [if_pos h1]
    exact ⟨⟨h.oob, h.len, h.one, h1, fun i hi => Nat.le_succ_of_le (h.bits i hi)⟩, fun _ => rfl⟩
  · rw [if_neg h1]
    have hm : d.maxid = n := by omega
    by_cases h2 : (n + 1 + 8) / 8 ≤ d.map.length
    · simp only [if_pos h2]
      refine ⟨⟨h.oob, ?_, by simp, by simp, fun i hi => Nat.le_succ_of_le (h.bits i hi)⟩, fun _ => rfl⟩
      simp only
      omega
    · simp only [if_neg h2]
      have h3 : (n + 1 + 8) / 8 - d.map.length - 1 = 0 := by omega
      have h4 : d.map.length + 1 = (n + 1 + 8) / 8 := by omega
      have hg : ∀ i, dirtyGet { d with maxid := n + 1, map := d.map ++ List.replicate ((n + 1 + 8) / 8 - d.map.length - 1) 0xFF ++ [0] } i =
          dirtyGet d i := by
        intro i
        simp only [h3, List.replicate_zero, List.append_nil, dirtyGet, List.getElem?_append]
        by_cases hi : i / 8 < d.map.length
        · rw [if_pos hi]
        · rw [if_neg hi, List.getElem?_eq_none (by omega : d.map.length ≤ i / 8)]
          cases hj : ([0] : Bytes)[i / 8 - d.map.length]? with
          | none => rfl
          | some b =>
            have : b = 0 := by
              have := List.mem_of_getElem? hj
              simpa using this
            subst this
            simp
      refine ⟨⟨h.oob, ?_, by simp, by simp, fun i hi => ?_⟩, hg⟩
      · simp only [h3, List.replicate_zero, List.append_nil, List.length_append, List.length_singleton]
        exact h4
      · rw [hg] at hi
        exact Nat.le_succ_of_le (h.bits i hi)

theorem DWF.set {d : Dirty} {n : Nat} (h : DWF d n) {id : Nat} (hid : id ≤ n) :
    DWF (dirtySet d id) n ∧ ∀ i, dirtyGet (dirtySet d id) i = (dirtyGet d i || decide (i = id)) := by
  have hlen := h.len
  have hle := h.le
  have hlt : id / 8 < d.map.length := by omega
  have hg := dirtyGet_set hlt
  refine ⟨?_, hg⟩
  have hs : ∃ m, dirtySet d id = { d with map := m } ∧ m.length = d.map.length := by
    unfold dirtySet
    rw [List.getElem?_eq_getElem hlt]
    exact ⟨_, rfl, by simp⟩
  obtain ⟨m, hm, hml⟩ := hs
  refine ⟨by rw [hm]; exact h.oob, by rw [hm]; simp only; rw [hml]; exact hlen, by rw [hm]; exact h.one, by rw [hm]; exact h.le, ?_⟩
  intro i hi
  rw [hg] at hi
  simp only [Bool.or_eq_true, decide_eq_true_eq] at hi
  rcases hi with hi | rfl
  · exact h.bits i hi
  · exact hid

theorem dirtyGet_zeros {d : Dirty} (h : ∀ b ∈ d.map, b = 0) (i : Nat) : dirtyGet d i = false := by
  unfold dirtyGet
  split
  · rename_i b hb
    rw [h b (List.mem_of_getElem? hb)]
    simp
  · rfl

theorem dirtyGet_reset (d : Dirty) (i : Nat) : dirtyGet (dirtyReset d) i = false := by
  refine dirtyGet_zeros ?_ i
  intro b hb
  simp only [dirtyReset, List.mem_map] at hb
  obtain ⟨_, _, rfl⟩ := hb
  rfl

theorem DWF.reset {d : Dirty} {n : Nat} (h : DWF d n) : DWF (dirtyReset d) n :=
  ⟨h.oob, by simp only [dirtyReset, List.length_map]; exact h.len, h.one, h.le,
   fun i hi => by rw [dirtyGet_reset] at hi; cases hi⟩

/-! ### what an operation does to the bitmap and to the index files -/

/-- The bitmap of a store is in order. -/
def Store.DW (s : Store) : Prop := DWF s.dirty s.indexid

/-- From `s` to `t` the bit `o`, if any, was set, and the other index files only grew, the closed ones not at
    all. -/
structure Chg (s t : Store) (o : Option Nat) : Prop where
  wf : t.DW
  bits : ∀ i, dirtyGet t.dirty i = (dirtyGet s.dirty i || decide (o = some i))
  ext : ∀ (i : Nat) (f : Bytes), s.ifiles[i]? = some f → o ≠ some i → ∃ x, t.ifiles[i]? = some (f ++ x) ∧
    (i < s.indexid → x = [])
  le : s.indexid ≤ t.indexid

theorem Chg.refl {s : Store} (h : s.DW) : Chg s s none :=
  ⟨h, fun i => by simp, fun i f hf _ => ⟨[], by simpa using hf, fun _ => rfl⟩, Nat.le_refl _⟩

theorem Chg.trans {s t v : Store} {o : Option Nat} (h : Chg s t none) (h' : Chg t v o) : Chg s v o := by
  refine ⟨h'.wf, fun i => by rw [h'.bits, h.bits]; simp, fun i f hf hi => ?_, Nat.le_trans h.le h'.le⟩
  obtain ⟨x, hx, hx'⟩ := h.ext i f hf (by simp)
  obtain ⟨y, hy, hy'⟩ := h'.ext i _ hx hi
  exact ⟨x ++ y, by rw [hy]; simp, fun hl => by rw [hx' hl, hy' (Nat.lt_of_lt_of_le hl h.le)]; rfl⟩

theorem Chg.trans' {s t v : Store} {o : Option Nat} (h : Chg s t o) (h' : Chg t v none) : Chg s v o := by
  refine ⟨h'.wf, fun i => by rw [h'.bits, h.bits]; simp, fun i f hf hi => ?_, Nat.le_trans h.le h'.le⟩
  obtain ⟨x, hx, hx'⟩ := h.ext i f hf hi
  obtain ⟨y, hy, hy'⟩ := h'.ext i _ hx (by simp)
  exact ⟨x ++ y, by rw [hy]; simp, fun hl => by rw [hx' hl, hy' (Nat.lt_of_lt_of_le hl h.le)]; rfl⟩

/-- An operation that touches neither the bitmap nor the index files. -/
theorem Chg.same {s t : Store} (h : s.DW) (h1 : t.dirty = s.dirty) (h2 : t.indexid = s.indexid)
    (h3 : t.ifiles = s.ifiles) : Chg s t none :=
  ⟨by unfold Store.DW; rw [h1, h2]; exact h, fun i => by rw [h1]; simp,
   fun i f hf _ => ⟨[], by rw [h3]; simpa using hf, fun _ => rfl⟩, by rw [h2]; exact Nat.le_refl _⟩

theorem Chg.app {s t : Store} (h : s.DW) (h1 : t.dirty = s.dirty) (h2 : t.indexid = s.indexid) {b : Bytes}
    (h3 : t.ifiles = appendFile s.ifiles s.indexid b) : Chg s t none := by
  refine ⟨by unfold Store.DW; rw [h1, h2]; exact h, fun i => by rw [h1]; simp, fun i f hf _ => ?_,
    by rw [h2]; exact Nat.le_refl _⟩
  rw [h3, appendFile, List.getElem?_modify, hf]
  by_cases hj : s.indexid = i
  · exact ⟨b, by simp [hj], fun hl => by omega⟩
  · exact ⟨[], by simp [hj], fun _ => rfl⟩

theorem Chg.write {s t : Store} (h : s.DW) {j off : Nat} {b : Bytes} (h1 : t.dirty = dirtySet s.dirty j) (h2 : t.indexid = s.indexid)
    (h3 : t.ifiles = writeFileAt s.ifiles j off b) (hj : j ≤ s.indexid) : Chg s t (some j) := by
  obtain ⟨w1, w2⟩ := DWF.set h hj
  refine ⟨by unfold Store.DW; rw [h1, h2]; exact w1, fun i => ?_, fun i f hf hi => ⟨[], ?_, fun _ => rfl⟩,
    by rw [h2]; exact Nat.le_refl _⟩
  · rw [h1, w2]
    congr 1
    rw [decide_eq_decide]
    simp [eq_comm]
  · have hne : ¬ j = i := fun e => hi (by rw [e])
    rw [h3, writeFileAt, List.getElem?_modify, hf]
    simp [hne]

theorem jump_chg {s : Store} (h : s.DW) (hs : InStep s) (hcap : s.indexid + 1 < 2 ^ 32) : Chg s (jump s) none := by
  have hid : (s.indexid + 1) % 2 ^ 32 = s.indexid + 1 := Nat.mod_eq_of_lt hcap
  have e2 : (jump s).ifiles = indexCreate s.ifiles ((s.indexid + 1) % 2 ^ 32) s.mode.byte := by
    simp only [jump, dataOpen, indexSetId]
  have e3 : (jump s).indexid = (s.indexid + 1) % 2 ^ 32 := by simp only [jump, dataOpen, indexSetId]
  have e4 : (jump s).dirty = dirtyResize s.dirty ((s.indexid + 1) % 2 ^ 32) := by simp only [jump, dataOpen, indexSetId]
  rw [hid] at e2 e3 e4
  have hi := hs.i
  rw [indexCreate, if_neg (by omega)] at e2
  obtain ⟨w1, w2⟩ := dirtyResize_next h
  refine ⟨by unfold Store.DW; rw [e3, e4]; exact w1, fun i => by rw [e4, w2]; simp, fun i f hf _ => ⟨[], ?_, fun _ => rfl⟩,
    by omega⟩
  rw [e2, List.getElem?_append_left (List.getElem?_eq_some_iff.1 hf).1]
  simpa using hf

theorem jumpIfFull_chg {s : Store} (h : s.DW) (hs : InStep s) (hcap : s.indexid + 1 < 2 ^ 32) (limit len : Nat) :
    Chg s (jumpIfFull limit s len) none := by
  unfold jumpIfFull
  split
  · exact jump_chg h hs hcap
  · exact Chg.refl h

theorem dataInsert_idx (s : Store) (io : Io) (id p : Bytes) (fl crc ts : Nat) :
    (dataInsert s io id p fl crc ts).1.dirty = s.dirty ∧ (dataInsert s io id p fl crc ts).1.indexid = s.indexid ∧
    (dataInsert s io id p fl crc ts).1.ifiles = s.ifiles ∧ (dataInsert s io id p fl crc ts).1.seqmap = s.seqmap ∧
    (dataInsert s io id p fl crc ts).1.mode = s.mode := by
  unfold dataInsert
  simp only
  split
  · exact ⟨rfl, rfl, rfl, rfl, rfl⟩
  · split <;> exact ⟨rfl, rfl, rfl, rfl, rfl⟩

theorem appendEntry_idx (s : Store) (io : Io) (e : Entry) :
    (appendEntry s io e).1.dirty = s.dirty ∧ (appendEntry s io e).1.indexid = s.indexid ∧
    (∃ b, (appendEntry s io e).1.ifiles = appendFile s.ifiles s.indexid b) ∧ (appendEntry s io e).1.seqmap = s.seqmap := by
  unfold appendEntry
  simp only
  split <;> exact ⟨rfl, rfl, ⟨_, rfl⟩, rfl⟩

/-- An item was replaced by another of the same length. -/
theorem Modified.of {s t : Store} {j off : Nat} {old new : Bytes} (h1 : DataAt s.ifiles j off old)
    (h2 : DataAt t.ifiles j off new) (hl : old.length = new.length) (hne : old ≠ new) : Modified s t j := by
  obtain ⟨p1, q1, a1, a2⟩ := h1
  obtain ⟨p2, q2, b1, b2⟩ := h2
  refine ⟨_, _, a1, b1, ?_⟩
  rintro ⟨x, hx⟩
  rw [List.append_assoc, List.append_assoc] at hx
  have e1 := List.append_inj_right hx (by omega)
  exact hne (List.append_inj_left e1 hl)

theorem not_modified {s t : Store} {o : Option Nat} (h : Chg s t o) {j : Nat} (hj : o ≠ some j) : ¬ Modified s t j := by
  rintro ⟨f, f', h1, h2, h3⟩
  obtain ⟨x, hx, -⟩ := h.ext j f h1 hj
  rw [hx] at h2
  cases h2
  exact h3 ⟨x, rfl⟩

theorem Chg.dataAt {s t : Store} {o : Option Nat} (h : Chg s t o) {j off : Nat} {b : Bytes} (hj : o ≠ some j)
    (hd : DataAt s.ifiles j off b) : DataAt t.ifiles j off b := by
  obtain ⟨pre, post, h1, h2⟩ := hd
  obtain ⟨x, hx, -⟩ := h.ext j _ h1 hj
  exact ⟨pre, post ++ x, by rw [hx]; simp, h2⟩

theorem DataAt.write {fs : List Bytes} {j off : Nat} {old : Bytes} (h : DataAt fs j off old) (new : Bytes)
    (hl : new.length = old.length) : DataAt (writeFileAt fs j off new) j off new := by
  obtain ⟨pre, post, h1, h2⟩ := h
  refine ⟨pre, post, ?_, h2⟩
  rw [writeFileAt, List.getElem?_modify, h1]
  simp only [if_true, Option.map_some, Option.some.injEq, pwrite]
  subst h2
  simp [hl, List.take_append, List.drop_append]

/-! ### rewriting the flags of an item -/

/-- The item an entry stands for, not deleted. -/
def DItemAt (s : Store) (e : Entry) (it : Item) : Prop :=
  DataAt s.ifiles e.indexid e.idxoffset (encItem it) ∧ it.WF ∧ it.flags = 0 ∧ it.id = e.id ∧ e.flags = 0

/-- From `s` to `t` at most one bit was set, and then that file was modified; the other files only grew. -/
def Eff (s t : Store) : Prop := ∃ o, Chg s t o ∧ ∀ j, o = some j → Modified s t j

theorem Chg.eff {s t : Store} (h : Chg s t none) : Eff s t := ⟨none, h, fun j hj => by cases hj⟩

theorem Eff.bits {s t : Store} (h : Eff s t) (i : Nat) :
    dirtyGet t.dirty i = true ↔ dirtyGet s.dirty i = true ∨ Modified s t i := by
  obtain ⟨o, h1, h2⟩ := h
  rw [h1.bits]
  simp only [Bool.or_eq_true, decide_eq_true_eq]
  constructor
  · rintro (h | h)
    · exact Or.inl h
    · exact Or.inr (h2 i h)
  · rintro (h | h)
    · exact Or.inl h
    · right
      apply Classical.byContradiction
      intro hn
      exact not_modified h1 hn h

theorem deleteDisk_chg {s : Store} {e : Entry} {it : Item} (h : s.DW) (hl : s.ifiles.length = s.indexid + 1)
    (hi : DItemAt s e it) {io : Io} (hio : io.iflag = none) :
    Chg s (deleteDisk s io e).1 (some e.indexid) ∧ (deleteDisk s io e).2 = true ∧
      DataAt (deleteDisk s io e).1.ifiles e.indexid e.idxoffset (encItem { it with flags := 1 }) ∧
      (deleteDisk s io e).1.mode = s.mode := by
  obtain ⟨hd, hw, hf, hid, hef⟩ := hi
  have hlt := hd.lt
  obtain ⟨pre, post, h1, h2⟩ := id hd
  have hr : readExact (pre ++ (encItem it ++ post)) e.idxoffset (itemHdr + e.id.length) = some (encItem it) :=
    readExact_at rfl h2.symm (by simp [itemHdr, hid])
  have hfl : setDeleted e.flags = 1 := by rw [hef]; rfl
  have heq : deleteDisk s io e = ({ s with ifiles := writeFileAt s.ifiles e.indexid e.idxoffset (encItem { it with flags := 1 }), dirty := dirtySet s.dirty e.indexid }, true) := by
    simp only [deleteDisk, h1, hr, hio, WriteFault.ok, Option.isNone_none, if_true, cut_none, hfl, setItemFlags_encItem]
  rw [heq]
  refine ⟨Chg.write h rfl rfl rfl (by omega), rfl, ?_, rfl⟩
  exact hd.write _ (by simp)

theorem encItem_flags_ne {it : Item} (hw : it.WF) (hf : it.flags = 0) : encItem it ≠ encItem { it with flags := 1 } := by
  intro h
  have hw' : ({ it with flags := 1 } : Item).WF := by
    simp only [Item.WF] at hw ⊢
    omega
  have := encItem_inj hw hw' h
  have := congrArg Item.flags this
  simp only at this
  omega

/-! ### SET and DEL in user-key mode -/

theorem updateUser_eff {s t : Store} (h : Chg s t none) (hl : t.ifiles.length = t.indexid + 1) (br : Branches) (u : Nat)
    {io : Io} (hio : io.iflag = none) (r : SetReq) {ex : Entry} {it : Item} (hi : DItemAt s ex it) :
    Eff s (updateUser br t u io r ex).2.1 := by
  have hit : DItemAt t ex it := ⟨h.dataAt (by simp) hi.1, hi.2⟩
  obtain ⟨d1, -, d2, -⟩ := deleteDisk_chg h.wf hl hit hio
  unfold updateUser
  generalize deleteDisk t io ex = x at d1 d2
  obtain ⟨t1, b⟩ := x
  dsimp only at d1 d2 ⊢
  have d3 : Chg t1 (updateStats t1 ex (r.entry u)) none := Chg.same d1.wf rfl rfl rfl
  obtain ⟨a1, a2, ⟨b, a3⟩, -⟩ := appendEntry_idx (updateStats t1 ex (r.entry u)) io (updatedEntry t1 ex (r.entry u))
  have d4 := Chg.app d3.wf a1 a2 a3
  generalize appendEntry (updateStats t1 ex (r.entry u)) io (updatedEntry t1 ex (r.entry u)) = y at d4
  obtain ⟨t2, e, ok⟩ := y
  dsimp only at d4 ⊢
  have d5 := d3.trans d4
  refine ⟨some ex.indexid, h.trans (d1.trans' d5), fun j hj => ?_⟩
  cases hj
  exact Modified.of hi.1 (d5.dataAt (by simp) d2) (by simp) (encItem_flags_ne hi.2.1 hi.2.2.1)

theorem insertUser_chg {s t : Store} (h : Chg s t none) (br : Branches) (u : Nat) (io : Io) (r : SetReq) :
    Chg s (insertUser br t u io r).2.1 none := by
  unfold insertUser
  obtain ⟨a1, a2, ⟨b, a3⟩, -⟩ := appendEntry_idx t io (r.entry u)
  have d4 := Chg.app h.wf a1 a2 a3
  generalize appendEntry t io (r.entry u) = y at d4
  obtain ⟨t2, e, ok⟩ := y
  dsimp only at d4 ⊢
  split
  · exact h.trans (d4.trans' (Chg.same d4.wf rfl rfl rfl))
  · exact h.trans d4

theorem dataInsert_chg {s : Store} (h : s.DW) (io : Io) (id p : Bytes) (fl crc ts : Nat) :
    Chg s (dataInsert s io id p fl crc ts).1 none := by
  obtain ⟨h1, h2, h3, -, -⟩ := dataInsert_idx s io id p fl crc ts
  exact Chg.same h h1 h2 h3

theorem setHandlerUser_eff {c : Ctx} {br : Branches} {s t : Store} (h : Chg s t none) (hl : t.ifiles.length = t.indexid + 1)
    (hio : c.io.iflag = none) (k p : Bytes) (ts : Nat) (existing : Option Entry)
    (hex : ∀ ex, existing = some ex → ∃ it, DItemAt s ex it) :
    Eff s (setHandlerUser c br t k p ts existing).2.1 := by
  unfold setHandlerUser
  by_cases h1 : k.length = 0
  · rw [if_pos h1]; exact h.eff
  rw [if_neg h1]
  by_cases h2 : upToDate t existing p = true
  · rw [if_pos h2]; exact h.eff
  rw [if_neg h2]
  obtain ⟨-, i2, i3, -, -⟩ := dataInsert_idx t c.io k p 0 (crc32 p) ts
  have d := h.trans (dataInsert_chg h.wf c.io k p 0 (crc32 p) ts)
  generalize dataInsert t c.io k p 0 (crc32 p) ts = x at d i2 i3
  obtain ⟨t1, off⟩ := x
  dsimp only at d i2 i3 ⊢
  by_cases h3 : off = 0
  · rw [if_pos h3]; exact d.eff
  rw [if_neg h3]
  cases existing with
  | none =>
    have := insertUser_chg d br c.u c.io { id := k, offset := off, length := p.length, crc := crc32 p, dataid := 0, timestamp := ts }
    generalize insertUser br t1 c.u c.io { id := k, offset := off, length := p.length, crc := crc32 p, dataid := 0, timestamp := ts } = y at this
    obtain ⟨y1, y2, y3⟩ := y
    dsimp only at this ⊢
    cases y3 <;> exact this.eff
  | some ex =>
    obtain ⟨it, hit⟩ := hex ex rfl
    have := updateUser_eff d (by rw [i2, i3]; exact hl) br c.u hio { id := k, offset := off, length := p.length, crc := crc32 p, dataid := 0, timestamp := ts } hit
    dsimp only
    split <;> exact this

theorem indexDelete_eff {s t : Store} (h : Chg s t none) (hl : t.ifiles.length = t.indexid + 1) (br : Branches) (u : Nat)
    {io : Io} (hio : io.iflag = none) {ex : Entry} {it : Item} (hi : DItemAt s ex it) :
    Eff s (indexDelete br t u io ex).2.1 := by
  have hit : DItemAt t ex it := ⟨h.dataAt (by simp) hi.1, hi.2⟩
  obtain ⟨d1, d0, d2, -⟩ := deleteDisk_chg h.wf hl hit hio
  unfold indexDelete
  generalize deleteDisk t io ex = x at d1 d2 d0
  obtain ⟨t1, b⟩ := x
  dsimp only at d1 d2 d0 ⊢
  subst d0
  rw [if_pos rfl]
  have key : Eff s { t1 with entries := sub64 t1.entries 1, datasize := sub64 t1.datasize ex.length } := by
    refine ⟨some ex.indexid, h.trans (d1.trans' (Chg.same d1.wf rfl rfl rfl)), fun j hj => ?_⟩
    cases hj
    exact Modified.of hi.1 d2 (by simp) (encItem_flags_ne hi.2.1 hi.2.2.1)
  generalize ht : ({ t1 with entries := sub64 t1.entries 1, datasize := sub64 t1.datasize ex.length } : Store) = t2 at key
  have hm : t1.mode = t2.mode := by rw [← ht]
  rw [hm]
  cases t2.mode <;> exact key

theorem cmdDel_body_eff {c : Ctx} {br : Branches} {s : Store} (h : s.DW) (hl : s.ifiles.length = s.indexid + 1)
    (hio : c.io.iflag = none) (argv : List Bytes) (k : Bytes)
    (hex : ∀ ex, indexGet br s c.u k = some ex → ∃ it, DItemAt s ex it) :
    Eff s (cmdDel.body c br s argv k).2.1 := by
  have hrf := (Chg.refl h).eff
  unfold cmdDel.body
  by_cases h1 : k.length > 255
  · rw [if_pos h1]; exact hrf
  rw [if_neg h1]
  by_cases h2 : (!c.writable) = true
  · rw [if_pos h2]; exact hrf
  rw [if_neg h2]
  by_cases h3 : c.conf.isFrozen = true
  · rw [if_pos h3]; exact hrf
  rw [if_neg h3]
  by_cases h4 : c.conf.isLocked = true
  · rw [if_pos h4]; exact hrf
  rw [if_neg h4]
  cases he : indexGet br s c.u k with
  | none => exact hrf
  | some e =>
  dsimp only
  by_cases h5 : c.conf.worm = true
  · rw [if_pos h5]; exact hrf
  rw [if_neg h5]
  obtain ⟨it, hit⟩ := hex e he
  obtain ⟨-, i2, i3, -, -⟩ := dataInsert_idx s c.io e.id [] 1 0 (timestampFromSet c.now argv 2)
  have d := dataInsert_chg h c.io e.id [] 1 0 (timestampFromSet c.now argv 2)
  generalize dataInsert s c.io e.id [] 1 0 (timestampFromSet c.now argv 2) = x at d i2 i3
  obtain ⟨t1, off⟩ := x
  dsimp only at d i2 i3 ⊢
  by_cases h3 : off = 0
  · rw [if_pos h3]; exact d.eff
  rw [if_neg h3]
  have := indexDelete_eff d (by rw [i2, i3]; exact hl) br c.u hio hit
  generalize indexDelete br t1 c.u c.io e = y at this
  obtain ⟨y1, y2, y3⟩ := y
  dsimp only at this ⊢
  cases y3 <;> exact this

/-- What SET does once nothing speaks against it. -/
def setHandler (c : Ctx) (br : Branches) (s : Store) (k p : Bytes) (ts : Nat) : Branches × Store × Reply :=
  match s.mode with
  | .user => setHandlerUser c br (jumpIfFull c.limit s p.length) k p ts (if k.length ≠ 0 then indexGet br s c.u k else none)
  | .seq => setHandlerSeq c br (jumpIfFull c.limit s p.length) k p ts (if k.length ≠ 0 then indexGet br s c.u k else none)

theorem cmdSet_body_eff {c : Ctx} {br : Branches} {s : Store} (h : s.DW) (argv : List Bytes) (k p : Bytes)
    (hset : ∀ ts, ts < 2 ^ 32 → cmdSet.body c br s argv k p = setHandler c br s k p ts →
      Eff s (setHandler c br s k p ts).2.1) :
    Eff s (cmdSet.body c br s argv k p).2.1 := by
  have hrf := (Chg.refl h).eff
  have hset' := hset (timestampFromSet c.now argv 3) (timestampFromSet_lt c.now argv 3)
  clear hset
  unfold cmdSet.body at hset' ⊢
  by_cases h1 : k.length > 255
  · rw [if_pos h1]; exact hrf
  rw [if_neg h1] at hset' ⊢
  by_cases h2 : (!c.writable) = true
  · rw [if_pos h2]; exact hrf
  rw [if_neg h2] at hset' ⊢
  by_cases h3 : c.conf.isFrozen = true
  · rw [if_pos h3]; exact hrf
  rw [if_neg h3] at hset' ⊢
  by_cases h4 : c.conf.isLocked = true
  · rw [if_pos h4]; exact hrf
  rw [if_neg h4] at hset' ⊢
  dsimp only at hset' ⊢
  unfold setHandler at hset'
  generalize (if k.length ≠ 0 then indexGet br s c.u k else none) = en at hset' ⊢
  by_cases h5 : (en.isSome && c.conf.worm) = true
  · rw [if_pos h5]; exact hrf
  rw [if_neg h5] at hset' ⊢
  by_cases h6 : overQuota c.conf s.datasize p.length (floatingOf en) = true
  · rw [if_pos h6]; exact hrf
  rw [if_neg h6] at hset' ⊢
  exact hset' rfl

/-! ### SET in sequential mode -/

theorem insertSeq_chg {s t : Store} (h : Chg s t none) (u : Nat) (io : Io) (r : SetReq) :
    Chg s (insertSeq t u io r).1 none := by
  unfold insertSeq
  obtain ⟨a1, a2, ⟨b, a3⟩, -⟩ := appendEntry_idx t io (r.entry u)
  have d4 := Chg.app h.wf a1 a2 a3
  generalize appendEntry t io (r.entry u) = y at d4
  obtain ⟨t2, e, ok⟩ := y
  dsimp only at d4 ⊢
  split
  · exact h.trans (d4.trans' (Chg.same d4.wf rfl rfl rfl))
  · exact h.trans d4

theorem setHandlerSeq_eff {c : Ctx} {br : Branches} {s t : Store} {G : Log} (hs : SInv t G) (h : Chg s t none)
    (hio1 : c.io.iapp = none) (hio2 : c.io.iover = none) (k p : Bytes) (ts : Nat)
    (hp : p.length < 2 ^ 32) (hts : ts < 2 ^ 32) (hfl : Zdb.fileLen t.dfiles t.dataid ≤ 2 ^ 31)
    (hex : ∀ l, slotGet G k = some l → DataAt s.ifiles l.file l.off (encItem l.r.item)) :
    Eff s (setHandlerSeq c br t k p ts ((slotGet G k).map (Loc.sentry c.u))).2.1 := by
  have hil : t.ifiles.length = t.indexid + 1 := by have := hs.irep.length; have := hs.iid; omega
  unfold setHandlerSeq
  by_cases h1 : k.length ≠ 0 ∧ ((slotGet G k).map (Loc.sentry c.u)).isNone = true
  · rw [if_pos h1]; exact h.eff
  rw [if_neg h1]
  dsimp only
  by_cases h2 : upToDate t ((slotGet G k).map (Loc.sentry c.u)) p = true
  · rw [if_pos h2]; exact h.eff
  rw [if_neg h2]
  have hidlen : (seqIdOf t ((slotGet G k).map (Loc.sentry c.u))).length = 8 := by
    cases hg : slotGet G k with
    | none => simp [seqIdOf]
    | some l =>
      obtain ⟨hk8, -, -, -, hlid, -⟩ := hs.slot hg
      have e : (l.sentry c.u).id = k := hlid
      simp only [Option.map_some, seqIdOf, e, hk8]
      simp [hk8]
  have hid : ∀ l, slotGet G k = some l → seqIdOf t (some (l.sentry c.u)) = k := by
    intro l hg
    obtain ⟨hk8, -, -, -, hlid, -⟩ := hs.slot hg
    have e : (l.sentry c.u).id = k := hlid
    simp only [seqIdOf, e, hk8]
    simp
  have key := hs.stored hfl c.io p ts _ hidlen
  have d := h.trans (dataInsert_chg h.wf c.io (seqIdOf t ((slotGet G k).map (Loc.sentry c.u))) p 0 (crc32 p) ts)
  by_cases hw : (c.io.dhdr.ok && c.io.dpay.ok) = true
  · obtain ⟨s1, off, hdi, hoff0, hoff, hs1, hnn, hdd, hdata, hend, hsl, htot, hfew⟩ := key hw
    rw [hdi] at d ⊢
    dsimp only at d ⊢
    rw [if_neg hoff0]
    cases hg : slotGet G k with
    | none =>
      dsimp only [Option.map_none]
      have := insertSeq_chg d c.u c.io { id := seqIdOf t none, offset := off, length := p.length, crc := crc32 p, dataid := s1.dataid, timestamp := ts }
      split <;> exact this.eff
    | some l =>
      rw [hg] at hdata hsl
      have hk : slotGet G (seqIdOf t ((some l).map (Loc.sentry c.u))) = some l := by
        rw [Option.map_some, hid l hg]; exact hg
      obtain ⟨G', i1, -, -, -, -, x, it, u1, u2, u3, u4, u5, u6, u7⟩ := hs1.update c.u c.io hio1 hio2
        (⟨seqIdOf t ((some l).map (Loc.sentry c.u)), off, p.length, crc32 p, s1.dataid, ts⟩ : SetReq) p
        hk hoff rfl hp rfl rfl hts hdata hend hsl htot hfew
      dsimp only [Option.map_some] at u1 u2 u3 ⊢
      have hmem := (hs1.slot hg).2.2.1
      have hold := hex l hg
      have heff : Eff s (updateSeq s1 c.u c.io ⟨seqIdOf t (some (l.sentry c.u)), off, p.length, crc32 p, s1.dataid, ts⟩ (l.sentry c.u)).1 := by
        have m1 : Chg s1 { s1 with ifiles := appendFile s1.ifiles s1.indexid x } none := Chg.app d.wf rfl rfl rfl
        have hlt := (m1.dataAt (by simp) (d.dataAt (by simp) hold)).lt
        have hil1 : s1.ifiles.length = s1.indexid + 1 := by have := hs1.irep.length; have := hs1.iid; omega
        have hle : l.file ≤ s1.indexid := by
          rw [appendFile_length] at hlt
          omega
        have m2 : Chg { s1 with ifiles := appendFile s1.ifiles s1.indexid x }
            (updateSeq s1 c.u c.io ⟨seqIdOf t (some (l.sentry c.u)), off, p.length, crc32 p, s1.dataid, ts⟩ (l.sentry c.u)).1
            (some l.file) := Chg.write m1.wf u2 u3 u1 hle
        refine ⟨some l.file, d.trans (m1.trans m2), fun j hj => ?_⟩
        cases hj
        have hnew : DataAt (updateSeq s1 c.u c.io ⟨seqIdOf t (some (l.sentry c.u)), off, p.length, crc32 p, s1.dataid, ts⟩ (l.sentry c.u)).1.ifiles l.file l.off (encItem it) := by
          rw [u1]
          exact (m1.dataAt (by simp) (d.dataAt (by simp) hold)).write _ (by simp [u5])
        refine Modified.of hold hnew (by simp [u5]) ?_
        intro he
        have := encItem_inj (hs1.recs l hmem).wf u4 he
        have hpe := hs1.parent_end hmem
        have hii := hs1.iid
        unfold parentOf at hpe
        rw [this, u6, u7] at hpe
        unfold PLt at hpe
        dsimp only at hpe
        omega
      split <;> exact heff
  · have hw' : (c.io.dhdr.ok && c.io.dpay.ok) = false := by simpa using hw
    obtain ⟨d1, -, -⟩ := dataInsert_fail (s := t) hw' (seqIdOf t ((slotGet G k).map (Loc.sentry c.u))) p 0 (crc32 p) ts
    generalize dataInsert t c.io (seqIdOf t ((slotGet G k).map (Loc.sentry c.u))) p 0 (crc32 p) ts = x at d d1
    obtain ⟨t1, off⟩ := x
    dsimp only at d d1 ⊢
    rw [if_pos d1]
    exact d.eff

/-! ### all commands -/

theorem cmdSet_eff {c : Ctx} {br : Branches} {s : Store} (h : s.DW) (argv : List Bytes)
    (hb : ∀ k p, argv[1]? = some k → p ∈ argv → Eff s (cmdSet.body c br s argv k p).2.1) :
    Eff s (cmdSet c br s argv).2.1 := by
  have hrf := (Chg.refl h).eff
  unfold cmdSet
  split
  · exact hb _ _ rfl (by simp)
  · split
    · exact hb _ _ rfl (by simp)
    · exact hrf
  · exact hrf

theorem cmdDel_eff {c : Ctx} {br : Branches} {s : Store} (h : s.DW) (argv : List Bytes)
    (hb : ∀ k, argv[1]? = some k → Eff s (cmdDel.body c br s argv k).2.1) :
    Eff s (cmdDel c br s argv).2.1 := by
  have hrf := (Chg.refl h).eff
  unfold cmdDel
  split
  · split
    · exact hb _ rfl
    · exact hrf
  · split
    · exact hrf
    · split
      · exact hb _ rfl
      · exact hrf

/-- What a command does to the bitmap: INDEX DIRTY RESET clears it, otherwise the bits of the modified files are
    set. -/
theorem dsCommand_bits {c : Ctx} {br : Branches} {s : Store} (h : s.DW) (hs : InStep s)
    (hcap : s.indexid + 1 < 2 ^ 32) (d : DsCmd) (argv : List Bytes)
    (hset : d = .set → Eff s (cmdSet c br s argv).2.1) (hdel : d = .del → Eff s (cmdDel c br s argv).2.1) :
    (dsCommand c br s d argv).2.1.DW ∧ ∀ i, dirtyGet (dsCommand c br s d argv).2.1.dirty i = true ↔
      ¬ IsReset d (dsCommand c br s d argv).2.2 ∧
      (dirtyGet s.dirty i = true ∨ Modified s (dsCommand c br s d argv).2.1 i) := by
  have key : ∀ {t : Store} {r : Reply}, d ≠ .index → Eff s t → t.DW ∧ ∀ i, dirtyGet t.dirty i = true ↔
      ¬ IsReset d r ∧ (dirtyGet s.dirty i = true ∨ Modified s t i) := by
    intro t r hd he
    refine ⟨by obtain ⟨o, h1, -⟩ := he; exact h1.wf, fun i => ?_⟩
    rw [he.bits i]
    have : ¬ IsReset d r := by cases d <;> first | exact absurd rfl hd | exact id
    simp [this]
  cases d with
  | set => exact key (by decide) (hset rfl)
  | del => exact key (by decide) (hdel rfl)
  | nsjump =>
    refine key (by decide) ?_
    simp only [dsCommand, cmdNsjump]
    by_cases had : c.admin = true
    · simp only [had, if_true]; exact (jump_chg h hs hcap).eff
    · simp only [had]; exact (Chg.refl h).eff
  | index =>
    simp only [dsCommand, cmdIndex]
    generalize replyIndex c s argv = r
    have hno : ¬ ∀ i, Modified s s i := fun hh => not_modified (Chg.refl h) (by simp) (hh 0)
    have hnm : ∀ i, ¬ Modified s s i := fun i => not_modified (Chg.refl h) (by simp)
    cases r <;> simp only [IsReset, not_true_eq_false, not_false_eq_true, true_and, false_and]
    all_goals first
      | exact ⟨h, fun i => ⟨Or.inl, fun hh => hh.resolve_right (hnm i)⟩⟩
      | exact ⟨DWF.reset h, fun i => by rw [dirtyGet_reset]; simp⟩
  | _ => exact key (by decide) (Chg.refl h).eff

theorem UInv.itemAt {br : Branches} {u : Nat} {s : Store} {G : Log} (h : UInv br u s G) {k : Bytes} {e : Entry}
    (he : Zdb.indexGet br s u k = some e) : ∃ it, DItemAt s e it := by
  rw [h.indexGet] at he
  cases hg : liveGet G k with
  | none => rw [hg] at he; cases he
  | some l =>
    rw [hg, Option.map_some, Option.some.injEq] at he
    subst he
    have hl := (liveGet_some hg).1
    have hf := live_flag h hl
    exact ⟨l.r.item, h.irep.at (live_mem hl), (h.recs l (live_mem hl)).wf, hf, rfl, hf⟩

theorem Core.inStep {mode : Nat} {df : Loc → Nat} {s : Store} {G : Log} (h : Core mode df s G) : InStep s := by
  have h1 := h.irep.length
  have h2 := h.iid
  have h3 := h.did
  have h4 := h.dlen
  exact ⟨by omega, by omega, h3⟩

theorem UInv.bits {c : Ctx} {br : Branches} {s : Store} {G : Log} (h : UInv br c.u s G) (hw : s.DW)
    (hc : CtxOK c) (d : DsCmd) (argv : List Bytes) (hcap : s.ifiles.length < 2 ^ 32) :
    (dsCommand c br s d argv).2.1.DW ∧ ∀ i, dirtyGet (dsCommand c br s d argv).2.1.dirty i = true ↔
      ¬ IsReset d (dsCommand c br s d argv).2.2 ∧
      (dirtyGet s.dirty i = true ∨ Modified s (dsCommand c br s d argv).2.1 i) := by
  have hs := h.toCore.inStep
  have hcap' : s.indexid + 1 < 2 ^ 32 := by have := hs.i; omega
  refine dsCommand_bits hw hs hcap' d argv (fun _ => ?_) (fun _ => ?_)
  · refine cmdSet_eff hw argv (fun k p _ _ => cmdSet_body_eff hw argv k p (fun ts => ?_))
    intro hts _
    unfold setHandler
    simp only [h.mode]
    refine setHandlerUser_eff (jumpIfFull_chg hw hs hcap' _ _) (jumpIfFull_ext hs hcap' _ _).step.i hc.iflag k p ts _ ?_
    intro ex hex
    by_cases h0 : k.length ≠ 0
    · rw [if_pos h0] at hex; exact h.itemAt hex
    · rw [if_neg h0] at hex; cases hex
  · exact cmdDel_eff hw argv (fun k _ => cmdDel_body_eff hw hs.i hc.iflag argv k (fun ex he => h.itemAt he))

theorem SInv.itemAt {br : Branches} {u : Nat} {s : Store} {G : Log} (h : SInv s G) {k : Bytes} (hn : Near G k) {e : Entry}
    (he : Zdb.indexGet br s u k = some e) : ∃ it, DItemAt s e it := by
  rw [h.indexGet u k hn] at he
  cases hg : slotGet G k with
  | none => rw [hg] at he; cases he
  | some l =>
    rw [hg, Option.map_some, Option.some.injEq] at he
    subst he
    obtain ⟨-, -, hmem, hlive, -, -⟩ := h.slot hg
    have hf : l.r.item.flags = 0 := by
      rcases (h.recs l hmem).flags with h2 | h2
      · exact h2
      · simp [Loc.live, h2, isDeleted] at hlive
    exact ⟨l.r.item, h.irep.at hmem, (h.recs l hmem).wf, hf, rfl, hf⟩

theorem SInv.bits {c : Ctx} {br : Branches} {s : Store} {G : Log} (h : SInv s G) (hw : s.DW)
    (hc : CtxOK c) (d : DsCmd) (argv : List Bytes) (ha : ArgsOK argv) (hcap : s.ifiles.length < 2 ^ 32)
    (hn : NearEvent (absSlots G) (.cmd c d argv)) (hclean : CleanStep s (dsCommand c br s d argv).2.1) :
    (dsCommand c br s d argv).2.1.DW ∧ ∀ i, dirtyGet (dsCommand c br s d argv).2.1.dirty i = true ↔
      ¬ IsReset d (dsCommand c br s d argv).2.2 ∧
      (dirtyGet s.dirty i = true ∨ Modified s (dsCommand c br s d argv).2.1 i) := by
  have hs := h.toCore.inStep
  have hcap' : s.indexid + 1 < 2 ^ 32 := by have := hs.i; omega
  refine dsCommand_bits hw hs hcap' d argv (fun hd => ?_) (fun hd => ?_)
  · subst hd
    simp only [dsCommand] at hclean
    have hentry : ∀ k, Near G k → (if k.length ≠ 0 then Zdb.indexGet br s c.u k else none) =
        (slotGet G k).map (Loc.sentry c.u) := by
      intro k hnk
      by_cases h0 : k.length = 0
      · rw [List.length_eq_zero_iff.1 h0]; simp [slotGet_nil]
      · rw [if_pos h0, h.indexGet c.u k hnk]
    have key : ∀ k p, argv[1]? = some k → p ∈ argv → CleanStep s (cmdSet.body c br s argv k p).2.1 →
        Eff s (cmdSet.body c br s argv k p).2.1 := by
      intro k p hk hp hcl
      refine cmdSet_body_eff hw argv k p (fun ts hts heq => ?_)
      rw [heq] at hcl
      unfold setHandler at hcl ⊢
      simp only [h.mode] at hcl ⊢
      rw [hentry k (near_iff.1 (hn k hk))] at hcl ⊢
      obtain ⟨G1, j1, j2, j3, j4, j5⟩ := seqJumpIfFull_spec h hcap c.limit p.length hc.limit (by
        rcases hcl with hcl | hcl
        · left; rw [← hcl]; symm; exact setHandlerSeq_indexid _ _ _ _ _ _ _
        · exact Or.inr hcl)
      rw [← j3]
      have hpl := ha.size p hp
      refine setHandlerSeq_eff j1 (jumpIfFull_chg hw hs hcap' _ _) hc.iapp hc.iover k p ts (by omega) hts j5 ?_
      intro l hl
      have := (j1.slot hl).2.2.1
      rw [j4] at this
      exact h.irep.at this
    have hrf := (Chg.refl hw).eff
    unfold cmdSet at hclean ⊢
    split
    · exact key _ _ rfl (by simp) hclean
    · by_cases had : c.admin = true
      · simp only [had, if_true] at hclean ⊢
        exact key _ _ rfl (by simp) hclean
      · rw [if_neg had]; exact hrf
    · exact hrf
  · subst hd
    exact cmdDel_eff hw argv (fun k hk => cmdDel_body_eff hw hs.i hc.iflag argv k
      (fun ex he => h.itemAt (near_iff.1 (hn k hk)) he))

/-! ### loading -/

/-- A bitmap in order with no bit set. -/
structure DZ (d : Dirty) : Prop where
  oob : d.oob = false
  len : d.map.length = (d.maxid + 8) / 8
  one : 1 ≤ d.maxid
  zero : ∀ b ∈ d.map, b = 0

theorem DZ.resize {d : Dirty} (h : DZ d) {id : Nat} (hid : id ≤ d.maxid + 1) :
    DZ (dirtyResize d id) ∧ id ≤ (dirtyResize d id).maxid ∧ d.maxid ≤ (dirtyResize d id).maxid := by
  have hlen := h.len
  unfold dirtyResize
  by_cases h1 : id ≤ d.maxid
  · rw [if_pos h1]; exact ⟨h, h1, Nat.le_refl _⟩
  · rw [if_neg h1]
    by_cases h2 : (id + 8) / 8 ≤ d.map.length
    · simp only [if_pos h2]
      exact ⟨⟨h.oob, by simp only; omega, by simp only; omega, h.zero⟩, Nat.le_refl _, by omega⟩
    · simp only [if_neg h2]
      have h3 : (id + 8) / 8 - d.map.length - 1 = 0 := by omega
      refine ⟨⟨h.oob, ?_, by simp only; omega, ?_⟩, Nat.le_refl _, by omega⟩
      · simp only [h3, List.replicate_zero, List.append_nil, List.length_append, List.length_singleton]
        omega
      · simp only [h3, List.replicate_zero, List.append_nil, List.mem_append, List.mem_singleton]
        rintro b (hb | rfl)
        · exact h.zero b hb
        · rfl

theorem DZ.foldl (n : Nat) {s : Store} (h : DZ s.dirty) :
    DZ ((List.range (n + 1)).foldl indexSetId s).dirty ∧ n ≤ ((List.range (n + 1)).foldl indexSetId s).dirty.maxid := by
  induction n with
  | zero =>
    simp only [Nat.zero_add, List.range_one, List.foldl_cons, List.foldl_nil, indexSetId]
    exact ⟨(h.resize (Nat.zero_le _)).1, Nat.zero_le _⟩
  | succ n ih =>
    rw [List.range_succ, List.foldl_append]
    simp only [List.foldl_cons, List.foldl_nil]
    generalize (List.range (n + 1)).foldl indexSetId s = t at ih
    have := ih.1.resize (id := n + 1) (by omega)
    exact ⟨this.1, this.2.1⟩

theorem replayItem_dirty (br : Branches) (s : Store) (u off : Nat) (it : Item) :
    (replayItem br s u off it).2.dirty = s.dirty ∧ (replayItem br s u off it).2.indexid = s.indexid := by
  unfold replayItem
  have hu : ∀ t : Store, (replayUser br t u off it).2.dirty = t.dirty ∧ (replayUser br t u off it).2.indexid = t.indexid := by
    intro t
    unfold replayUser insertMemUser updateStats
    dsimp only
    repeat' split
    all_goals exact ⟨rfl, rfl⟩
  have hq : ∀ t : Store, (replaySeq t it).dirty = t.dirty ∧ (replaySeq t it).indexid = t.indexid := by
    intro t
    unfold replaySeq
    dsimp only
    split <;> exact ⟨rfl, rfl⟩
  dsimp only
  generalize ht : (if off = ihdrLen then { s with seqmap := s.seqmap.map (· ++ [(s.nextentry, s.indexid)]) } else s : Store) = t
  have h1 : t.dirty = s.dirty := by rw [← ht]; split <;> rfl
  have h2 : t.indexid = s.indexid := by rw [← ht]; split <;> rfl
  rw [← h1, ← h2]
  cases t.mode
  · exact hu t
  · exact hq t

theorem replayItems_dirty (its : List Item) (br : Branches) (s : Store) (u off : Nat) :
    (replayItems br s u off its).2.dirty = s.dirty ∧ (replayItems br s u off its).2.indexid = s.indexid := by
  induction its generalizing br s off with
  | nil => exact ⟨rfl, rfl⟩
  | cons it its ih =>
    unfold replayItems
    have := replayItem_dirty br s u off it
    generalize replayItem br s u off it = x at this
    obtain ⟨b, t⟩ := x
    dsimp only at this ⊢
    rw [(ih _ _ _).1, (ih _ _ _).2]
    exact this

/-- The store `index_load_file` leaves. -/
def FileRes.keeps (s : Store) : FileRes → Prop
  | .next _ t => t.dirty = s.dirty ∧ t.indexid = s.indexid
  | .stop _ t => t.dirty = s.dirty ∧ t.indexid = s.indexid
  | _ => True

theorem loadBody_keeps (cfg : Option Mode) (br : Branches) (s : Store) (u : Nat) (f : Bytes) (fresh : Bool) :
    (loadBody cfg br s u f fresh).keeps s := by
  unfold loadBody
  dsimp only
  split
  · exact trivial
  split
  · exact trivial
  split
  · exact trivial
  rename_i its _
  have := replayItems_dirty its br { rehash { s with mode := applyMode s.mode (decIHeader f).mode } with
    ifiles := (if s.indexid < s.ifiles.length then s.ifiles.set s.indexid (pwrite f 0 (encIHeader { decIHeader f with opened := 0 }))
               else s.ifiles ++ [pwrite f 0 (encIHeader { decIHeader f with opened := 0 })])
    nextid := 0 } u ihdrLen
  split <;> exact this

theorem loadFile_keeps (cfg : Option Mode) (br : Branches) (s : Store) (u : Nat) : (loadFile cfg br s u).keeps s := by
  unfold loadFile
  dsimp only
  split
  · split
    · exact ⟨rfl, rfl⟩
    · exact loadBody_keeps _ _ _ _ _ _
  · split
    · exact trivial
    · exact loadBody_keeps _ _ _ _ _ _

theorem loadLoop_dirty (cfg : Option Mode) (u : Nat) (d : Dirty) (ids : List Nat) (hids : ∀ id ∈ ids, id ≤ d.maxid)
    (br : Branches) (s : Store) (h1 : s.dirty = d) (h2 : s.indexid ≤ d.maxid) {br' : Branches} {s' : Store}
    (h : loadLoop cfg u ids br s = .ok br' s') : s'.dirty = d ∧ s'.indexid ≤ d.maxid := by
  induction ids generalizing br s with
  | nil =>
    simp only [loadLoop, LoadRes.ok.injEq] at h
    obtain ⟨-, rfl⟩ := h
    exact ⟨h1, h2⟩
  | cons id ids ih =>
    have hid := hids id (List.mem_cons_self ..)
    have hset : (indexSetId s id).dirty = d ∧ (indexSetId s id).indexid = id := by
      refine ⟨?_, rfl⟩
      simp only [indexSetId, dirtyResize, h1, if_pos hid]
    have hk := loadFile_keeps cfg br (indexSetId s id) u
    unfold loadLoop at h
    generalize loadFile cfg br (indexSetId s id) u = x at hk h
    cases x with
    | next b t =>
      simp only [FileRes.keeps] at hk
      rw [hset.1, hset.2] at hk
      exact ih (fun i hi => hids i (List.mem_cons_of_mem _ hi)) b t hk.1 (by rw [hk.2]; exact hid) h
    | stop b t =>
      simp only [FileRes.keeps] at hk
      rw [hset.1, hset.2] at hk
      simp only [LoadRes.ok.injEq] at h
      obtain ⟨-, rfl⟩ := h
      exact ⟨hk.1, by rw [hk.2]; exact hid⟩
    | exit => cases h
    | ub => cases h

/-- After loading no file is listed. -/
theorem loadNs_dirty {cfg : Option Mode} {br br' : Branches} {u : Nat} {fi fd : List Bytes} {s' : Store}
    (h : loadNs cfg br u fi fd = .ok br' s') : s'.DW ∧ ∀ i, dirtyGet s'.dirty i = false := by
  unfold loadNs at h
  dsimp only at h
  have h0 : DZ (initRoot cfg fi fd).dirty := by
    have e : (initRoot cfg fi fd).dirty = { maxid := 1, map := [0], oob := false } := by
      simp [initRoot, rehash, dirtyResize]
    rw [e]
    exact ⟨rfl, rfl, Nat.le_refl _, by simp⟩
  obtain ⟨z1, z2⟩ := h0.foldl (maxFiles fi)
  have z3 : ((List.range (maxFiles fi + 1)).foldl indexSetId (initRoot cfg fi fd)).indexid = maxFiles fi := by
    rw [List.range_succ, List.foldl_append]; rfl
  generalize (List.range (maxFiles fi + 1)).foldl indexSetId (initRoot cfg fi fd) = t at h z1 z2 z3
  have hids : ∀ id ∈ (if maxFiles fi > 0 then List.range (maxFiles fi) else [0]), id ≤ t.dirty.maxid := by
    intro id hid
    split at hid
    · rw [List.mem_range] at hid; omega
    · simp at hid; omega
  generalize hr : loadLoop cfg u (if maxFiles fi > 0 then List.range (maxFiles fi) else [0]) br t = r at h
  cases r with
  | ok b v =>
    have hv := loadLoop_dirty cfg u t.dirty _ hids br t rfl (by omega) hr
    simp only [LoadRes.ok.injEq] at h
    obtain ⟨-, rfl⟩ := h
    have e1 : (dataOpen v v.indexid).dirty = t.dirty := hv.1
    have e2 : (dataOpen v v.indexid).indexid = v.indexid := rfl
    have hz : ∀ i, dirtyGet (dataOpen v v.indexid).dirty i = false := by
      rw [e1]; exact dirtyGet_zeros z1.zero
    refine ⟨⟨by rw [e1]; exact z1.oob, by rw [e1]; exact z1.len, by rw [e1]; exact z1.one, by rw [e1, e2]; exact hv.2, ?_⟩, hz⟩
    intro i hi
    rw [hz i] at hi; cases hi
  | exit => cases h
  | ub => cases h

theorem reloadNs_dirty {cfg : Option Mode} {br br' : Branches} {u : Nat} {s s' : Store}
    (h : reloadNs cfg br u s = .ok br' s') : s'.DW ∧ ∀ i, dirtyGet s'.dirty i = false := loadNs_dirty h

/-! ### executions -/

theorem UInv.modRun {cfg : Option Mode} (hcfg : cfg = none ∨ cfg = some .user) {u : Nat} {br br' : Branches}
    {s s' : Store} {M M' : Nat → Prop} {tr : List (NsEvent × Reply)} (hr : ModRun cfg AnyEv u br s M tr br' s' M') {G : Log}
    (h : UInv br u s G) (hev : ∀ x ∈ tr, EvOK x.1) (hroom : Room s.ifiles.length (totalData s) tr.length)
    (hw : s.DW) (hM : ∀ i, dirtyGet s.dirty i = true ↔ M i) :
    s'.DW ∧ ∀ i, dirtyGet s'.dirty i = true ↔ M' i := by
  induction hr generalizing G with
  | nil br s M => exact ⟨hw, hM⟩
  | @cmd c d argv br br1 br2 s s1 s2 r M M2 tr hu h1 _ h2 ih =>
    subst hu
    obtain ⟨hc, ha⟩ := hev _ (List.mem_cons_self ..)
    obtain ⟨G1, i1, -, -, -⟩ := h.command hc d argv ha (hroom.mono (by simp))
    have hb := h.bits hw hc d argv (by have := hroom.1; omega)
    have hg := dsCommand_grows c br s d argv (2 ^ 23) ha.size
    rw [h1] at i1 hg hb
    refine ih i1 (fun x hx => hev x (List.mem_cons_of_mem _ hx)) (hroom.step hg (by omega)) hb.1 (fun i => ?_)
    rw [hb.2 i, hM i]
  | @foreign br br1 br2 s s2 M M2 tr h1 _ h2 ih =>
    exact ih (h.foreign h1) (fun x hx => hev x (List.mem_cons_of_mem _ hx)) (hroom.mono (by simp)) hw hM
  | @reload br br1 br2 s s1 s2 M M2 tr h1 _ h2 ih =>
    have hlen := h.irep.length
    obtain ⟨b, t, k1, k2, k3, k4, -⟩ := h.reload cfg hcfg (by have := hroom.1; omega)
    rw [h1] at k1
    injection k1 with k1 k1'
    subst k1; subst k1'
    have hd := reloadNs_dirty h1
    exact ih k2 (fun x hx => hev x (List.mem_cons_of_mem _ hx))
      (by rw [k3, totalData, k4]; exact hroom.mono (by simp)) hd.1 (fun i => by rw [hd.2 i]; simp)

theorem SInv.modRun {cfg : Option Mode} (hcfg : cfg = none ∨ cfg = some .seq) {u : Nat} {br br' : Branches}
    {s s' : Store} {M M' : Nat → Prop} {tr : List (NsEvent × Reply)} (hr : ModRun cfg CleanEv u br s M tr br' s' M') {G : Log}
    (h : SInv s G) (hev : ∀ x ∈ tr, EvOK x.1) (hnear : NearRun (absSlots G) (tr.map (·.1)))
    (hroom : Room s.ifiles.length (totalData s) tr.length) (hw : s.DW) (hM : ∀ i, dirtyGet s.dirty i = true ↔ M i) :
    s'.DW ∧ ∀ i, dirtyGet s'.dirty i = true ↔ M' i := by
  induction hr generalizing G with
  | nil br s M => exact ⟨hw, hM⟩
  | @cmd c d argv br br1 br2 s s1 s2 r M M2 tr hu h1 hcl h2 ih =>
    subst hu
    obtain ⟨hc, ha⟩ := hev _ (List.mem_cons_self ..)
    obtain ⟨G1, i0, i1, i2, i3⟩ := h.command (br := br) hc d argv ha (hroom.mono (by simp)) hnear.1
      (by rw [h1]; exact hcl)
    have hb := h.bits (br := br) hw hc d argv ha (by have := hroom.1; omega) hnear.1 (by rw [h1]; exact hcl)
    have hg := dsCommand_grows c br s d argv (2 ^ 23) ha.size
    rw [h1] at i1 hg hb
    have hnear2 := hnear.2
    simp only [specSeqEvent] at hnear2
    rw [← i2] at hnear2
    refine ih i1 (fun x hx => hev x (List.mem_cons_of_mem _ hx)) hnear2 (hroom.step hg (by omega)) hb.1 (fun i => ?_)
    rw [hb.2 i, hM i]
  | @foreign br br1 br2 s s2 M M2 tr h1 _ h2 ih =>
    exact ih h (fun x hx => hev x (List.mem_cons_of_mem _ hx)) hnear.2 (hroom.mono (by simp)) hw hM
  | @reload br br1 br2 s s1 s2 M M2 tr h1 hcl h2 ih =>
    have hlen := h.irep.length
    have hlast : G.length = 1 ∨ 29 < logEnd G := by
      rcases hcl with hcl | hcl
      · left; have := h.iid; omega
      · right; rw [h.fileLen] at hcl; exact hcl
    obtain ⟨t, k1, k2, k3, k4, -⟩ := h.reload br u cfg hcfg (by have := hroom.1; omega) hlast
    rw [h1] at k1
    injection k1 with k1 k1'
    subst k1; subst k1'
    have hd := reloadNs_dirty h1
    exact ih k2 (fun x hx => hev x (List.mem_cons_of_mem _ hx)) hnear.2
      (by rw [k3, totalData, k4]; exact hroom.mono (by simp)) hd.1 (fun i => by rw [hd.2 i]; simp)

/-- Every execution has its set of modified files. -/
theorem NsRun.mods {cfg : Option Mode} {u : Nat} {br br' : Branches} {s s' : Store} {tr : List (NsEvent × Reply)}
    (h : NsRun cfg u br s tr br' s') (M : Nat → Prop) : ∃ M', ModRun cfg AnyEv u br s M tr br' s' M' := by
  induction h generalizing M with
  | nil br s => exact ⟨M, .nil br s M⟩
  | cmd c d argv hu h1 _ ih => obtain ⟨M', h'⟩ := ih _; exact ⟨M', .cmd c d argv hu h1 trivial h'⟩
  | foreign h1 _ ih => obtain ⟨M', h'⟩ := ih M; exact ⟨M', .foreign h1 trivial h'⟩
  | reload h1 _ ih => obtain ⟨M', h'⟩ := ih _; exact ⟨M', .reload h1 trivial h'⟩

theorem CleanRun.mods {cfg : Option Mode} {u : Nat} {br br' : Branches} {s s' : Store} {tr : List (NsEvent × Reply)}
    (h : CleanRun cfg u br s tr br' s') (M : Nat → Prop) : ∃ M', ModRun cfg CleanEv u br s M tr br' s' M' := by
  induction h generalizing M with
  | nil br s => exact ⟨M, .nil br s M⟩
  | cmd c d argv hu h1 hc _ ih => obtain ⟨M', h'⟩ := ih _; exact ⟨M', .cmd c d argv hu h1 hc h'⟩
  | foreign h1 _ ih => obtain ⟨M', h'⟩ := ih M; exact ⟨M', .foreign h1 trivial h'⟩
  | reload h1 hc _ ih => obtain ⟨M', h'⟩ := ih _; exact ⟨M', .reload h1 hc h'⟩

end Zdb
