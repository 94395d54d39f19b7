/-
Which files FLUSH removes (C34).
-/
import Verif.Model.Clean
import Verif.Lemmas.Infix
import Verif.Lemmas.Wire
namespace Zdb

/-- `zdb-data-` or `zdb-index-`. -/
def OldWord (w : Bytes) : Prop := w = Wire.chars "zdb-data-" ∨ w = Wire.chars "zdb-index-"

theorem wordZdbData_eq : wordZdbData = Wire.chars "zdb-data-" := by decide +kernel
theorem wordZdbIndex_eq : wordZdbIndex = Wire.chars "zdb-index-" := by decide +kernel

theorem OldWord.bytes {w : Bytes} (h : OldWord w) : 47 ∉ w ∧ 122 ∈ w := by
  rcases h with rfl | rfl <;> decide +kernel

theorem isPrefix_drop {w p : Bytes} {n : Nat} (hn : n = w.length + 5) (hl : n ≤ p.length) :
    w.isPrefixOf (p.drop (p.length - n)) = true ↔ ∃ a y, p = a ++ w ++ y ∧ y.length = 5 := by
  rw [List.isPrefixOf_iff_prefix]
  constructor
  · rintro ⟨t, ht⟩
    refine ⟨p.take (p.length - n), t, ?_, ?_⟩
    · rw [List.append_assoc, ht, List.take_append_drop]
    · have := congrArg List.length ht
      simp only [List.length_append, List.length_drop] at this
      omega
  · rintro ⟨a, y, rfl, hy⟩
    have e : (a ++ w ++ y).length - n = a.length := by simp only [List.length_append]; omega
    rw [e, List.append_assoc, List.drop_left]
    exact ⟨y, rfl⟩

theorem cleanCb_iff (p : Bytes) : cleanCb p = some true ↔ 15 ≤ p.length ∧ ∃ w a y, OldWord w ∧ p = a ++ w ++ y ∧ y.length = 5 := by
  unfold cleanCb
  by_cases h1 : p.length < 15
  · constructor
    · intro h
      split at h
      · cases h
      · simp [h1] at h
    · rintro ⟨h, -⟩; omega
  · rw [if_neg (by omega)]
    simp only [if_neg h1, Option.some.injEq, Bool.or_eq_true]
    rw [isPrefix_drop (by rfl) (by omega), isPrefix_drop (by rfl) (by omega), wordZdbData_eq, wordZdbIndex_eq]
    constructor
    · rintro (⟨a, y, h, hy⟩ | ⟨a, y, h, hy⟩)
      · exact ⟨by omega, _, a, y, Or.inl rfl, h, hy⟩
      · exact ⟨by omega, _, a, y, Or.inr rfl, h, hy⟩
    · rintro ⟨-, w, a, y, rfl | rfl, h, hy⟩
      · exact Or.inl ⟨a, y, h, hy⟩
      · exact Or.inr ⟨a, y, h, hy⟩

/-- A word in a path with a last name that lacks its `z` ends before that name. -/
theorem word_before {w a y p f : Bytes} (hw : OldWord w) (hf : 122 ∉ f) (h : p ++ 47 :: f = a ++ w ++ y) :
    ∃ x, p = a ++ w ++ x ∧ y = x ++ 47 :: f := by
  rcases List.append_eq_append_iff.1 h with ⟨z, h1, h2⟩ | ⟨z, h1, h2⟩
  · cases z with
    | nil => exact ⟨[], by simpa using h1.symm, by simpa using h2.symm⟩
    | cons b z =>
      exfalso
      simp only [List.cons_append, List.cons.injEq] at h2
      obtain ⟨rfl, h2⟩ := h2
      obtain ⟨h47, h122⟩ := hw.bytes
      rcases List.append_eq_append_iff.1 h1 with ⟨q, q1, q2⟩ | ⟨q, q1, q2⟩
      · apply h47; rw [q2]; simp
      · cases q with
        | nil => apply h47; rw [List.nil_append] at q2; rw [← q2]; simp
        | cons c q =>
          simp only [List.cons_append, List.cons.injEq] at q2
          apply hf
          rw [h2, q2.2]
          simp [h122]
  · exact ⟨z, h1, h2⟩

theorem file_no_z (b : UInt8) (hb : b ≠ 122) (n : Nat) : 122 ∉ b :: decBytes n := by
  rw [Wire.decBytes_eq, List.mem_cons]
  rintro (h | h)
  · exact hb h.symm
  · have := Wire.digits_range n _ h
    revert this
    decide

/-- Exactly which index files of the directory `p` are removed: those whose number has `d` digits if `p` ends with `zdb-data-` or
    `zdb-index-` and `3 - d` more bytes. -/
theorem C34_index_files (p : Bytes) (n : Nat) :
    cleanCb (indexFileName p n) = some true ↔
      15 ≤ (indexFileName p n).length ∧ ∃ w a x, OldWord w ∧ p = a ++ w ++ x ∧ x.length + (decBytes n).length = 3 := by
  rw [cleanCb_iff]
  refine and_congr_right (fun _ => ?_)
  constructor
  · rintro ⟨w, a, y, hw, h, hy⟩
    obtain ⟨x, h1, h2⟩ := word_before hw (file_no_z 105 (by decide) n) h
    refine ⟨w, a, x, hw, h1, ?_⟩
    rw [h2] at hy
    simp only [List.length_append, List.length_cons] at hy
    omega
  · rintro ⟨w, a, x, hw, rfl, hx⟩
    refine ⟨w, a, x ++ 47 :: 105 :: decBytes n, hw, by simp [indexFileName], ?_⟩
    simp only [List.length_append, List.length_cons]
    omega

theorem C34_data_files (p : Bytes) (n : Nat) :
    cleanCb (dataFileName p n) = some true ↔
      15 ≤ (dataFileName p n).length ∧ ∃ w a x, OldWord w ∧ p = a ++ w ++ x ∧ x.length + (decBytes n).length = 3 := by
  rw [cleanCb_iff]
  refine and_congr_right (fun _ => ?_)
  constructor
  · rintro ⟨w, a, y, hw, h, hy⟩
    obtain ⟨x, h1, h2⟩ := word_before hw (file_no_z 100 (by decide) n) h
    refine ⟨w, a, x, hw, h1, ?_⟩
    rw [h2] at hy
    simp only [List.length_append, List.length_cons] at hy
    omega
  · rintro ⟨w, a, x, hw, rfl, hx⟩
    refine ⟨w, a, x ++ 47 :: 100 :: decBytes n, hw, by simp [dataFileName], ?_⟩
    simp only [List.length_append, List.length_cons]
    omega

/-- The descriptor is never removed. -/
theorem C34_descriptor (p : Bytes) : cleanCb (descFileName p) ≠ some true := by
  rw [ne_eq, cleanCb_iff]
  rintro ⟨-, w, a, y, hw, h, hy⟩
  have hl := congrArg List.length h
  simp only [descFileName, List.length_append, List.length_cons, List.length_nil, hy] at hl
  have h3 := congrArg (fun l => l[p.length + 8]?) h
  have h4 : (descFileName p)[p.length + 8]? = some 101 := by
    rw [descFileName, List.getElem?_append_right (by omega), Nat.add_sub_cancel_left]; rfl
  have h5 : (a ++ w ++ y)[p.length + 8]? = w.getLast? := by
    rw [List.getElem?_append_left (by rw [List.length_append]; omega)]
    rcases hw with rfl | rfl
    · rw [List.getElem?_append_right (by simp [Wire.chars] at hl ⊢; omega), show p.length + 8 - a.length = 8 by
        simp [Wire.chars] at hl; omega]
      decide +kernel
    · rw [List.getElem?_append_right (by simp [Wire.chars] at hl ⊢; omega), show p.length + 8 - a.length = 9 by
        simp [Wire.chars] at hl; omega]
      decide +kernel
  simp only [h4, h5] at h3
  rcases hw with rfl | rfl <;> revert h3 <;> decide +kernel

/-- No file is removed from a directory whose path has none of the words.  This is what `cmdFlush` supposes. -/
theorem C34_nothing_removed {p : Bytes} (h1 : hasInfix wordZdbIndex p = false) (h2 : hasInfix wordZdbData p = false) (n : Nat) :
    cleanCb (indexFileName p n) ≠ some true ∧ cleanCb (dataFileName p n) ≠ some true ∧ cleanCb (descFileName p) ≠ some true := by
  have key : ¬ ∃ w a x, OldWord w ∧ p = a ++ w ++ x ∧ x.length + (decBytes n).length = 3 := by
    rintro ⟨w, a, x, rfl | rfl, h, -⟩
    · rw [← wordZdbData_eq] at h
      rw [(hasInfix_iff _ _).2 ⟨a, x, h⟩] at h2; cases h2
    · rw [← wordZdbIndex_eq] at h
      rw [(hasInfix_iff _ _).2 ⟨a, x, h⟩] at h1; cases h1
  exact ⟨fun h => key ((C34_index_files p n).1 h).2, fun h => key ((C34_data_files p n).1 h).2, C34_descriptor p⟩

/-- A directory without the words; a namespace named `zdb-data-ab`, of which the first ten files are removed. -/
theorem C34_files_example :
    cleanCb (indexFileName (Wire.chars "/srv/zdb/index/foo") 0) = some false ∧
    cleanCb (indexFileName (Wire.chars "/srv/index/zdb-data-ab") 9) = some true ∧
    cleanCb (dataFileName (Wire.chars "/srv/data/zdb-data-ab") 9) = some true ∧
    cleanCb (dataFileName (Wire.chars "/srv/data/zdb-data-ab") 10) = some false := by decide +kernel

/-- The callback is called on the directory itself, whose path may be shorter than 15 bytes. -/
theorem C34_short_path_refuted : cleanCb (Wire.chars "/data/foo") = none := by decide +kernel

end Zdb
