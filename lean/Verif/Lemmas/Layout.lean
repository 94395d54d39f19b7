import Verif.Model.Layout
import Verif.Lemmas.Bytes
namespace Zdb

@[simp] theorem encItem_length (it : Item) : (encItem it).length = 34 + it.id.length := by
  simp [encItem]; omega

@[simp] theorem encDHdr_length (h : DHdr) : (encDHdr h).length = 18 := by
  simp [encDHdr]

@[simp] theorem encBKey_length (k : BKey) : (encBKey k).length = 17 := by simp [encBKey]

@[simp] theorem encEKey_length (k : EKey) : (encEKey k).length = 8 := by simp [encEKey]

theorem encIHeader_length (h : IHeader) (hm : h.magic.length = 4) : (encIHeader h).length = 29 := by
  simp [encIHeader, hm]

theorem encDFHeader_length (h : DFHeader) (hm : h.magic.length = 4) :
    (encDFHeader h).length = 28 := by
  simp [encDFHeader, hm]

@[simp] theorem freshIHeader_length (i m : Nat) : (encIHeader (freshIHeader i m)).length = 29 :=
  encIHeader_length _ rfl

@[simp] theorem freshDFHeader_length (i : Nat) : (encDFHeader (freshDFHeader i)).length = 28 :=
  encDFHeader_length _ rfl

/-- reading past a prefix of known length -/
theorem pread_skip (a b : Bytes) (off len : Nat) (h : a.length ≤ off) :
    pread (a ++ b) off len = pread b (off - a.length) len := by
  simp [pread, List.drop_append, List.drop_eq_nil_of_le h]

theorem pread_head (a b : Bytes) (len : Nat) (h : len = a.length) : pread (a ++ b) 0 len = a := by
  subst h; simp [pread]

theorem pread_all (a : Bytes) (len : Nat) (h : len = a.length) : pread a 0 len = a := by
  subst h; simp [pread]

theorem fromLE_toLE1 {n : Nat} (h : n < 256) : fromLE (toLE 1 n) = n :=
  fromLE_toLE_of_lt (by simpa using h)
theorem fromLE_toLE4 {n : Nat} (h : n < 2 ^ 32) : fromLE (toLE 4 n) = n :=
  fromLE_toLE_of_lt (by simpa using h)
theorem fromLE_toLE8 {n : Nat} (h : n < 2 ^ 64) : fromLE (toLE 8 n) = n :=
  fromLE_toLE_of_lt (by simpa using h)

theorem drop_toLE {k m : Nat} (n : Nat) (h : k ≤ m) : List.drop m (toLE k n) = [] :=
  List.drop_of_length_le (by simpa using h)

theorem decItem_encItem_append (it : Item) (h : it.WF) (tail : Bytes) :
    decItem (encItem it ++ tail) = { it with id := it.id ++ tail } := by
  obtain ⟨h0, h1, h2, h3, h4, h5, h6, h7, h8, h9, h10⟩ := h
  have hid : it.idlength < 256 := by omega
  cases it
  simp_all [decItem, encItem, pread_skip, pread_head, fromLE_toLE1, fromLE_toLE4,
    List.drop_append, drop_toLE]

theorem decItem_encItem (it : Item) (h : it.WF) : decItem (encItem it) = it := by
  have := decItem_encItem_append it h []
  simpa using this

theorem encItem_inj {a b : Item} (ha : a.WF) (hb : b.WF) (h : encItem a = encItem b) : a = b := by
  rw [← decItem_encItem a ha, ← decItem_encItem b hb, h]

theorem decDHdr_encDHdr_append (h : DHdr) (hw : h.WF) (tail : Bytes) :
    decDHdr (encDHdr h ++ tail) = h := by
  obtain ⟨h0, h1, h2, h3, h4, h5⟩ := hw
  cases h
  simp_all [decDHdr, encDHdr, pread_skip, pread_head, fromLE_toLE1, fromLE_toLE4]

theorem decDHdr_encDHdr (h : DHdr) (hw : h.WF) : decDHdr (encDHdr h) = h := by
  have := decDHdr_encDHdr_append h hw []
  simpa using this

theorem decIHeader_encIHeader (h : IHeader) (hw : h.WF) : decIHeader (encIHeader h) = h := by
  obtain ⟨h0, h1, h2, h3, h4, h5⟩ := hw
  cases h
  simp_all [decIHeader, encIHeader, pread_skip, pread_head, pread_all, fromLE_toLE1, fromLE_toLE4,
    fromLE_toLE8]

theorem decDFHeader_encDFHeader (h : DFHeader) (hw : h.WF) : decDFHeader (encDFHeader h) = h := by
  obtain ⟨h0, h1, h2, h3, h4⟩ := hw
  cases h
  simp_all [decDFHeader, encDFHeader, pread_skip, pread_head, pread_all, fromLE_toLE4,
    fromLE_toLE8]

theorem decBKey_encBKey (k : BKey) (hw : k.WF) : decBKey (encBKey k) = k := by
  obtain ⟨h0, h1, h2, h3, h4⟩ := hw
  cases k
  simp_all [decBKey, encBKey, pread_skip, pread_head, pread_all, fromLE_toLE1, fromLE_toLE4]

theorem decEKey_encEKey (k : EKey) (hw : k.WF) : decEKey (encEKey k) = k := by
  obtain ⟨h0, h1⟩ := hw
  cases k
  simp_all [decEKey, encEKey, pread_skip, pread_head, pread_all, fromLE_toLE4]

/-- Overwriting the flags of an encoded item. -/
theorem setItemFlags_encItem (it : Item) (fl : Nat) :
    setItemFlags (encItem it) fl = encItem { it with flags := fl } := by
  have hp : ∀ a b c : Bytes, a.length = 13 → b.length = 1 →
      setItemFlags (a ++ (b ++ c)) fl = a ++ (toLE 1 fl ++ c) := by
    intro a b c ha hb
    have h1 : (a ++ (b ++ c)).drop 14 = c := by
      rw [show a ++ (b ++ c) = (a ++ b) ++ c by simp]
      rw [List.drop_append_of_le_length (by simp [ha, hb])]
      rw [List.drop_of_length_le (by simp [ha, hb])]; rfl
    rw [setItemFlags, h1, List.take_append_of_le_length (by omega), List.take_of_length_le (by omega)]
  have hs : encItem it = (toLE 1 it.idlength ++ (toLE 4 it.offset ++ (toLE 4 it.length ++
      toLE 4 it.previous))) ++ (toLE 1 it.flags ++ (toLE 4 it.dataid ++ (toLE 4 it.timestamp ++
      (toLE 4 it.crc ++ (toLE 4 it.parentid ++ (toLE 4 it.parentoff ++ it.id)))))) := by
    simp [encItem]
  rw [hs, hp _ _ _ (by simp) (by simp)]
  simp [encItem]

end Zdb
