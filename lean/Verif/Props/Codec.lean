/-
C40: encodings of the on-disk records and cursors.  (Namespace descriptors: Props/Descriptor.)
-/
import Verif.Lemmas.Layout
namespace Zdb

/-- C40, index entries: decoding gives back every field and the key, whatever bytes follow are not
    part of the fields. -/
theorem C40_index_entry (it : Item) (h : it.WF) : decItem (encItem it) = it := decItem_encItem it h

theorem C40_index_entry_injective (a b : Item) (ha : a.WF) (hb : b.WF) (h : encItem a = encItem b) :
    a = b := encItem_inj ha hb h

/-- C40, index entries in a row: the length byte delimits the entries, so a concatenation has
    only one reading. -/
theorem C40_index_entries_prefix_free (a b : Item) (ha : a.WF) (hb : b.WF) (x y : Bytes)
    (h : encItem a ++ x = encItem b ++ y) : a = b ∧ x = y := by
  have h1 : (decItem (encItem a ++ x)).idlength = (decItem (encItem b ++ y)).idlength := by rw [h]
  rw [decItem_encItem_append a ha, decItem_encItem_append b hb] at h1
  have hl : (encItem a).length = (encItem b).length := by
    simp only at h1
    rw [encItem_length, encItem_length, ← ha.1, ← hb.1, h1]
  obtain ⟨e1, e2⟩ := List.append_inj h hl
  exact ⟨encItem_inj ha hb e1, e2⟩

/-- C40, data record headers. -/
theorem C40_data_header (h : DHdr) (hw : h.WF) : decDHdr (encDHdr h) = h := decDHdr_encDHdr h hw

theorem C40_data_header_injective (a b : DHdr) (ha : a.WF) (hb : b.WF) (h : encDHdr a = encDHdr b) :
    a = b := by
  rw [← decDHdr_encDHdr a ha, h, decDHdr_encDHdr b hb]

/-- C40, whole data records (header, key, payload): the stream has only one reading. -/
theorem C40_data_records_prefix_free (a b : DHdr) (ha : a.WF) (hb : b.WF)
    (k1 k2 p1 p2 x y : Bytes)
    (hk1 : k1.length = a.idlength) (hk2 : k2.length = b.idlength)
    (hp1 : p1.length = a.datalength) (hp2 : p2.length = b.datalength)
    (h : encDHdr a ++ (k1 ++ (p1 ++ x)) = encDHdr b ++ (k2 ++ (p2 ++ y))) :
    a = b ∧ k1 = k2 ∧ p1 = p2 ∧ x = y := by
  obtain ⟨e1, e2⟩ := List.append_inj h (by simp)
  have hab := C40_data_header_injective a b ha hb e1
  subst hab
  obtain ⟨e3, e4⟩ := List.append_inj e2 (by omega)
  obtain ⟨e5, e6⟩ := List.append_inj e4 (by omega)
  exact ⟨rfl, e3, e5, e6⟩

/-- C40, file headers. -/
theorem C40_index_file_header (h : IHeader) (hw : h.WF) : decIHeader (encIHeader h) = h :=
  decIHeader_encIHeader h hw

theorem C40_data_file_header (h : DFHeader) (hw : h.WF) : decDFHeader (encDFHeader h) = h :=
  decDFHeader_encDFHeader h hw

/-- C40, SCAN cursors. -/
theorem C40_scan_cursor (k : BKey) (hw : k.WF) : decBKey (encBKey k) = k := decBKey_encBKey k hw

theorem C40_scan_cursor_injective (a b : BKey) (ha : a.WF) (hb : b.WF) (h : encBKey a = encBKey b) :
    a = b := by
  rw [← decBKey_encBKey a ha, h, decBKey_encBKey b hb]

/-- C40, HISTORY cursors. -/
theorem C40_history_cursor (k : EKey) (hw : k.WF) : decEKey (encEKey k) = k := decEKey_encEKey k hw

theorem C40_history_cursor_injective (a b : EKey) (ha : a.WF) (hb : b.WF) (h : encEKey a = encEKey b) :
    a = b := by
  rw [← decEKey_encEKey a ha, h, decEKey_encEKey b hb]

/-- Sequential ids: 8 bytes little-endian. -/
theorem C40_sequential_id (n : Nat) (h : n < 2 ^ 64) : fromLE (toLE 8 n) = n := fromLE_toLE8 h

/-- A well-formed entry with a 3-byte key and large fields. -/
example : Item.WF { idlength := 3, offset := 4000000000, length := 8388608, previous := 29, flags := 1,
                    dataid := 7, timestamp := 1700000000, crc := 0xdeadbeef, parentid := 2,
                    parentoff := 66, id := [1, 0, 255] } := by
  simp [Item.WF]

example : DHdr.WF { idlength := 3, datalength := 8388608, previous := 29, integrity := 0xdeadbeef,
                    flags := 1, timestamp := 1700000000 } := by simp [DHdr.WF]
example : BKey.WF { idlength := 8, fileid := 3, length := 5, idxoffset := 71, crc := 9 } := by
  simp [BKey.WF]
example : IHeader.WF (freshIHeader 5 1) := by simp [IHeader.WF, freshIHeader, idxMagic]
example : DFHeader.WF (freshDFHeader 5) := by simp [DFHeader.WF, freshDFHeader, datMagic]

end Zdb
