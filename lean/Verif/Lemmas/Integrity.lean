/-
The integrity-check tool on a file made of records.
-/
import Verif.Model.Integrity
import Verif.Spec.Integrity
import Verif.Lemmas.Layout
import Verif.Lemmas.RespBase
namespace Zdb

def SRec.hdr (r : SRec) : DHdr := ⟨r.id.length, r.payload.length, r.prev, r.crc, r.flags, r.time⟩

theorem SRec.enc_eq (r : SRec) : r.enc = encDHdr r.hdr ++ (r.id ++ r.payload) := rfl

theorem SRec.enc_length (r : SRec) : r.enc.length = 18 + r.id.length + r.payload.length := by
  rw [SRec.enc_eq]; simp [SRec.hdr]; omega

theorem SRec.hdr_wf {r : SRec} (h : r.WF) : r.hdr.WF := ⟨h.id, h.len, h.prev, h.crc, h.flags, h.time⟩

theorem crc32_spec (p : Bytes) : crc32 p = castagnoli (bufferBits p) := C25_software_is_castagnoli p

theorem encDHdr_first (h : DHdr) : (encDHdr h) = toLE 1 h.idlength ++ (encDHdr h).drop 1 := by
  simp [encDHdr, toLE]

/-- One turn of the loop on a record. -/
theorem integrityLoop_record {f A C : Bytes} {r : SRec} (hw : r.WF) (hf : f = A ++ (r.enc ++ C)) (fuel e : Nat) :
    integrityLoop f (fuel + 1) A.length e = integrityLoop f fuel (A ++ r.enc).length (if r.Bad then e + 1 else e) := by
  have h1 : readExact f A.length 1 = some (toLE 1 r.id.length) := by
    refine readExact_at (a := A) (b := toLE 1 r.id.length) (c := (encDHdr r.hdr).drop 1 ++ ((r.id ++ r.payload) ++ C)) ?_ rfl (by simp)
    rw [hf, SRec.enc_eq]
    conv => lhs; rw [encDHdr_first]
    simp [SRec.hdr]
  have hb : fromLE (toLE 1 r.id.length) = r.id.length := by rw [fromLE_toLE]; exact Nat.mod_eq_of_lt hw.id
  have h2 : readExact f A.length (dhdrLen + r.id.length) = some (encDHdr r.hdr ++ r.id) := by
    refine readExact_at (a := A) (c := r.payload ++ C) ?_ rfl (by simp [dhdrLen])
    rw [hf, SRec.enc_eq]; simp
  have hdec : decDHdr (encDHdr r.hdr ++ r.id) = r.hdr := decDHdr_encDHdr_append _ (SRec.hdr_wf hw) _
  have hpos : (A ++ r.enc).length = A.length + dhdrLen + r.id.length + r.payload.length := by
    rw [List.length_append, SRec.enc_length, dhdrLen]; omega
  have h3 : readExact f (A.length + dhdrLen + r.id.length) r.payload.length = some r.payload := by
    refine readExact_at (a := A ++ (encDHdr r.hdr ++ r.id)) (c := C) ?_ (by simp [dhdrLen]; omega) rfl
    rw [hf, SRec.enc_eq]; simp
  rw [integrityLoop]
  simp only [h1, hb, h2, hdec]
  rw [show r.hdr.datalength = r.payload.length from rfl, show r.hdr.integrity = r.crc from rfl, hpos]
  by_cases h0 : r.payload.length = 0
  · have hn : ¬ r.Bad := fun h => h.1 (List.eq_nil_of_length_eq_zero h0)
    rw [if_pos h0, if_neg hn, h0]; rfl
  · rw [if_neg h0, h3]
    simp only
    have hiff : (crc32 r.payload ≠ r.crc) ↔ r.Bad := by
      rw [crc32_spec]
      exact ⟨fun h => ⟨fun h' => h0 (by rw [h']; rfl), h⟩, fun h => h.2⟩
    by_cases hbad : r.Bad
    · rw [if_pos hbad, if_pos (hiff.2 hbad)]
    · rw [if_neg hbad, if_neg (fun h => hbad (hiff.1 h))]

theorem integrityLoop_records {f : Bytes} (g : List SRec) (hw : ∀ r ∈ g, r.WF) (A C : Bytes) (hf : f = A ++ (g.flatMap SRec.enc ++ C))
    (fuel e : Nat) :
    integrityLoop f (fuel + g.length) A.length e = integrityLoop f fuel (A ++ g.flatMap SRec.enc).length (e + badCount g) := by
  induction g generalizing A e with
  | nil => simp [badCount]
  | cons r g ih =>
    rw [List.length_cons, ← Nat.add_assoc,
      integrityLoop_record (C := g.flatMap SRec.enc ++ C) (hw r List.mem_cons_self) (by rw [hf]; simp) (fuel + g.length) e,
      ih (fun x hx => hw x (List.mem_cons_of_mem _ hx)) (A ++ r.enc) (by rw [hf]; simp)]
    congr 1
    · simp
    · simp only [badCount, List.countP_cons]
      by_cases hb : r.Bad <;> simp [hb] <;> omega

theorem enc_flatMap_length (g : List SRec) : g.length ≤ (g.flatMap SRec.enc).length := by
  induction g with
  | nil => simp
  | cons r g ih => rw [List.flatMap_cons, List.length_append, List.length_cons, SRec.enc_length]; omega

theorem goodHeader_read {h : Bytes} (hh : GoodHeader h) (T : Bytes) :
    readExact (h ++ T) 0 dfhdrLen = some h ∧ (decDFHeader h).magic = datMagic ∧ (decDFHeader h).version = 3 := by
  refine ⟨readExact_at (a := []) (c := T) rfl rfl hh.length.symm, ?_, ?_⟩
  · simp only [decDFHeader, pread, List.drop_zero]; exact hh.magic
  · simp only [decDFHeader, pread]; rw [hh.version]; decide

/-- The count of the tool on a whole file. -/
theorem dataIntegrity_count {h : Bytes} (hh : GoodHeader h) {g : List SRec} (hw : ∀ r ∈ g, r.WF) :
    dataIntegrity (some (encSFile h g)) = some (badCount g) := by
  obtain ⟨h1, h2, h3⟩ := goodHeader_read hh (g.flatMap SRec.enc)
  unfold dataIntegrity
  rw [encSFile]
  simp only [h1, h2, h3]
  rw [if_neg (by simp)]
  have hle := enc_flatMap_length g
  obtain ⟨k, hk⟩ : ∃ k, (h ++ g.flatMap SRec.enc).length + 1 = (k + 1) + g.length :=
    ⟨(h ++ g.flatMap SRec.enc).length - g.length, by rw [List.length_append]; omega⟩
  rw [hk, show dfhdrLen = h.length from hh.length.symm, integrityLoop_records g hw h [] (by simp), integrityLoop,
    readExact_eq_none (by decide) (by omega)]
  simp

/-- A file that ends inside a record. -/
theorem dataIntegrity_cut {h : Bytes} (hh : GoodHeader h) {g : List SRec} (hw : ∀ r ∈ g, r.WF) {r : SRec} (hr : r.WF)
    {t u : Bytes} (ht : r.enc = t ++ u) (ht0 : t ≠ []) (hu0 : u ≠ []) :
    dataIntegrity (some (encSFile h g ++ t)) = none := by
  obtain ⟨h1, h2, h3⟩ := goodHeader_read hh (g.flatMap SRec.enc ++ t)
  unfold dataIntegrity
  rw [encSFile, List.append_assoc]
  simp only [h1, h2, h3]
  rw [if_neg (by simp)]
  have hle := enc_flatMap_length g
  obtain ⟨k, hk⟩ : ∃ k, (h ++ (g.flatMap SRec.enc ++ t)).length + 1 = (k + 1) + g.length :=
    ⟨(h ++ (g.flatMap SRec.enc ++ t)).length - g.length, by rw [List.length_append, List.length_append]; omega⟩
  rw [hk, show dfhdrLen = h.length from hh.length.symm, integrityLoop_records g hw h t rfl]
  generalize hA : h ++ g.flatMap SRec.enc = A
  rw [← List.append_assoc, hA]
  have hlen := congrArg List.length ht
  rw [SRec.enc_length, List.length_append] at hlen
  have ht1 : 0 < t.length := List.length_pos_iff.2 ht0
  have hu1 : 0 < u.length := List.length_pos_iff.2 hu0
  have hb : fromLE (toLE 1 r.id.length) = r.id.length := by rw [fromLE_toLE]; exact Nat.mod_eq_of_lt hr.id
  have htk : ∀ n, n ≤ t.length → t.take n = r.enc.take n := fun n hn => by
    rw [ht, List.take_append_of_le_length hn]
  have hr1 : readExact (A ++ t) A.length 1 = some (toLE 1 r.id.length) := by
    rw [readExact_isSome (by simp; omega)]
    simp only [pread, List.drop_left]
    rw [htk 1 ht1, SRec.enc_eq, encDHdr_first]
    simp [SRec.hdr]
  rw [integrityLoop]
  simp only [hr1, hb]
  by_cases hc : 18 + r.id.length ≤ t.length
  · have hr2 : readExact (A ++ t) A.length (dhdrLen + r.id.length) = some (encDHdr r.hdr ++ r.id) := by
      rw [readExact_isSome (by simp [dhdrLen]; omega)]
      simp only [pread, List.drop_left]
      rw [htk _ (by rw [dhdrLen]; exact hc), SRec.enc_eq, ← List.append_assoc, List.take_append_of_le_length (by simp [dhdrLen])]
      rw [List.take_of_length_le (by simp [dhdrLen])]
    simp only [hr2, decDHdr_encDHdr_append _ (SRec.hdr_wf hr)]
    rw [show r.hdr.datalength = r.payload.length from rfl, if_neg (by omega),
      readExact_eq_none (by omega) (by simp [dhdrLen]; omega)]
  · rw [readExact_eq_none (by rw [dhdrLen]; omega) (by rw [List.length_append, dhdrLen]; omega)]

/-! ### names -/

theorem decimal_eq (n : Nat) : decimal n = Resp.digits n := by
  induction n using Nat.strongRecOn with
  | ind n ih =>
    rw [Resp.digits]
    have key : ∀ k, k < 10 → UInt8.ofNat (Nat.digitChar k).toNat = UInt8.ofNat (48 + k) := by decide
    split
    · rename_i h
      rw [decimal, Nat.toDigits_of_lt_base h, List.map_singleton, key n h]
    · rename_i h
      rw [← ih _ (by omega), decimal, decimal, Nat.toDigits_eq_if (by decide), if_neg h, List.map_append, List.map_singleton,
        key _ (Nat.mod_lt _ (by decide))]

theorem atoll_number {n : Nat} (hn : n < 2 ^ 32) : atoll (Resp.digits n) = (n : Int) := by
  obtain ⟨d, ds, h1, h2, h3⟩ := Resp.digits_head n
  have hsk : atollSkip (Resp.digits n) = Resp.digits n := by
    rw [h1, atollSkip, if_neg]
    rintro (h | h)
    · subst h; exact absurd h2 (by decide)
    · exact absurd (UInt8.le_trans h2 h.2) (by decide)
  have h45 : d ≠ 45 := fun h => by subst h; exact absurd h2 (by decide)
  have h43 : d ≠ 43 := fun h => by subst h; exact absurd h2 (by decide)
  unfold atoll
  rw [hsk]
  have : (min n (2 ^ 63 - 1) : Nat) = n := by omega
  split
  · rename_i h; rw [h1] at h; injection h with h _; exact absurd h h45
  · rename_i h; rw [h1] at h; injection h with h _; exact absurd h h43
  · rw [Resp.atollDigits_digits, this]

/-- Called with the old name of data file `i`, the tool checks that data file. -/
theorem integrityMain_old {dir : FileDir} {i : Nat} (hi : i < 2 ^ 32) {x : Bytes} (hx : dir.lookup (oldName i) = some x) :
    integrityMain dir (oldName i) =
      match dataIntegrity (dir.lookup (100 :: Resp.digits i)) with
      | none => 1
      | some n => n % 256 := by
  have h1 : (oldName i).take 9 = oldPrefix := by simp [oldName, oldPrefix]
  have h2 : (oldName i).drop 9 = Resp.digits i := by simp [oldName]
  have h3 : ((i : Int) % 2 ^ 32).toNat = i := by omega
  unfold integrityMain
  simp only [hx, h1, h2, atoll_number hi, h3, dataName, decimal_eq]
  rw [if_neg (by simp)]
  rfl

end Zdb
