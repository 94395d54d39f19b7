/-
C72: DATA RAW shows whole records of the file asked for and nothing else, whatever the file holds.
-/
import Verif.Spec.DataRaw
import Verif.Spec.Example
import Verif.Lemmas.DataRaw
namespace Zdb

/-- Eighteen bytes are the header they decode to. -/
theorem encDHdr_decDHdr {b : Bytes} (hb : b.length = 18) : encDHdr (decDHdr b) = b ∧ (decDHdr b).WF := by
  have hl : ∀ o n, o + n ≤ 18 → (pread b o n).length = n := by
    intro o n h
    simp only [pread, List.length_take, List.length_drop, hb]
    omega
  have ht : ∀ o n, o + n ≤ 18 → toLE n (fromLE (pread b o n)) = pread b o n := by
    intro o n h
    have := toLE_fromLE (pread b o n)
    rwa [hl o n h] at this
  have hlt : ∀ o n, o + n ≤ 18 → fromLE (pread b o n) < 256 ^ n := by
    intro o n h
    have := fromLE_lt (pread b o n)
    rwa [hl o n h] at this
  constructor
  · simp only [encDHdr, decDHdr]
    rw [ht 0 1 (by omega), ht 1 4 (by omega), ht 5 4 (by omega), ht 9 4 (by omega), ht 13 1 (by omega), ht 14 4 (by omega)]
    have cut : ∀ o n, pread b o n ++ b.drop (o + n) = b.drop o := by
      intro o n
      simp only [pread, ← List.drop_drop]
      exact List.take_append_drop n (b.drop o)
    have e : pread b 14 4 = b.drop 14 := by
      simp only [pread]
      exact List.take_of_length_le (by rw [List.length_drop, hb]; exact Nat.le_refl _)
    rw [e, cut 13 1, cut 9 4, cut 5 4, cut 1 4, cut 0 1]
    rfl
  · have h0 := hlt 0 1 (by omega)
    have h1 := hlt 1 4 (by omega)
    have h2 := hlt 5 4 (by omega)
    have h3 := hlt 9 4 (by omega)
    have h4 := hlt 13 1 (by omega)
    have h5 := hlt 14 4 (by omega)
    simp only [DHdr.WF, decDHdr]
    omega

theorem readExact_cut {f : Bytes} {o n : Nat} {b : Bytes} (h : readExact f o n = some b) :
    b.length = n ∧ f.drop o = b ++ f.drop (o + n) := by
  unfold readExact at h
  simp only at h
  split at h
  · next e =>
    cases h
    refine ⟨e, ?_⟩
    simp only [pread, ← List.drop_drop]
    exact (List.take_append_drop n (f.drop o)).symm
  · cases h

/-- What is found lies in the file. -/
theorem dataRaw_sound {s : Store} {i : Nat} {off : Int} {h : DHdr} {id p : Bytes} (e : dataRaw s i off = .found h id p) :
    ∃ f, s.dfiles[i]? = some f ∧ 0 ≤ off ∧ RecordAt f off.toNat h id p ∧ p.length ≤ 8 * 1024 * 1024 ∧ h.flags % 2 = 0 := by
  unfold dataRaw at e
  split at e
  · cases e
  · next f hf =>
    split at e
    · cases e
    · next h1 =>
      split at e
      · cases e
      · next h2 =>
        dsimp only at e
        split at e
        · cases e
        · next b hb =>
          split at e
          · cases e
          · next h3 =>
            split at e
            · next id' p' hid hp =>
              split at e
              · cases e
              · next h4 =>
                cases e
                obtain ⟨l0, d0⟩ := readExact_cut hb
                obtain ⟨l1, d1⟩ := readExact_cut hid
                obtain ⟨l2, d2⟩ := readExact_cut hp
                obtain ⟨he, hw⟩ := encDHdr_decDHdr (b := b) l0
                refine ⟨f, hf, by omega, ⟨f.take off.toNat,
                  f.drop (off.toNat + dhdrLen + (decDHdr b).idlength + (decDHdr b).datalength), ?_, ?_, hw, l1.symm, l2.symm⟩, ?_, ?_⟩
                · rw [he, ← d2, ← d1, ← d0]
                  exact (List.take_append_drop _ _).symm
                · rw [List.length_take]
                  omega
                · rw [l2]
                  have : (2 : Nat) ^ 23 = 8 * 1024 * 1024 := by decide
                  omega
                · simp only [isDeleted, beq_iff_eq] at h4
                  omega
            · cases e

/-- A record that is there is found. -/
theorem dataRaw_complete {s : Store} {i off : Nat} {f : Bytes} {h : DHdr} {id p : Bytes} (hf : s.dfiles[i]? = some f)
    (hr : RecordAt f off h id p) (hl : p.length ≤ 8 * 1024 * 1024) (hd : h.flags % 2 = 0) :
    dataRaw s i off = .found h id p := by
  obtain ⟨a, z, rfl, rfl, hw, e1, e2⟩ := hr
  have r1 : readExact (a ++ (encDHdr h ++ (id ++ (p ++ z)))) a.length dhdrLen = some (encDHdr h) :=
    readExact_at rfl rfl (by simp [dhdrLen])
  have r2 : readExact (a ++ (encDHdr h ++ (id ++ (p ++ z)))) (a.length + dhdrLen) h.idlength = some id :=
    readExact_at (a := a ++ encDHdr h) (c := p ++ z) (by simp) (by simp [dhdrLen]) e1
  have r3 : readExact (a ++ (encDHdr h ++ (id ++ (p ++ z)))) (a.length + dhdrLen + h.idlength) h.datalength = some p :=
    readExact_at (a := a ++ encDHdr h ++ id) (c := z) (by simp) (by simp [dhdrLen, e1]; omega) e2
  unfold dataRaw
  rw [hf]
  dsimp only
  rw [if_neg (by simp; omega), if_neg (by omega)]
  simp only [Int.toNat_natCast, r1, decDHdr_encDHdr h hw, r2, r3]
  have : (2 : Nat) ^ 23 = 8 * 1024 * 1024 := by decide
  rw [if_neg (by omega), if_neg (by simp [isDeleted]; omega)]

theorem RecordAt.shown {f : Bytes} {off : Nat} {h : DHdr} {id p : Bytes} (hr : RecordAt f off h id p) : rawShown h id p =
    [.bulk id, .int h.previous, .bulk (hex8 h.integrity), .int h.flags, .int h.timestamp, .bulk p] := by
  obtain ⟨_, _, _, _, hw, _⟩ := hr
  rw [rawShown, hex8_eq]
  obtain ⟨_, _, _, hw, _⟩ := hw
  exact hw

/-- **C72.** Whatever the data files hold, DATA RAW of an administrator answers with an array exactly if a whole record
    that can be shown lies at the place asked for, and the array is this record; otherwise it answers an error. -/
theorem C72 {c : Ctx} (had : c.admin = true) (s : Store) {name : Bytes} (hn : name ≠ []) {i off : Nat} (hi : i < 2 ^ 32)
    (ho : off < 2 ^ 63) :
    (∀ l, cmdData c s (rawArgs name i off) = .arr l ↔
      ∃ f h id p, s.dfiles[i]? = some f ∧ RecordAt f off h id p ∧ Showable h p ∧ l = rawShown h id p) ∧
    ((∃ l, cmdData c s (rawArgs name i off) = .arr l) ∨ ∃ e, cmdData c s (rawArgs name i off) = .err e) := by
  rw [cmdData_raw had s hn hi ho]
  constructor
  · intro l
    constructor
    · intro e
      split at e
      · cases e
      · cases e
      · cases e
      · next h id p hd =>
        split at e
        · cases e
        · next hz =>
          cases e
          obtain ⟨f, hf, -, hr, hl, hfl⟩ := dataRaw_sound hd
          refine ⟨f, h, id, p, hf, hr, ⟨?_, hl, hfl⟩, by rw [hr.shown]⟩
          rintro rfl
          obtain ⟨_, _, _, _, _, _, e2⟩ := hr
          exact hz e2
    · rintro ⟨f, h, id, p, hf, hr, ⟨hp, hl, hfl⟩, rfl⟩
      rw [dataRaw_complete hf hr hl hfl]
      have hs := hr.shown
      obtain ⟨_, _, _, _, _, _, e2⟩ := hr
      simp only
      rw [if_neg]
      · rw [hs]
      · intro e
        exact hp (List.length_eq_zero_iff.1 (by omega))
  · split
    · exact .inr ⟨_, rfl⟩
    · exact .inr ⟨_, rfl⟩
    · exact .inr ⟨_, rfl⟩
    · split
      · exact .inr ⟨_, rfl⟩
      · exact .inl ⟨_, rfl⟩

/-- **C72**, any arguments: a DATA request that is answered with an array comes from an administrator and the array is a
    record that lies in one of the data files. -/
theorem C72_any (c : Ctx) (s : Store) (argv : List Bytes) (l : List Reply) (h : cmdData c s argv = .arr l) :
    c.admin = true ∧ ∃ (i off : Nat) (f : Bytes) (hd : DHdr) (id p : Bytes),
      s.dfiles[i]? = some f ∧ RecordAt f off hd id p ∧ Showable hd p ∧ l = rawShown hd id p := by
  unfold cmdData subcommand at h
  split at h
  · cases h
  · next had =>
    refine ⟨by simpa using had, ?_⟩
    split at h
    · next e he =>
      unfold argsValidateMin at he
      split at he
      · cases he; cases h
      · split at he
        · cases he; cases h
        · cases he
    · split at h
      · unfold maxlenArg at h
        split at h
        · cases h
        · split at h
          · cases h
          · dsimp only at h
            split at h
            · split at h
              · next e he =>
                unfold argsValidateMin at he
                split at he
                · cases he; cases h
                · split at he
                  · cases he; cases h
                  · cases he
              · split at h
                · split at h
                  · cases h
                  · cases h
                  · cases h
                  · next hd id p hr =>
                    split at h
                    · cases h
                    · next hz =>
                      cases h
                      obtain ⟨f, hf, -, hr, hl, hfl⟩ := dataRaw_sound hr
                      refine ⟨_, _, f, hd, id, p, hf, hr, ⟨?_, hl, hfl⟩, by rw [hr.shown]⟩
                      rintro rfl
                      obtain ⟨_, _, _, _, _, _, e2⟩ := hr
                      exact hz e2
                · cases h
            · cases h
      · cases h

/-- A header for the id `k` and the payload `hello`. -/
def exRawHdr : DHdr := ⟨1, 5, 7, 0xcafe, 0, 1700000000⟩

/-- A file that starts with two bytes of something else, and ends with a header whose payload is cut off. -/
def exRawFile : Bytes := [9, 9] ++ (encDHdr exRawHdr ++ (str "k" ++ (str "hello" ++ (encDHdr exRawHdr ++ str "khel"))))

set_option maxRecDepth 100000 in
/-- The record in it is shown at its place; one byte off, at the cut record and behind the end there are errors. -/
theorem C72_example (c : Ctx) (had : c.admin = true) :
    let s : Store := { freshStore .user with dfiles := [exRawFile] }
    cmdData c s (rawArgs (str "DATA") 0 2) =
      .arr [.bulk (str "k"), .int 7, .bulk (str "0x0000cafe"), .int 0, .int 1700000000, .bulk (str "hello")] ∧
    cmdData c s (rawArgs (str "DATA") 0 3) = .err "Unexpected Internal Error" ∧
    cmdData c s (rawArgs (str "DATA") 0 26) = .err "Unexpected Internal Error" ∧
    cmdData c s (rawArgs (str "DATA") 0 48) = .err "EOF" ∧
    cmdData c s (rawArgs (str "DATA") 1 2) = .err "Invalid Request" := by
  intro s
  have hn : str "DATA" ≠ [] := by decide
  refine ⟨?_, ?_, ?_, ?_, ?_⟩
  · rw [cmdData_raw had s hn (by decide) (by decide)]
    rfl
  · rw [cmdData_raw had s hn (by decide) (by decide)]
    rfl
  · rw [cmdData_raw had s hn (by decide) (by decide)]
    rfl
  · rw [cmdData_raw had s hn (by decide) (by decide)]
    rfl
  · rw [cmdData_raw had s hn (by decide) (by decide)]
    rfl

end Zdb
