/-
DATA RAW on a data file made of records.
-/
import Verif.Lemmas.Rebuild
import Verif.Lemmas.RespBase
namespace Zdb
open Resp (digits digits_range digits_ne_nil atollDigits_digits)

theorem hexDigit_eq {k : Nat} (h : k < 16) : UInt8.ofNat (Nat.digitChar k).toNat = hexDigit k := by
  have : ∀ k, k < 16 → UInt8.ofNat (Nat.digitChar k).toNat = hexDigit k := by decide
  exact this k h

theorem hexDigits_zero (k : Nat) : hexDigits k 0 = List.replicate k 48 := by
  induction k with
  | zero => rfl
  | succ k ih =>
    rw [hexDigits, Nat.zero_div, ih, List.replicate_succ']
    rfl

theorem hexDigits_eq {k n : Nat} (h : n < 16 ^ (k + 1)) :
    hexDigits (k + 1) n = List.replicate (k + 1 - (Nat.toDigits 16 n).length) 48 ++
      (Nat.toDigits 16 n).map (fun c => UInt8.ofNat c.toNat) := by
  induction k generalizing n with
  | zero =>
    have h : n < 16 := h
    rw [Nat.toDigits_of_lt_base h, hexDigits, hexDigits, Nat.mod_eq_of_lt h, ← hexDigit_eq h]
    rfl
  | succ k ih =>
    rw [hexDigits]
    by_cases h1 : n < 16
    · rw [Nat.toDigits_of_lt_base h1, Nat.mod_eq_of_lt h1, ← hexDigit_eq h1, Nat.div_eq_of_lt h1, hexDigits_zero]
      rfl
    · rw [Nat.toDigits_eq_if (by decide), if_neg h1, ih (by rw [Nat.pow_succ] at h; omega), ← hexDigit_eq (Nat.mod_lt _ (by decide))]
      simp [List.append_assoc]

/-- The text of a checksum. -/
theorem hex8_eq {n : Nat} (h : n < 2 ^ 32) : hex8 n = hexText n := by
  have := hexDigits_eq (k := 7) (n := n) (by simpa using h)
  rw [hexText, this, hex8, List.length_map]
  rfl

theorem cstr_digits (n : Nat) : cstr (digits n) = digits n := by
  unfold cstr
  have h := digits_range n
  generalize digits n = l at h
  induction l with
  | nil => rfl
  | cons a l ih =>
    have ha : (a != 0) = true := by
      have := (h a List.mem_cons_self).1
      simp only [bne_iff_ne]
      intro e; rw [e] at this; exact absurd this (by decide)
    rw [List.takeWhile_cons, if_pos ha, ih (fun b hb => h b (List.mem_cons_of_mem _ hb))]

theorem atoll_digits {n : Nat} (hn : n < 2 ^ 63) : atoll (digits n) = n := by
  have hr := digits_range n
  have hd := atollDigits_digits n
  have hne := digits_ne_nil n
  generalize digits n = l at hr hd hne
  cases l with
  | nil => exact absurd rfl hne
  | cons a l =>
    have ha := (hr a List.mem_cons_self).1
    have hskip : atollSkip (a :: l) = a :: l := by
      rw [atollSkip, if_neg]
      rintro (e | ⟨-, e⟩)
      · rw [e] at ha; exact absurd ha (by decide)
      · have := UInt8.le_trans ha e; exact absurd this (by decide)
    unfold atoll
    rw [hskip]
    split
    · rename_i e; injection e with e _; rw [e] at ha; exact absurd ha (by decide)
    · rename_i e; injection e with e _; rw [e] at ha; exact absurd ha (by decide)
    · rw [hd]; omega

theorem cmdData_raw {c : Ctx} (had : c.admin = true) (s : Store) {name : Bytes} (hn : name ≠ []) {i off : Nat}
    (hi : i < 2 ^ 32) (ho : off < 2 ^ 63) :
    cmdData c s (rawArgs name i off) = match dataRaw s i off with
      | .zero => .err "Invalid Request"
      | .eof => .err "EOF"
      | .unexpected => .err "Unexpected Internal Error"
      | .found h id p =>
        if h.datalength = 0 then .err "Invalid Request"
        else .arr [.bulk id, .int h.previous, .bulk (hex8 h.integrity), .int h.flags, .int h.timestamp, .bulk p] := by
  have h1 : ∀ n, argsValidateMin (rawArgs name i off) n = if 4 < n then some (.err "Missing arguments") else none := by
    intro n
    have : (rawArgs name i off).any (·.isEmpty) = false := by
      simp [rawArgs, wordRaw, hn, digits_ne_nil]
    unfold argsValidateMin
    rw [this]
    rfl
  have hraw : cstr wordRaw = wordRaw := by decide
  have hmax : ∀ k, maxlenArg wordRaw k = k wordRaw := by
    intro k
    rw [maxlenArg, if_neg (by decide), if_neg (by rw [hraw]; decide), hraw]
  have he : strCaseEq wordRaw wordRaw = true := by decide
  have hmod : ((i : Int) % 2 ^ 32).toNat = i := by omega
  unfold cmdData subcommand
  simp only [had, h1]
  simp only [rawArgs, hmax, he, if_true, cstr_digits, atoll_digits ho, atoll_digits (show i < 2 ^ 63 by omega), hmod]
  rfl

variable {s : Store} {D : List (List DRec)} {i : Nat} {g a b : List DRec} {r : DRec}

theorem dfile_of (hf : s.dfiles = D.mapIdx encDFile) (hg : D[i]? = some g) : s.dfiles[i]? = some (encDFile i g) := by
  rw [hf, List.getElem?_mapIdx, hg]; rfl

/-- What is read at the place of a record. -/
theorem dataRaw_record (hf : s.dfiles = D.mapIdx encDFile) (hg : D[i]? = some (a ++ r :: b)) (hw : r.WF)
    (hl : r.payload.length ≤ 2 ^ 23) :
    dataRaw s i (28 + dsize a : Nat) = if r.del then .unexpected else .found r.hdr r.id r.payload := by
  have hd := dfile_of hf hg
  have hA : (encDFHeader (freshDFHeader i) ++ a.flatMap DRec.enc).length = 28 + dsize a := by
    rw [List.length_append, flatMap_enc_length, freshDFHeader_length]
  have he : encDFile i (a ++ r :: b) = (encDFHeader (freshDFHeader i) ++ a.flatMap DRec.enc) ++
      (encDHdr r.hdr ++ (r.id ++ (r.payload ++ b.flatMap DRec.enc))) := by
    simp [encDFile, DRec.enc_eq]
  have hlen : (encDFile i (a ++ r :: b)).length > 28 + dsize a := by
    rw [he, List.length_append, hA]; simp; omega
  have r1 : readExact (encDFile i (a ++ r :: b)) (28 + dsize a) dhdrLen = some (encDHdr r.hdr) :=
    readExact_at he hA.symm (by simp [dhdrLen])
  have r2 : readExact (encDFile i (a ++ r :: b)) (28 + dsize a + dhdrLen) r.id.length = some r.id :=
    readExact_at (a := (encDFHeader (freshDFHeader i) ++ a.flatMap DRec.enc) ++ encDHdr r.hdr)
      (c := r.payload ++ b.flatMap DRec.enc) (by rw [he]; simp)
      (by rw [List.length_append, hA]; simp [dhdrLen]) rfl
  have r3 : readExact (encDFile i (a ++ r :: b)) (28 + dsize a + dhdrLen + r.id.length) r.payload.length = some r.payload :=
    readExact_at (a := (encDFHeader (freshDFHeader i) ++ a.flatMap DRec.enc) ++ encDHdr r.hdr ++ r.id)
      (c := b.flatMap DRec.enc) (by rw [he]; simp)
      (by rw [List.length_append, List.length_append, hA]; simp [dhdrLen]) rfl
  have hdec : decDHdr (encDHdr r.hdr) = r.hdr := decDHdr_encDHdr _ (DRec.hdr_wf hw)
  unfold dataRaw
  rw [hd]
  simp only
  rw [if_neg (by omega), if_neg (by omega)]
  simp only [Int.toNat_natCast, r1, hdec]
  have e1 : r.hdr.idlength = r.id.length := rfl
  have e2 : r.hdr.datalength = r.payload.length := rfl
  rw [e1, e2, if_neg (by omega), r2, r3]
  have e3 : isDeleted r.hdr.flags = r.del := by
    cases hdl : r.del <;> simp [DRec.hdr, hdl, isDeleted]
  simp only [e3]

/-- At the end of a file. -/
theorem dataRaw_end (hf : s.dfiles = D.mapIdx encDFile) (hg : D[i]? = some g) : dataRaw s i (28 + dsize g : Nat) = .eof := by
  unfold dataRaw
  rw [dfile_of hf hg]
  simp only
  rw [if_pos (by rw [encDFile_length]; omega)]

end Zdb
