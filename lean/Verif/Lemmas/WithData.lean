/-
The index functions do not look at the data files and do not change them.
-/
import Verif.Lemmas.DataExt
namespace Zdb

/-- The store with other data files. -/
def Store.withData (s : Store) (F : List Bytes) (q : Nat) : Store := { s with dfiles := F, dprev := q }

theorem deleteDisk_withData (s : Store) (F : List Bytes) (q : Nat) (io : Io) (e : Entry) :
    deleteDisk (s.withData F q) io e = ((deleteDisk s io e).1.withData F q, (deleteDisk s io e).2) := by
  simp only [deleteDisk, Store.withData]
  cases s.ifiles[e.indexid]? with
  | none => rfl
  | some f =>
    simp only
    cases readExact f e.idxoffset (itemHdr + e.id.length) with
    | none => rfl
    | some b =>
      simp only
      by_cases h : io.iflag.ok = true
      · rw [if_pos h, if_pos h]
      · rw [if_neg h, if_neg h]

theorem appendEntry_withData (s : Store) (F : List Bytes) (q : Nat) (io : Io) (e : Entry) :
    appendEntry (s.withData F q) io e = ((appendEntry s io e).1.withData F q, (appendEntry s io e).2) := by
  simp only [appendEntry, Store.withData]
  by_cases h : io.iapp.ok = true
  · rw [if_pos h, if_pos h]
  · rw [if_neg h, if_neg h]

theorem insertUser_withData (br : Branches) (s : Store) (F : List Bytes) (q u : Nat) (io : Io) (r : SetReq) :
    insertUser br (s.withData F q) u io r =
      ((insertUser br s u io r).1, (insertUser br s u io r).2.1.withData F q, (insertUser br s u io r).2.2) := by
  simp only [insertUser, appendEntry_withData]
  generalize appendEntry s io (r.entry u) = x
  obtain ⟨s1, e, ok⟩ := x
  cases ok <;> rfl

theorem updateUser_withData (br : Branches) (s : Store) (F : List Bytes) (q u : Nat) (io : Io) (r : SetReq) (ex : Entry) :
    updateUser br (s.withData F q) u io r ex =
      ((updateUser br s u io r ex).1, (updateUser br s u io r ex).2.1.withData F q, (updateUser br s u io r ex).2.2) := by
  simp only [updateUser, deleteDisk_withData]
  generalize deleteDisk s io ex = x
  obtain ⟨s1, ok⟩ := x
  have h1 : updateStats (s1.withData F q) ex (r.entry u) = (updateStats s1 ex (r.entry u)).withData F q := rfl
  have h2 : updatedEntry (s1.withData F q) ex (r.entry u) = updatedEntry s1 ex (r.entry u) := rfl
  simp only [h1, h2, appendEntry_withData]

theorem indexDelete_withData (br : Branches) (s : Store) (F : List Bytes) (q u : Nat) (io : Io) (e : Entry) :
    indexDelete br (s.withData F q) u io e =
      ((indexDelete br s u io e).1, (indexDelete br s u io e).2.1.withData F q, (indexDelete br s u io e).2.2) := by
  simp only [indexDelete, deleteDisk_withData]
  generalize deleteDisk s io e = x
  obtain ⟨s1, ok⟩ := x
  have hm : (s1.withData F q).mode = s1.mode := rfl
  cases ok with
  | true =>
    simp only [if_true, hm]
    cases s1.mode <;> rfl
  | false =>
    simp only [Bool.false_eq_true, if_false, hm]
    cases s1.mode <;> rfl

theorem indexGet_withData {br : Branches} {s : Store} (hm : s.mode = .user) (F : List Bytes) (q u : Nat) (k : Bytes) :
    indexGet br (s.withData F q) u k = indexGet br s u k := by
  have : (s.withData F q).mode = .user := hm
  simp only [indexGet, hm, this]

theorem withData_self (s : Store) : s.withData s.dfiles s.dprev = s := rfl

theorem insertUser_dprev (br : Branches) (s : Store) (u : Nat) (io : Io) (r : SetReq) :
    (insertUser br s u io r).2.1.dprev = s.dprev :=
  congrArg (·.2.1.dprev) (insertUser_withData br s s.dfiles s.dprev u io r)

theorem updateUser_dprev (br : Branches) (s : Store) (u : Nat) (io : Io) (r : SetReq) (ex : Entry) :
    (updateUser br s u io r ex).2.1.dprev = s.dprev :=
  congrArg (·.2.1.dprev) (updateUser_withData br s s.dfiles s.dprev u io r ex)

theorem indexDelete_dprev (br : Branches) (s : Store) (u : Nat) (io : Io) (e : Entry) :
    (indexDelete br s u io e).2.1.dprev = s.dprev :=
  congrArg (·.2.1.dprev) (indexDelete_withData br s s.dfiles s.dprev u io e)

end Zdb
