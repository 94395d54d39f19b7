/-
A namespace created with no files.
-/
import Verif.Lemmas.UserInv
import Verif.Model.Loader
namespace Zdb

/-- State of a new namespace in mode `m`. -/
def freshStore (m : Mode) : Store where
  mode := m
  ifiles := [encIHeader (freshIHeader 0 m.byte)]
  dfiles := [encDFHeader (freshDFHeader 0)]
  indexid := 0
  dataid := 0
  nextentry := 0
  nextid := 0
  iprev := 0
  dprev := 0
  entries := 0
  datasize := 0
  seqmap := match m with
    | .user => none
    | .seq => some [(0, 0)]
  dirty := { maxid := 1, map := [0], oob := false }

theorem freshNs_eq (cfg : Option Mode) (br : Branches) (u : Nat) :
    freshNs cfg br u = .ok br (freshStore (cfg.getD .user)) := by
  cases cfg with
  | none => rfl
  | some m => cases m <;> rfl

theorem freshStore_core (m : Mode) (df : Loc → Nat) : Core m.byte df (freshStore m) [[]] where
  irep := by simp [IRep, freshStore, encFile]
  iid := rfl
  did := rfl
  dlen := rfl
  files := by simp
  recs := by intro l hl; simp [locs, locsFrom, locsIn] at hl
  offs := by intro l hl; simp [locs, locsFrom, locsIn] at hl
  iprev := rfl
  prevs := by simp [locs, locsFrom, locsIn, PrevOK]
  bound := by
    intro i g f hg hf
    cases i with
    | zero =>
      simp only [List.getElem?_cons_zero, Option.some.injEq, freshStore] at hg hf
      subst hg; subst hf
      simp [isize]
    | succ i => simp at hg
  dhead := by
    intro i f hf
    cases i with
    | zero =>
      simp only [List.getElem?_cons_zero, Option.some.injEq, freshStore] at hf
      exact ⟨[], by rw [← hf]; simp⟩
    | succ i => simp [freshStore] at hf

theorem freshStore_uinv (br : Branches) (u : Nat) (hbr : ∀ h, nsBranch br u h = []) :
    UInv br u (freshStore .user) [[]] :=
  { freshStore_core .user Loc.file with
    mode := rfl
    ids := by intro l hl; simp [locs, locsFrom, locsIn] at hl
    parents := by intro l hl; simp [locs, locsFrom, locsIn] at hl
    nodup := by simp [live, locs, locsFrom, locsIn]
    brs := by intro h; rw [hbr]; simp [ents, live, locs, locsFrom, locsIn]
    entries := rfl
    size := rfl
    total := Nat.zero_le _
    newest := by simp [locs, locsFrom, locsIn]
    used := by intro h; simp [locs, locsFrom, locsIn] at h
    diskid := by intro l hl; simp [locs, locsFrom, locsIn] at hl
    chain := by intro l hl; simp [locs, locsFrom, locsIn] at hl }

end Zdb
