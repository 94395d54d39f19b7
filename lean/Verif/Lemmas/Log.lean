/-
Ghost log: the index files of a namespace seen as lists of records.
-/
import Verif.Lemmas.Layout
import Verif.Model.Store
namespace Zdb

/-- An index item together with the payload it refers to. -/
structure Rec where
  item : Item
  payload : Bytes
deriving DecidableEq

/-- Records of each index file. -/
abbrev Log := List (List Rec)

/-- A record with the file and the offset of its item. -/
structure Loc where
  file : Nat
  off : Nat
  r : Rec
deriving DecidableEq

def Loc.id (l : Loc) : Bytes := l.r.item.id

/-- Size of the items of a file. -/
def isize : List Rec → Nat
  | [] => 0
  | r :: rs => 34 + r.item.id.length + isize rs

def locsIn (file off : Nat) : List Rec → List Loc
  | [] => []
  | r :: rs => ⟨file, off, r⟩ :: locsIn file (off + (34 + r.item.id.length)) rs

def locsFrom (i : Nat) : Log → List Loc
  | [] => []
  | g :: G => locsIn i 29 g ++ locsFrom (i + 1) G

/-- All records in the order in which they were appended. -/
def locs (G : Log) : List Loc := locsFrom 0 G

def Loc.live (l : Loc) : Bool := !isDeleted l.r.item.flags

/-- Records without the deleted flag, oldest first. -/
def live (G : Log) : List Loc := (locs G).filter Loc.live

/-- Contents of an index file. -/
def encFile (mode i : Nat) (g : List Rec) : Bytes :=
  encIHeader (freshIHeader i mode) ++ g.flatMap (fun r => encItem r.item)

/-- The index files contain the log. -/
def IRep (mode : Nat) (ifiles : List Bytes) (G : Log) : Prop :=
  ifiles = G.mapIdx (encFile mode)

/-- Bytes `r` are found at offset `off` of data file `file`. -/
def DataAt (dfiles : List Bytes) (file off : Nat) (r : Bytes) : Prop :=
  ∃ pre post, dfiles[file]? = some (pre ++ (r ++ post)) ∧ pre.length = off

/-! ### log operations -/

/-- append a record to the last file -/
def logAppend (G : Log) (r : Rec) : Log :=
  match G.getLast? with
  | some g => G.dropLast ++ [g ++ [r]]
  | none => G

/-- open a new file -/
def logJump (G : Log) : Log := G ++ [[]]

/-! ### sizes -/

theorem isize_append (a b : List Rec) : isize (a ++ b) = isize a + isize b := by
  induction a with
  | nil => simp [isize]
  | cons r a ih => simp [isize, ih]; omega

theorem flatMap_encItem_length (g : List Rec) :
    (g.flatMap (fun r => encItem r.item)).length = isize g := by
  induction g with
  | nil => rfl
  | cons r g ih =>
    rw [List.flatMap_cons, List.length_append, ih, encItem_length, isize]

@[simp] theorem encFile_length (mode i : Nat) (g : List Rec) :
    (encFile mode i g).length = 29 + isize g := by
  rw [encFile, List.length_append, flatMap_encItem_length, freshIHeader_length]

/-! ### locs -/

theorem locsIn_append (file off : Nat) (a b : List Rec) :
    locsIn file off (a ++ b) = locsIn file off a ++ locsIn file (off + isize a) b := by
  induction a generalizing off with
  | nil => simp [locsIn, isize]
  | cons r a ih =>
    simp only [List.cons_append, locsIn, ih, isize]
    rw [Nat.add_assoc off]

theorem locsFrom_append (i : Nat) (a b : Log) :
    locsFrom i (a ++ b) = locsFrom i a ++ locsFrom (i + a.length) b := by
  induction a generalizing i with
  | nil => simp [locsFrom]
  | cons g a ih =>
    simp only [List.cons_append, locsFrom, ih, List.length_cons, List.append_assoc]
    rw [show i + 1 + a.length = i + (a.length + 1) by omega]

theorem locs_concat (G : Log) (g : List Rec) : locs (G ++ [g]) = locs G ++ locsIn G.length 29 g := by
  simp [locs, locsFrom_append, locsFrom]

theorem locs_jump (G : Log) : locs (logJump G) = locs G := by
  simp [logJump, locs_concat, locsIn]

/-- Offset at which the next item goes. -/
def logEnd (G : Log) : Nat := 29 + isize (G.getLast?.getD [])

theorem logAppend_eq (G : Log) (g : List Rec) (r : Rec) :
    logAppend (G ++ [g]) r = G ++ [g ++ [r]] := by
  simp [logAppend]

theorem exists_concat {G : Log} (h : G ≠ []) : ∃ G' g, G = G' ++ [g] :=
  ⟨G.dropLast, G.getLast h, (List.dropLast_concat_getLast h).symm⟩

theorem locs_append {G : Log} (h : G ≠ []) (r : Rec) :
    locs (logAppend G r) = locs G ++ [⟨G.length - 1, logEnd G, r⟩] := by
  obtain ⟨G', g, rfl⟩ := exists_concat h
  rw [logAppend_eq, locs_concat, locs_concat, locsIn_append, List.append_assoc]
  simp [locsIn, logEnd]

theorem logAppend_length (G : Log) (r : Rec) : (logAppend G r).length = G.length := by
  by_cases h : G = []
  · subst h; rfl
  · obtain ⟨G', g, rfl⟩ := exists_concat h
    simp [logAppend_eq]

@[simp] theorem logJump_length (G : Log) : (logJump G).length = G.length + 1 := by simp [logJump]

theorem logJump_ne_nil (G : Log) : logJump G ≠ [] := by simp [logJump]

theorem logAppend_ne_nil {G : Log} (h : G ≠ []) (r : Rec) : logAppend G r ≠ [] := by
  intro h0
  have := congrArg List.length h0
  rw [logAppend_length] at this
  exact h (List.length_eq_zero_iff.1 this)

theorem live_jump (G : Log) : live (logJump G) = live G := by simp [live, locs_jump]

theorem mem_locsIn_file {file off : Nat} {g : List Rec} {l : Loc} (h : l ∈ locsIn file off g) :
    l.file = file ∧ off ≤ l.off ∧ l.r ∈ g := by
  induction g generalizing off with
  | nil => cases h
  | cons r g ih =>
    simp only [locsIn, List.mem_cons] at h
    rcases h with rfl | h
    · exact ⟨rfl, Nat.le_refl _, by simp⟩
    · obtain ⟨h1, h2, h3⟩ := ih h
      exact ⟨h1, by omega, by simp [h3]⟩

/-- Where a located record sits in the log. -/
structure SplitAt (i : Nat) (G : Log) (A : List Loc) (l : Loc) (B : List Loc)
    (G1 : Log) (g1 g2 : List Rec) (G2 : Log) : Prop where
  log : G = G1 ++ (g1 ++ l.r :: g2) :: G2
  file : l.file = i + G1.length
  off : l.off = 29 + isize g1
  before : A = locsFrom i G1 ++ locsIn l.file 29 g1
  after : B = locsIn l.file (l.off + (34 + l.r.item.id.length)) g2 ++ locsFrom (l.file + 1) G2

theorem locsIn_split {file off : Nat} {g : List Rec} {A B : List Loc} {l : Loc}
    (h : locsIn file off g = A ++ l :: B) :
    ∃ g1 g2, g = g1 ++ l.r :: g2 ∧ l.file = file ∧ l.off = off + isize g1 ∧
      A = locsIn file off g1 ∧ B = locsIn file (l.off + (34 + l.r.item.id.length)) g2 := by
  induction g generalizing off A with
  | nil => simp [locsIn] at h
  | cons r g ih =>
    cases A with
    | nil =>
      simp only [locsIn, List.nil_append, List.cons.injEq] at h
      refine ⟨[], g, ?_, ?_, ?_, rfl, ?_⟩
      · simp [← h.1]
      · simp [← h.1]
      · simp [← h.1, isize]
      · rw [← h.1, ← h.2]
    | cons a A =>
      simp only [locsIn, List.cons_append, List.cons.injEq] at h
      obtain ⟨g1, g2, e1, e2, e3, e4, e5⟩ := ih h.2
      refine ⟨r :: g1, g2, ?_, e2, ?_, ?_, e5⟩
      · simp [e1]
      · simp only [isize]; omega
      · simp only [locsIn]; rw [← e4, h.1]

theorem locsFrom_split {i : Nat} {G : Log} {A B : List Loc} {l : Loc}
    (h : locsFrom i G = A ++ l :: B) : ∃ G1 g1 g2 G2, SplitAt i G A l B G1 g1 g2 G2 := by
  induction G generalizing i A with
  | nil => simp [locsFrom] at h
  | cons g G ih =>
    simp only [locsFrom] at h
    rw [List.append_eq_append_iff] at h
    rcases h with ⟨t, ht1, ht2⟩ | ⟨t, ht1, ht2⟩
    · obtain ⟨G1, g1, g2, G2, hs⟩ := ih ht2
      refine ⟨g :: G1, g1, g2, G2, ?_, ?_, hs.off, ?_, hs.after⟩
      · rw [hs.log]; rfl
      · rw [hs.file, List.length_cons]; omega
      · rw [ht1, hs.before]; simp [locsFrom]
    · cases t with
      | nil =>
        simp only [List.append_nil, List.nil_append] at ht1 ht2
        obtain ⟨G1, g1, g2, G2, hs⟩ := ih (A := []) (by rw [List.nil_append, ← ht2])
        refine ⟨g :: G1, g1, g2, G2, ?_, ?_, hs.off, ?_, hs.after⟩
        · rw [hs.log]; rfl
        · rw [hs.file, List.length_cons]; omega
        · rw [← ht1]
          have := hs.before
          simp only [locsFrom, List.append_assoc]
          rw [← this]; simp
      | cons x t =>
        simp only [List.cons_append, List.cons.injEq] at ht2
        obtain ⟨rfl, hB⟩ := ht2
        obtain ⟨g1, g2, e1, e2, e3, e4, e5⟩ := locsIn_split ht1
        refine ⟨[], g1, g2, G, ?_, ?_, e3, ?_, ?_⟩
        · simp [e1]
        · simpa using e2
        · rw [e4, e2]; simp [locsFrom]
        · rw [hB, e5, e2]

theorem locs_split {G : Log} {A B : List Loc} {l : Loc} (h : locs G = A ++ l :: B) :
    ∃ G1 g1 g2 G2, SplitAt 0 G A l B G1 g1 g2 G2 := locsFrom_split h

/-- Replacing the record at a split by another one whose key has the same length. -/
theorem locs_replace {i : Nat} {G : Log} {A B : List Loc} {l : Loc} {G1 : Log} {g1 g2 : List Rec}
    {G2 : Log} (hs : SplitAt i G A l B G1 g1 g2 G2) (r : Rec)
    (hr : r.item.id.length = l.r.item.id.length) :
    locsFrom i (G1 ++ (g1 ++ r :: g2) :: G2) = A ++ { l with r := r } :: B := by
  rw [locsFrom_append, locsFrom, locsIn_append, hs.before, hs.after, ← hs.file, locsIn]
  simp only [List.append_assoc, List.cons_append, hr]
  rw [← hs.off]

theorem mem_locs_lt {G : Log} {l : Loc} (h : l ∈ locs G) : l.file < G.length := by
  obtain ⟨A, B, hAB⟩ := List.append_of_mem h
  obtain ⟨G1, g1, g2, G2, hs⟩ := locs_split hAB
  rw [hs.log, hs.file]; simp

theorem mem_locs_off {G : Log} {l : Loc} (h : l ∈ locs G) : 29 ≤ l.off := by
  obtain ⟨A, B, hAB⟩ := List.append_of_mem h
  obtain ⟨G1, g1, g2, G2, hs⟩ := locs_split hAB
  rw [hs.off]; omega

/-! ### representation -/

theorem IRep.length {mode : Nat} {fs : List Bytes} {G : Log} (h : IRep mode fs G) :
    fs.length = G.length := by rw [h]; simp

theorem IRep.get {mode : Nat} {fs : List Bytes} {G : Log} (h : IRep mode fs G) (i : Nat) :
    fs[i]? = G[i]?.map (encFile mode i) := by rw [h]; simp

theorem IRep.of_get {mode : Nat} {fs : List Bytes} {G : Log}
    (h : ∀ i, fs[i]? = G[i]?.map (encFile mode i)) : IRep mode fs G := by
  apply List.ext_getElem?
  intro i
  rw [h]; simp

/-- The bytes of a located item. -/
theorem IRep.at {mode : Nat} {fs : List Bytes} {G : Log} (h : IRep mode fs G) {l : Loc}
    (hl : l ∈ locs G) :
    ∃ pre post, fs[l.file]? = some (pre ++ (encItem l.r.item ++ post)) ∧ pre.length = l.off := by
  obtain ⟨A, B, hAB⟩ := List.append_of_mem hl
  obtain ⟨G1, g1, g2, G2, hs⟩ := locs_split hAB
  refine ⟨encFile mode l.file g1, g2.flatMap (fun r => encItem r.item), ?_, ?_⟩
  · rw [h.get, hs.log, hs.file, Nat.zero_add, List.getElem?_append_right (Nat.le_refl _)]
    simp [encFile]
  · rw [encFile_length, hs.off]

theorem IRep.jump {mode : Nat} {fs : List Bytes} {G : Log} (h : IRep mode fs G) (id : Nat)
    (hid : id = G.length) : IRep mode (indexCreate fs id mode) (logJump G) := by
  have hl := h.length
  unfold indexCreate
  simp only
  rw [if_neg (by omega), h, IRep, logJump, List.mapIdx_append]
  simp [encFile, hid]

theorem modify_last {α} (l : List α) (x : α) (f : α → α) (i : Nat) (h : i = l.length) :
    (l ++ [x]).modify i f = l ++ [f x] := by
  subst h
  apply List.ext_getElem?
  intro j
  rw [List.getElem?_modify]
  by_cases hj : l.length = j
  · subst hj; simp
  · by_cases hlt : j < l.length
    · rw [List.getElem?_append_left hlt, List.getElem?_append_left hlt]; simp [hj]
    · rw [List.getElem?_append_right (by omega), List.getElem?_append_right (by omega)]
      have : ¬ (j - l.length = 0) := by omega
      rw [List.getElem?_eq_none (by simp; omega), List.getElem?_eq_none (by simp; omega)]; simp

theorem IRep.append {mode : Nat} {fs : List Bytes} {G : Log} (h : IRep mode fs G) (hne : G ≠ [])
    (i : Nat) (hi : i + 1 = G.length) (r : Rec) :
    IRep mode (appendFile fs i (encItem r.item)) (logAppend G r) := by
  obtain ⟨G', g, rfl⟩ := exists_concat hne
  simp at hi
  rw [logAppend_eq, IRep, appendFile, h, List.mapIdx_append, List.mapIdx_append]
  simp only [List.mapIdx_cons, List.mapIdx_nil]
  rw [modify_last _ _ _ _ (by simp [hi])]
  simp [encFile]

theorem IRep.fileLen {mode : Nat} {fs : List Bytes} {G : Log} (h : IRep mode fs G) (hne : G ≠ [])
    (i : Nat) (hi : i + 1 = G.length) : fileLen fs i = logEnd G := by
  obtain ⟨G', g, rfl⟩ := exists_concat hne
  simp at hi
  rw [Zdb.fileLen, h.get]
  simp [hi, logEnd]

theorem modify_at {α} (l1 l2 : List α) (x : α) (f : α → α) (i : Nat) (h : i = l1.length) :
    (l1 ++ x :: l2).modify i f = l1 ++ f x :: l2 := by
  subst h
  apply List.ext_getElem?
  intro j
  rw [List.getElem?_modify]
  by_cases hj : l1.length = j
  · subst hj; simp
  · by_cases hlt : j < l1.length
    · rw [List.getElem?_append_left hlt, List.getElem?_append_left hlt]; simp [hj]
    · rw [List.getElem?_append_right (by omega), List.getElem?_append_right (by omega)]
      obtain ⟨k, hk⟩ : ∃ k, j - l1.length = k + 1 := ⟨j - l1.length - 1, by omega⟩
      rw [hk]; simp [hj]

/-- Overwriting an item in place. -/
theorem IRep.replace {mode : Nat} {fs : List Bytes} {G : Log} (h : IRep mode fs G)
    {A B : List Loc} {l : Loc} {G1 : Log} {g1 g2 : List Rec}
    {G2 : Log} (hs : SplitAt 0 G A l B G1 g1 g2 G2) (r : Rec)
    (hr : r.item.id.length = l.r.item.id.length) :
    IRep mode (writeFileAt fs l.file l.off (encItem r.item)) (G1 ++ (g1 ++ r :: g2) :: G2) := by
  apply IRep.of_get
  intro i
  have hf := hs.file
  rw [Nat.zero_add] at hf
  have hoff := hs.off
  rw [writeFileAt, List.getElem?_modify, h.get, hs.log]
  by_cases hi : l.file = i
  · subst hi
    have e1 : encFile mode G1.length (g1 ++ l.r :: g2) =
        encFile mode G1.length g1 ++ (encItem l.r.item ++ g2.flatMap (fun r => encItem r.item)) := by
      simp [encFile]
    have e2 : encFile mode G1.length (g1 ++ r :: g2) =
        encFile mode G1.length g1 ++ (encItem r.item ++ g2.flatMap (fun r => encItem r.item)) := by
      simp [encFile]
    have e3 := pwrite_at' (b' := encItem r.item) (off := l.off) e1
      (by rw [encFile_length, hoff]) (by simp [hr])
    rw [hf]
    simp only [List.getElem?_append_right (Nat.le_refl _), Nat.sub_self,
      List.getElem?_cons_zero, Option.map_some, if_true, Option.map_eq_map]
    rw [e3, e2]
  · simp only [if_neg hi]
    rw [hf] at hi
    by_cases hlt : i < G1.length
    · rw [List.getElem?_append_left hlt, List.getElem?_append_left hlt]; simp
    · rw [List.getElem?_append_right (by omega), List.getElem?_append_right (by omega)]
      obtain ⟨k, hk⟩ : ∃ k, i - G1.length = k + 1 := ⟨i - G1.length - 1, by omega⟩
      rw [hk]; simp

/-! ### data -/

theorem DataAt.append {fs : List Bytes} {file off : Nat} {r : Bytes} (h : DataAt fs file off r)
    (i : Nat) (b : Bytes) : DataAt (appendFile fs i b) file off r := by
  obtain ⟨pre, post, h1, h2⟩ := h
  by_cases hi : i = file
  · subst hi
    exact ⟨pre, post ++ b, by rw [appendFile, List.getElem?_modify]; simp [h1], h2⟩
  · exact ⟨pre, post, by rw [appendFile, List.getElem?_modify]; simp [h1, hi], h2⟩

theorem DataAt.concat {fs : List Bytes} {file off : Nat} {r : Bytes} (h : DataAt fs file off r)
    (f : Bytes) : DataAt (fs ++ [f]) file off r := by
  obtain ⟨pre, post, h1, h2⟩ := h
  refine ⟨pre, post, ?_, h2⟩
  rw [List.getElem?_append_left, h1]
  exact (List.getElem?_eq_some_iff.1 h1).1

theorem DataAt.new {fs : List Bytes} {i : Nat} {f : Bytes} (h : fs[i]? = some f) (r : Bytes) :
    DataAt (appendFile fs i r) i f.length r :=
  ⟨f, [], by rw [appendFile, List.getElem?_modify]; simp [h], rfl⟩

theorem DataAt.lt {fs : List Bytes} {file off : Nat} {r : Bytes} (h : DataAt fs file off r) :
    file < fs.length := by
  obtain ⟨pre, post, h1, _⟩ := h
  exact (List.getElem?_eq_some_iff.1 h1).1

@[simp] theorem appendFile_length (fs : List Bytes) (i : Nat) (b : Bytes) :
    (appendFile fs i b).length = fs.length := by simp [appendFile]

@[simp] theorem writeFileAt_length (fs : List Bytes) (i o : Nat) (b : Bytes) :
    (writeFileAt fs i o b).length = fs.length := by simp [writeFileAt]

end Zdb
