/-
Invariant of a sequential namespace and lookup by id.
-/
import Verif.Lemmas.UserInv
import Verif.Lemmas.SeqSearch
import Verif.Lemmas.UserOps
import Verif.Spec.SeqMap
namespace Zdb

/-! ### first ids of the files -/

/-- First id and number of each file; `n` is the id of the first record of the first file. -/
def startsFrom (i n : Nat) : Log → List (Nat × Nat)
  | [] => []
  | g :: G => (n, i) :: startsFrom (i + 1) (n + g.length) G

/-- Number of records before file `j`. -/
def startOf (G : Log) (j : Nat) : Nat := ((G.take j).map List.length).sum

theorem startsFrom_get (i n : Nat) (G : Log) (j : Nat) :
    (startsFrom i n G)[j]? = if j < G.length then some (n + startOf G j, i + j) else none := by
  induction G generalizing i n j with
  | nil => simp [startsFrom]
  | cons g G ih =>
    cases j with
    | zero => simp [startsFrom, startOf]
    | succ j =>
      simp only [startsFrom, List.getElem?_cons_succ, ih, List.length_cons, Nat.add_lt_add_iff_right, startOf,
        List.take_succ_cons, List.map_cons, List.sum_cons]
      rw [Nat.add_assoc, show i + 1 + j = i + (j + 1) by omega]

theorem startsFrom_congr {G H : Log} (h : G.map List.length = H.map List.length) (i n : Nat) :
    startsFrom i n G = startsFrom i n H := by
  induction G generalizing H i n with
  | nil => cases H with
    | nil => rfl
    | cons => simp at h
  | cons g G ih => cases H with
    | nil => simp at h
    | cons k H =>
      simp only [List.map_cons, List.cons.injEq] at h
      simp only [startsFrom, h.1]
      rw [ih h.2]

theorem startsFrom_append (i n : Nat) (G H : Log) :
    startsFrom i n (G ++ H) = startsFrom i n G ++ startsFrom (i + G.length) (n + (G.map List.length).sum) H := by
  induction G generalizing i n with
  | nil => simp [startsFrom]
  | cons g G ih =>
    simp only [List.cons_append, startsFrom, ih, List.length_cons, List.map_cons, List.sum_cons]
    rw [show i + 1 + G.length = i + (G.length + 1) by omega, Nat.add_assoc]

theorem startOf_succ {G : Log} {j : Nat} {g : List Rec} (h : G[j]? = some g) :
    startOf G (j + 1) = startOf G j + g.length := by
  unfold startOf
  obtain ⟨hj, he⟩ := List.getElem?_eq_some_iff.1 h
  rw [List.take_succ_eq_append_getElem hj, he]
  simp

theorem locsIn_length (file off : Nat) (g : List Rec) : (locsIn file off g).length = g.length := by
  induction g generalizing off with
  | nil => rfl
  | cons r g ih => simp [locsIn, ih]

theorem locsFrom_length (i : Nat) (G : Log) : (locsFrom i G).length = (G.map List.length).sum := by
  induction G generalizing i with
  | nil => rfl
  | cons g G ih => simp [locsFrom, ih, locsIn_length]

theorem locs_length (G : Log) : (locs G).length = (G.map List.length).sum := locsFrom_length 0 G

theorem startOf_length (G : Log) : startOf G G.length = (locs G).length := by
  simp [startOf, locs_length]

theorem startOf_mono (G : Log) {i j : Nat} (h : i ≤ j) : startOf G i ≤ startOf G j := by
  unfold startOf
  obtain ⟨t, ht⟩ := List.take_prefix_take_left (l := G) h
  rw [← ht]
  simp

theorem startOf_le (G : Log) (j : Nat) : startOf G j ≤ (locs G).length := by
  by_cases h : j ≤ G.length
  · rw [← startOf_length]; exact startOf_mono G h
  · simp [startOf, List.take_of_length_le (show G.length ≤ j by omega), locs_length]

/-! ### positions -/

theorem isize_eight {g : List Rec} (h : ∀ r ∈ g, r.item.id.length = 8) : isize g = 42 * g.length := by
  induction g with
  | nil => rfl
  | cons r g ih =>
    simp only [isize, List.length_cons, h r (by simp), ih (fun x hx => h x (by simp [hx]))]
    omega

theorem locsIn_get (file off : Nat) (g : List Rec) (h : ∀ r ∈ g, r.item.id.length = 8) (i : Nat) :
    (locsIn file off g)[i]? = g[i]?.map (fun r => ⟨file, off + 42 * i, r⟩) := by
  induction g generalizing off i with
  | nil => simp [locsIn]
  | cons r g ih =>
    cases i with
    | zero => simp [locsIn]
    | succ i =>
      simp only [locsIn, List.getElem?_cons_succ, h r (by simp)]
      rw [ih _ (fun x hx => h x (by simp [hx]))]
      rw [show off + (34 + 8) + 42 * i = off + 42 * (i + 1) by omega]

theorem log_split {G : Log} {j : Nat} {g : List Rec} (h : G[j]? = some g) :
    G = G.take j ++ g :: G.drop (j + 1) := by
  obtain ⟨hj, he⟩ := List.getElem?_eq_some_iff.1 h
  conv => lhs; rw [← List.take_append_drop j G, List.drop_eq_getElem_cons hj, he]

theorem log_mem_locs {G : Log} {j : Nat} {g : List Rec} (h : G[j]? = some g) {r : Rec} (hr : r ∈ g) :
    ∃ l ∈ locs G, l.r = r := by
  obtain ⟨a, b, rfl⟩ := List.append_of_mem hr
  have hs := log_split h
  obtain ⟨hj, he⟩ := List.getElem?_eq_some_iff.1 h
  refine ⟨⟨j, 29 + isize a, r⟩, ?_, rfl⟩
  rw [hs, locs, locsFrom_append, locsFrom, locsIn_append]
  have : (G.take j).length = j := by simp; omega
  simp [locsIn, this]

/-- The record at position `startOf G j + i` is the `i`-th one of file `j`. -/
theorem locs_get {G : Log} {j : Nat} {g : List Rec} (h : G[j]? = some g)
    (h8 : ∀ l ∈ locs G, l.id.length = 8) {i : Nat} (hi : i < g.length) :
    (locs G)[startOf G j + i]? = some ⟨j, 29 + 42 * i, g[i]⟩ := by
  have hs := log_split h
  obtain ⟨hj, he⟩ := List.getElem?_eq_some_iff.1 h
  have htl : (G.take j).length = j := by simp; omega
  have hg8 : ∀ r ∈ g, r.item.id.length = 8 := by
    intro r hr
    obtain ⟨l, hl, rfl⟩ := log_mem_locs h hr
    exact h8 l hl
  have hlt : (locsFrom 0 (G.take j)).length = startOf G j := locsFrom_length _ _
  conv => lhs; rw [hs, locs, locsFrom_append, locsFrom]
  rw [hs] at hlt
  rw [List.getElem?_append_right (by rw [← hs] at *; omega)]
  rw [← hs] at *
  rw [show startOf G j + i - (locsFrom 0 (G.take j)).length = i by omega]
  rw [List.getElem?_append_left (by rw [locsIn_length]; exact hi), locsIn_get _ _ _ hg8, htl]
  simp [hi]

/-! ### the invariant -/

/-- The entry built from a located record by a lookup in sequential mode. -/
def Loc.sentry (u : Nat) (l : Loc) : Entry := { l.entry u with dataid := l.r.item.dataid }

def Loc.slot (L : List Loc) (l : Loc) : Option Val := if l.live then some (l.val L) else none

/-- The slots represented by a log. -/
def absSlots (G : Log) : Slots := (locs G).map (fun l => l.slot (locs G))

def parentOf (l : Loc) : Nat × Nat := (l.r.item.parentid, l.r.item.parentoff)
def Loc.pos (l : Loc) : Nat × Nat := (l.file, l.off)

structure SInv (s : Store) (G : Log) : Prop extends
    Core 1 (fun l => l.r.item.dataid) s G where
  mode : s.mode = .seq
  ids8 : ∀ l ∈ locs G, l.id.length = 8
  own : ∀ (i : Nat) (l : Loc), (locs G)[i]? = some l → l.live = true → l.id = toLE 8 i
  map : ∃ pre, s.seqmap = some (pre ++ startsFrom 0 0 G) ∧ (pre = [] ∨ pre = [(0, 0)])
  /-- every file but the current one has records -/
  full : ∀ (i : Nat) (g : List Rec), G[i]? = some g → i + 1 < G.length → g ≠ []
  next : s.nextentry = (locs G).length
  entries : s.entries = (live G).length
  size : s.datasize = ((live G).map (fun l => l.r.item.length)).sum
  total : s.datasize ≤ (s.dfiles.map List.length).sum
  few : 18 * (locs G).length ≤ (s.dfiles.map List.length).sum
  /-- a parent is an older version of the same id: a record with the deleted flag whose own parent
      was written before it -/
  chain : ∀ l ∈ locs G, parentOf l = (0, 0) ∨
    ∃ m ∈ locs G, m.pos = parentOf l ∧ m.id = l.id ∧ m.live = false ∧ PLt (parentOf m) m.pos

theorem SInv.setDirty {s : Store} {G : Log} (h : SInv s G) (d : Dirty) : SInv { s with dirty := d } G :=
  { h.toCore.congr (t := { s with dirty := d }) rfl rfl rfl rfl rfl with
    mode := h.mode, ids8 := h.ids8, own := h.own, map := h.map, full := h.full, next := h.next
    entries := h.entries, size := h.size, total := h.total, few := h.few, chain := h.chain }

theorem SInv.G0 {s : Store} {G : Log} (h : SInv s G) : 0 < G.length := List.length_pos_iff.2 h.ne

/-- What is needed to find records by position: the map and the index files of the log. -/
structure SLook (s : Store) (G : Log) : Prop where
  ne : G ≠ []
  map : ∃ pre, s.seqmap = some (pre ++ startsFrom 0 0 G) ∧ (pre = [] ∨ pre = [(0, 0)])
  full : ∀ (i : Nat) (g : List Rec), G[i]? = some g → i + 1 < G.length → g ≠ []
  ids8 : ∀ l ∈ locs G, l.id.length = 8
  offs : ∀ l ∈ locs G, l.off < 2 ^ 32
  wf : ∀ l ∈ locs G, l.r.item.WF
  irep : ∃ fs, IRep 1 fs G ∧ ∀ (i : Nat) (f : Bytes), fs[i]? = some f → s.ifiles[i]? = some f

theorem SLook.map_cons {s : Store} {G : Log} (h : SLook s G) :
    ∃ m rest, s.seqmap = some m ∧ m = (0, 0) :: rest ∧
      (∀ i p, m[i]? = some p → ∃ j, j < G.length ∧ p = (startOf G j, j) ∧
        (p.1 = 0 ∨ (j + 1 < G.length → m[i + 1]? = some (startOf G (j + 1), j + 1)))) ∧
      (∀ i p, m[i]? = some p → p.1 = 0 → p.2 + 1 < G.length →
        ∃ q, m[i + 1]? = some q ∧ (q = p ∨ q = (startOf G (p.2 + 1), p.2 + 1))) := by
  obtain ⟨pre, h1, h2⟩ := h.map
  have h0 : 0 < G.length := List.length_pos_iff.2 h.ne
  have hget := startsFrom_get 0 0 G
  have hhead : ∃ rest, startsFrom 0 0 G = (0, 0) :: rest := by
    cases hG : G with
    | nil => exact absurd hG h.ne
    | cons g G' => exact ⟨_, rfl⟩
  obtain ⟨rest, hr⟩ := hhead
  rcases h2 with rfl | rfl
  · refine ⟨_, rest, h1, by simpa using hr, ?_, ?_⟩
    · intro i p hp
      rw [List.nil_append, hget] at hp
      split at hp
      · rename_i hi
        simp only [Option.some.injEq, Nat.zero_add] at hp
        refine ⟨i, hi, hp.symm, Or.inr ?_⟩
        intro hi2
        rw [List.nil_append, hget, if_pos hi2]
        simp
      · cases hp
    · intro i p hp _ hlt
      rw [List.nil_append, hget] at hp
      split at hp
      · rename_i hi
        simp only [Option.some.injEq, Nat.zero_add] at hp
        subst hp
        simp only at hlt
        refine ⟨_, ?_, Or.inr rfl⟩
        rw [List.nil_append, hget, if_pos hlt]
        simp
      · cases hp
  · refine ⟨_, _, h1, rfl, ?_, ?_⟩
    · intro i p hp
      cases i with
      | zero =>
        simp only [List.singleton_append, List.getElem?_cons_zero, Option.some.injEq] at hp
        exact ⟨0, h0, by rw [← hp]; simp [startOf], Or.inl (by rw [← hp])⟩
      | succ i =>
        simp only [List.singleton_append, List.getElem?_cons_succ] at hp ⊢
        rw [hget] at hp
        split at hp
        · rename_i hi
          simp only [Option.some.injEq, Nat.zero_add] at hp
          refine ⟨i, hi, hp.symm, Or.inr ?_⟩
          intro hi2
          rw [hget, if_pos hi2]
          simp
        · cases hp
    · intro i p hp _ hlt
      cases i with
      | zero =>
        simp only [List.singleton_append, List.getElem?_cons_zero, Option.some.injEq] at hp
        refine ⟨(0, 0), ?_, Or.inl hp⟩
        simp [hr]
      | succ i =>
        simp only [List.singleton_append, List.getElem?_cons_succ] at hp ⊢
        rw [hget] at hp
        split at hp
        · rename_i hi
          simp only [Option.some.injEq, Nat.zero_add] at hp
          subst hp
          simp only at hlt
          refine ⟨_, ?_, Or.inr rfl⟩
          rw [hget, if_pos hlt]
          simp
        · cases hp

/-- The search finds the file of a position, the last file for a position past the end. -/
theorem SLook.searchLast {s : Store} {G : Log} (h : SLook s G) (n : Nat) :
    ∃ m j g, s.seqmap = some m ∧ seqSearch m n = some (startOf G j, j) ∧ G[j]? = some g ∧
      startOf G j ≤ n ∧ (locs G)[n]? = g[n - startOf G j]?.map
        (fun r => ⟨j, 29 + 42 * (n - startOf G j), r⟩) ∧ (n < (locs G).length ∨ j + 1 = G.length) := by
  obtain ⟨m, rest, h1, h2, h3, h4⟩ := h.map_cons
  obtain ⟨i, p, s1, s2, s3, s4⟩ := seqSearch_spec m n 0 rest h2
  obtain ⟨j, hj, rfl, h5⟩ := h3 i p s2
  have hg : G[j]? = some G[j] := List.getElem?_eq_getElem hj
  refine ⟨m, j, G[j], h1, s1, hg, s3, ?_⟩
  simp only at s3 s4 h5
  by_cases hin : n - startOf G j < G[j].length
  · have := locs_get hg h.ids8 hin
    rw [show startOf G j + (n - startOf G j) = n by omega] at this
    refine ⟨by rw [this]; simp [hin], Or.inl ?_⟩
    exact (List.getElem?_eq_some_iff.1 this).1
  · -- past the end: the file is the last one
    have hsucc := startOf_succ hg
    have hlast : ¬ (j + 1 < G.length) := by
      intro hlt
      have hfull := List.length_pos_iff.2 (h.full j _ hg hlt)
      rcases s4 with s4 | s4
      · omega
      · rcases h5 with h5 | h5
        · obtain ⟨q, q1, q2⟩ := h4 i _ s2 h5 hlt
          have := s4 q q1
          rcases q2 with rfl | rfl
          · simp only at this h5; omega
          · simp only at this; omega
        · have := s4 _ (h5 hlt)
          simp only at this; omega
    have hall : startOf G (j + 1) = (locs G).length := by
      rw [show j + 1 = G.length by omega, startOf_length]
    refine ⟨?_, Or.inr (by omega)⟩
    rw [List.getElem?_eq_none (by omega), List.getElem?_eq_none (by omega)]
    rfl

theorem SLook.search {s : Store} {G : Log} (h : SLook s G) (n : Nat) :
    ∃ m j g, s.seqmap = some m ∧ seqSearch m n = some (startOf G j, j) ∧ G[j]? = some g ∧
      startOf G j ≤ n ∧ (locs G)[n]? = g[n - startOf G j]?.map
        (fun r => ⟨j, 29 + 42 * (n - startOf G j), r⟩) := by
  obtain ⟨m, j, g, h1, h2, h3, h4, h5, -⟩ := h.searchLast n
  exact ⟨m, j, g, h1, h2, h3, h4, h5⟩

theorem readExact_past {f : Bytes} {off len : Nat} (h : f.length ≤ off) (hl : 0 < len) :
    readExact f off len = none := by
  unfold readExact
  rw [if_neg]
  simp [pread]; omega

/-- The record in charge of a key: the one at its position. -/
def slotAt (G : Log) (k : Bytes) : Option Loc :=
  match seqPos k with
  | some n => (locs G)[n]?
  | none => none

theorem seqRelative_eq {id first : Nat} (h : first ≤ id) (hid : id < 2 ^ 64) :
    seqRelative id first = id - first := by
  unfold seqRelative
  rw [show id + 2 ^ 64 - first = (id - first) + 2 ^ 64 by omega, Nat.add_mod_right]
  exact Nat.mod_eq_of_lt (by omega)

theorem seqOffset_eq {r : Nat} (h : 29 + 42 * r < 2 ^ 64) : seqOffset r = 29 + 42 * r := by
  unfold seqOffset
  rw [Nat.mul_comm r 42]
  exact Nat.mod_eq_of_lt h

theorem fromLE_lt8 {k : Bytes} (hk : k.length = 8) : fromLE k < 2 ^ 64 := by
  have := fromLE_lt k
  rw [hk] at this
  simpa using this

/-- The 32-bit arithmetic of the lookup is exact when the offset fits. -/
theorem seqOffset_small {n first : Nat} (h1 : first ≤ n) (h2 : n < 2 ^ 64)
    (h3 : 29 + 42 * (n - first) < 2 ^ 32) :
    seqOffset (seqRelative n first % 2 ^ 32) % 2 ^ 32 = 29 + 42 * (n - first) ∧
      seqOffset (seqRelative n first) % 2 ^ 32 = 29 + 42 * (n - first) := by
  rw [seqRelative_eq h1 h2]
  have e1 : (n - first) % 2 ^ 32 = n - first := Nat.mod_eq_of_lt (by omega)
  rw [e1, seqOffset_eq (by omega), Nat.mod_eq_of_lt h3]
  exact ⟨rfl, rfl⟩

/-- A key at a position in or near the log. -/
def Near (G : Log) (k : Bytes) : Prop :=
  k.length = 8 → fromLE k < (locs G).length ∨ 29 + 42 * fromLE k < 2 ^ 32

theorem SLook.seqGetLast {s : Store} {G : Log} (h : SLook s G) (u : Nat) (k : Bytes)
    (hn : k.length = 8 → fromLE k < (locs G).length ∨ 29 + 42 * (fromLE k - startOf G (G.length - 1)) < 2 ^ 32) :
    seqGet s u k = (slotAt G k).map (Loc.sentry u) := by
  unfold Zdb.seqGet slotAt seqPos
  by_cases hk : k.length = 8
  · rw [if_neg (by simpa using hk), if_pos hk]
    obtain ⟨m, j, g, h1, h2, h3, h4, h5, h6⟩ := h.searchLast (fromLE k)
    have hlt := fromLE_lt8 hk
    simp only [h1, h2]
    have hoffs : 29 + 42 * (fromLE k - startOf G j) < 2 ^ 32 := by
      have hcase : fromLE k < (locs G).length ∨ 29 + 42 * (fromLE k - startOf G j) < 2 ^ 32 := by
        rcases hn hk with hn | hn
        · exact Or.inl hn
        · rcases h6 with h6 | h6
          · exact Or.inl h6
          · rw [show G.length - 1 = j by omega] at hn
            exact Or.inr hn
      rcases hcase with hn | hn
      · rw [List.getElem?_eq_getElem hn] at h5
        have hm := List.getElem_mem hn
        cases hgi : g[fromLE k - startOf G j]? with
        | none => rw [hgi] at h5; simp at h5
        | some r =>
          rw [hgi, Option.map_some, Option.some.injEq] at h5
          have := h.offs _ hm
          rw [h5] at this
          exact this
      · omega
    rw [(seqOffset_small h4 hlt hoffs).1, h5]
    unfold itemGetDisk
    obtain ⟨fs, hfs, hfs2⟩ := h.irep
    have hf : s.ifiles[j]? = some (encFile 1 j g) := hfs2 _ _ (by rw [hfs.get, h3]; rfl)
    have hg8 : ∀ r ∈ g, r.item.id.length = 8 := by
      intro r hr
      obtain ⟨l, hl, rfl⟩ := log_mem_locs h3 hr
      exact h.ids8 l hl
    cases hgi : g[fromLE k - startOf G j]? with
    | none =>
      have hle : g.length ≤ fromLE k - startOf G j := by
        simpa using hgi
      rw [hf]
      simp only
      rw [readExact_past (by rw [encFile_length, isize_eight hg8]; omega) (by simp [itemHdr])]
      simp
    | some r =>
      have hmem : (⟨j, 29 + 42 * (fromLE k - startOf G j), r⟩ : Loc) ∈ locs G := by
        rw [hgi, Option.map_some] at h5
        exact List.mem_of_getElem? h5
      obtain ⟨pre, post, hf0, hpre⟩ := hfs.at hmem
      have hf1 := hfs2 _ _ hf0
      have hf2 := readExact_at (f := pre ++ (encItem r.item ++ post)) (off := 29 + 42 * (fromLE k - startOf G j))
        (len := itemHdr + r.item.id.length) rfl hpre.symm (by simp [itemHdr])
      simp only at hf1 hf2
      have h8 := h.ids8 _ hmem
      simp only [Loc.id] at h8
      rw [h8] at hf2
      have hwf := h.wf _ hmem
      simp only at hwf
      simp only [hf1, hf2, Option.map_some, decItem_encItem _ hwf]
      have : r.item.id.take r.item.idlength = r.item.id := by rw [hwf.1]; simp
      rw [this]
      rfl
  · rw [if_pos (by simpa using hk), if_neg hk]
    rfl

theorem SLook.seqGet {s : Store} {G : Log} (h : SLook s G) (u : Nat) (k : Bytes) (hn : Near G k) :
    seqGet s u k = (slotAt G k).map (Loc.sentry u) :=
  h.seqGetLast u k (fun hk => (hn hk).imp id (fun hn => by omega))

/-- The whole log can be searched. -/
theorem SInv.look {s : Store} {G : Log} (h : SInv s G) : SLook s G :=
  ⟨h.ne, h.map, h.full, h.ids8, h.offs, fun l hl => (h.recs l hl).wf, s.ifiles, h.irep, fun _ _ hf => hf⟩

theorem SInv.search {s : Store} {G : Log} (h : SInv s G) (n : Nat) :
    ∃ m j g, s.seqmap = some m ∧ seqSearch m n = some (startOf G j, j) ∧ G[j]? = some g ∧
      startOf G j ≤ n ∧ (locs G)[n]? = g[n - startOf G j]?.map
        (fun r => ⟨j, 29 + 42 * (n - startOf G j), r⟩) := h.look.search n

theorem SInv.map_some {s : Store} {G : Log} (h : SInv s G) : ∃ m, s.seqmap = some m := by
  obtain ⟨pre, h1, -⟩ := h.map
  exact ⟨_, h1⟩

theorem SInv.seqGet {s : Store} {G : Log} (h : SInv s G) (u : Nat) (k : Bytes) (hn : Near G k) :
    seqGet s u k = (slotAt G k).map (Loc.sentry u) := h.look.seqGet u k hn

/-- The live record in charge of a key. -/
def slotGet (G : Log) (k : Bytes) : Option Loc := (slotAt G k).filter Loc.live

theorem SInv.indexGet {br : Branches} {s : Store} {G : Log} (h : SInv s G) (u : Nat) (k : Bytes)
    (hn : Near G k) : indexGet br s u k = (slotGet G k).map (Loc.sentry u) := by
  simp only [Zdb.indexGet, h.mode, h.seqGet u k hn, slotGet]
  cases hg : slotAt G k with
  | none => rfl
  | some l =>
    simp only [Option.map_some, Option.filter_some]
    have e : isDeleted (l.sentry u).flags = !l.live := by simp [Loc.sentry, Loc.entry, Loc.live]
    rw [e]
    cases l.live <;> rfl

theorem absSlots_get (G : Log) (k : Bytes) :
    (absSlots G).get k = (slotGet G k).map (fun l => l.val (locs G)) := by
  unfold Slots.get slotGet slotAt absSlots
  cases seqPos k with
  | none => rfl
  | some n =>
    simp only [List.getElem?_map]
    cases (locs G)[n]? with
    | none => rfl
    | some l =>
      simp only [Option.map_some, Option.join_some, Option.filter_some, Loc.slot]
      cases l.live <;> rfl

theorem absSlots_length (G : Log) : (absSlots G).length = (locs G).length := by simp [absSlots]

/-- What is known about a live record found by key. -/
theorem SInv.slot {s : Store} {G : Log} (h : SInv s G) {k : Bytes} {l : Loc}
    (hl : slotGet G k = some l) :
    k.length = 8 ∧ (locs G)[fromLE k]? = some l ∧ l ∈ locs G ∧ l.live = true ∧ l.id = k ∧
      fromLE k < (locs G).length := by
  unfold slotGet slotAt seqPos at hl
  by_cases hk : k.length = 8
  · rw [if_pos hk] at hl
    simp only [Option.filter_eq_some_iff] at hl
    have := h.own _ _ hl.1 hl.2
    refine ⟨hk, hl.1, List.mem_of_getElem? hl.1, hl.2, ?_, (List.getElem?_eq_some_iff.1 hl.1).1⟩
    rw [this, ← hk]
    exact toLE_fromLE k
  · rw [if_neg hk] at hl
    simp at hl

end Zdb
