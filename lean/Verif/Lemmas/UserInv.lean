/-
Invariant of a user-key namespace and its preservation by the store operations.
-/
import Verif.Lemmas.Core
import Verif.Lemmas.Branch
import Verif.Spec.UserMap
namespace Zdb

/-- The in-memory entry of a located record. -/
def Loc.entry (u : Nat) (l : Loc) : Entry where
  ns := u
  id := l.r.item.id
  offset := l.r.item.offset
  idxoffset := l.off
  length := l.r.item.length
  flags := l.r.item.flags
  dataid := l.file
  indexid := l.file
  crc := l.r.item.crc
  parentid := l.r.item.parentid
  parentoff := l.r.item.parentoff
  timestamp := l.r.item.timestamp

/-- Entries of branch `h` for the live records `V`. -/
def ents (u h : Nat) (V : List Loc) : List Entry :=
  (V.filter (fun l => keyHash l.id == h)).map (Loc.entry u)

/-- Versions met by following the parent pointers from position `p`, in a list of records given newest
    first. -/
def verChain : List Loc → Nat × Nat → List Ver
  | [], _ => []
  | l :: ls, p =>
    if (l.file, l.off) = p then
      ⟨l.r.payload, l.r.item.timestamp⟩ :: verChain ls (l.r.item.parentid, l.r.item.parentoff)
    else verChain ls p

def Loc.val (L : List Loc) (l : Loc) : Val where
  payload := l.r.payload
  time := l.r.item.timestamp
  older := verChain L.reverse (l.r.item.parentid, l.r.item.parentoff)

/-- The map represented by a log. -/
def absKV (G : Log) : KV := (live G).map (fun l => (l.id, l.val (locs G)))

/-- Lexicographic order of positions. -/
def PLt (p q : Nat × Nat) : Prop := p.1 < q.1 ∨ (p.1 = q.1 ∧ p.2 < q.2)

structure UInv (br : Branches) (u : Nat) (s : Store) (G : Log) : Prop extends
    Core 0 Loc.file s G where
  mode : s.mode = .user
  ids : ∀ l ∈ locs G, 0 < l.id.length
  parents : ∀ l ∈ locs G, PLt (l.r.item.parentid, l.r.item.parentoff) (l.file, l.off)
  nodup : ((live G).map Loc.id).Nodup
  brs : ∀ h, (nsBranch br u h).Perm (ents u h (live G))
  entries : s.entries = (live G).length
  size : s.datasize = ((live G).map (fun l => l.r.item.length)).sum
  total : s.datasize ≤ (s.dfiles.map List.length).sum
  /-- a live record is the last one of its key -/
  newest : (locs G).Pairwise (fun a b => a.live = true → a.id ≠ b.id)
  used : locs G ≠ [] → 0 < s.nextentry
  /-- the file number stored in the item; the daemon stores 0 for the first version of a key -/
  diskid : ∀ l ∈ locs G, l.r.item.dataid = l.file ∨ (l.r.item.dataid = 0 ∧ l.r.item.parentoff = 0)
  /-- the parent of a record is an older record of the same key -/
  chain : ∀ l ∈ locs G, (l.r.item.parentoff = 0 ∧ l.r.item.parentid = 0) ∨
    ∃ m ∈ locs G, m.file = l.r.item.parentid ∧ m.off = l.r.item.parentoff ∧ m.id = l.id

theorem UInv.setDirty {br : Branches} {u : Nat} {s : Store} {G : Log} (h : UInv br u s G) (d : Dirty) :
    UInv br u { s with dirty := d } G :=
  { h.toCore.congr (t := { s with dirty := d }) rfl rfl rfl rfl rfl with
    mode := h.mode, ids := h.ids, parents := h.parents, nodup := h.nodup, brs := h.brs, entries := h.entries
    size := h.size, total := h.total, newest := h.newest, used := h.used, diskid := h.diskid, chain := h.chain }

/-! ### lists of live records -/

theorem ents_append (u h : Nat) (a b : List Loc) : ents u h (a ++ b) = ents u h a ++ ents u h b := by
  simp [ents]

theorem ents_filter (u h : Nat) (V : List Loc) (k : Bytes) :
    (ents u h V).filter (fun e => !(e.id == k)) = ents u h (V.filter (fun l => !(l.id == k))) := by
  simp only [ents, List.filter_map, List.filter_filter]
  congr 1
  congr 1
  funext l
  simp only [Function.comp, Loc.entry, Loc.id]
  exact Bool.and_comm _ _

theorem filter_once_of_nodup (V : List Loc) (k : Bytes) (h : (V.map Loc.id).Nodup) :
    (V.filter (fun l => l.id == k)).length ≤ 1 := by
  induction V with
  | nil => simp
  | cons l V ih =>
    simp only [List.map_cons, List.nodup_cons] at h
    by_cases hl : l.id = k
    · have h0 : V.filter (fun l => l.id == k) = [] := by
        rw [List.filter_eq_nil_iff]
        intro x hx hxk
        simp at hxk
        exact h.1 (List.mem_map.2 ⟨x, hx, by rw [hxk, hl]⟩)
      simp [hl, h0]
    · simp only [List.filter_cons]
      have : (l.id == k) = false := by simp [hl]
      rw [this]; exact ih h.2

theorem ents_once (u h : Nat) (V : List Loc) (k : Bytes) (hn : (V.map Loc.id).Nodup) :
    Once (fun e : Entry => e.id == k) (ents u h V) := by
  unfold Once
  have : ((ents u h V).filter (fun e => e.id == k)).length =
      ((V.filter (fun l => keyHash l.id == h)).filter (fun l => l.id == k)).length := by
    simp only [ents, List.filter_map, List.length_map]; rfl
  rw [this]
  apply filter_once_of_nodup
  exact hn.sublist (List.filter_sublist.map _)

theorem filter_ne_split {a b : List Loc} {l : Loc} (hn : ((a ++ l :: b).map Loc.id).Nodup) :
    (a ++ l :: b).filter (fun x => !(x.id == l.id)) = a ++ b := by
  rw [List.map_append, List.map_cons, List.nodup_append] at hn
  obtain ⟨h1, h2, h3⟩ := hn
  rw [List.nodup_cons] at h2
  rw [List.filter_append, List.filter_cons]
  simp only [beq_self_eq_true, Bool.not_true, Bool.false_eq_true, if_false]
  rw [List.filter_eq_self.2, List.filter_eq_self.2]
  · intro x hx
    simp only [Bool.not_eq_true', beq_eq_false_iff_ne, ne_eq]
    intro he
    exact h2.1 (List.mem_map.2 ⟨x, hx, he⟩)
  · intro x hx
    simp only [Bool.not_eq_true', beq_eq_false_iff_ne, ne_eq]
    intro he
    exact h3 x.id (List.mem_map.2 ⟨x, hx, rfl⟩) l.id (by simp) he

/-! ### lookup -/

/-- The live record of a key. -/
def liveGet (G : Log) (k : Bytes) : Option Loc := (live G).find? (fun l => l.id == k)

theorem find?_ents (u : Nat) (V : List Loc) (k : Bytes) :
    (ents u (keyHash k) V).find? (fun e => e.id == k) =
      (V.find? (fun l => l.id == k)).map (Loc.entry u) := by
  induction V with
  | nil => rfl
  | cons l V ih =>
    by_cases hl : l.id = k
    · have h1 : ents u (keyHash k) (l :: V) = l.entry u :: ents u (keyHash k) V := by
        simp [ents, hl]
      rw [h1, List.find?_cons_of_pos, List.find?_cons_of_pos]
      · rfl
      · simp [hl]
      · simp [Loc.entry]; exact hl
    · rw [List.find?_cons_of_neg (by simp [hl]), ← ih]
      by_cases hh : keyHash l.id = keyHash k
      · have h1 : ents u (keyHash k) (l :: V) = l.entry u :: ents u (keyHash k) V := by
          simp [ents, hh]
        rw [h1, List.find?_cons_of_neg]
        simp [Loc.entry]; exact hl
      · have h1 : ents u (keyHash k) (l :: V) = ents u (keyHash k) V := by simp [ents, hh]
        rw [h1]

theorem UInv.brGet {br : Branches} {u : Nat} {s : Store} {G : Log} (h : UInv br u s G) (k : Bytes) :
    brGet br u k = (liveGet G k).map (Loc.entry u) := by
  rw [brGet_eq, find?_perm (h.brs _) (ents_once _ _ _ _ h.nodup), find?_ents]
  rfl

theorem live_mem {G : Log} {l : Loc} (h : l ∈ live G) : l ∈ locs G := (List.mem_filter.1 h).1

theorem live_flag {br : Branches} {u : Nat} {s : Store} {G : Log} (h : UInv br u s G) {l : Loc}
    (hl : l ∈ live G) : l.r.item.flags = 0 := by
  have h1 := (List.mem_filter.1 hl).2
  rcases (h.recs l (live_mem hl)).flags with h2 | h2
  · exact h2
  · simp [Loc.live, h2, isDeleted] at h1

theorem liveGet_of_mem {G : Log} (hn : ((live G).map Loc.id).Nodup) {m : Loc} (hm : m ∈ live G) :
    liveGet G m.id = some m := by
  unfold liveGet
  generalize live G = V at hn hm
  induction V with
  | nil => cases hm
  | cons x V ih =>
    simp only [List.map_cons, List.nodup_cons] at hn
    rcases List.mem_cons.1 hm with rfl | hm
    · simp
    · have : x.id ≠ m.id := fun he => hn.1 (List.mem_map.2 ⟨m, hm, he.symm⟩)
      rw [List.find?_cons_of_neg (by simpa using this)]
      exact ih hn.2 hm

theorem liveGet_some {G : Log} {k : Bytes} {l : Loc} (h : liveGet G k = some l) :
    l ∈ live G ∧ l.id = k :=
  ⟨List.mem_of_find?_eq_some h, by have := List.find?_some h; simpa using this⟩

theorem UInv.indexGet {br : Branches} {u : Nat} {s : Store} {G : Log} (h : UInv br u s G) (k : Bytes) :
    indexGet br s u k = (liveGet G k).map (Loc.entry u) := by
  simp only [Zdb.indexGet, h.mode, h.brGet]
  cases hg : liveGet G k with
  | none => rfl
  | some l =>
    have := live_flag h (liveGet_some hg).1
    simp [Loc.entry, this, isDeleted]

theorem absKV_get (G : Log) (k : Bytes) :
    (absKV G).get k = (liveGet G k).map (fun l => l.val (locs G)) := by
  simp only [KV.get, absKV, liveGet, List.find?_map, Option.map_map]
  rfl

theorem liveGet_nil {br : Branches} {u : Nat} {s : Store} {G : Log} (h : UInv br u s G) :
    liveGet G [] = none := by
  cases hg : liveGet G [] with
  | none => rfl
  | some l =>
    have := liveGet_some hg
    have h2 := h.ids l (live_mem this.1)
    rw [this.2] at h2; simp at h2

/-! ### positions -/

theorem PLt_irrefl (p : Nat × Nat) : ¬ PLt p p := by unfold PLt; omega
theorem PLt_trans {p q r : Nat × Nat} (h1 : PLt p q) (h2 : PLt q r) : PLt p r := by
  unfold PLt at *; omega

theorem locsIn_sorted (file off : Nat) (g : List Rec) :
    (locsIn file off g).Pairwise (fun a b => PLt (a.file, a.off) (b.file, b.off)) := by
  induction g generalizing off with
  | nil => exact List.Pairwise.nil
  | cons r g ih =>
    simp only [locsIn, List.pairwise_cons]
    refine ⟨?_, ih _⟩
    intro x hx
    obtain ⟨h1, h2, _⟩ := mem_locsIn_file hx
    unfold PLt
    simp only
    omega

theorem mem_locsFrom_ge {i : Nat} {G : Log} {l : Loc} (h : l ∈ locsFrom i G) : i ≤ l.file := by
  induction G generalizing i with
  | nil => cases h
  | cons g G ih =>
    simp only [locsFrom, List.mem_append] at h
    rcases h with h | h
    · rw [(mem_locsIn_file h).1]; exact Nat.le_refl _
    · have := ih h; omega

theorem locsFrom_sorted (i : Nat) (G : Log) :
    (locsFrom i G).Pairwise (fun a b => PLt (a.file, a.off) (b.file, b.off)) := by
  induction G generalizing i with
  | nil => exact List.Pairwise.nil
  | cons g G ih =>
    simp only [locsFrom, List.pairwise_append]
    refine ⟨locsIn_sorted _ _ _, ih _, ?_⟩
    intro a ha b hb
    have h1 := (mem_locsIn_file ha).1
    have h2 := mem_locsFrom_ge hb
    left; simp only; omega

theorem locs_sorted (G : Log) :
    (locs G).Pairwise (fun a b => PLt (a.file, a.off) (b.file, b.off)) := locsFrom_sorted 0 G

/-- The end of the log is after every record. -/
theorem PLt_end {G : Log} (hne : G ≠ []) {l : Loc} (hl : l ∈ locs G) :
    PLt (l.file, l.off) (G.length - 1, logEnd G) := by
  have hs := locs_sorted (logAppend G l.r)
  rw [locs_append hne, List.pairwise_append] at hs
  exact hs.2.2 l hl ⟨G.length - 1, logEnd G, l.r⟩ (by simp)

theorem verChain_skip (L M : List Loc) (p : Nat × Nat) (h : ∀ l ∈ L, PLt p (l.file, l.off)) :
    verChain (L ++ M) p = verChain M p := by
  induction L with
  | nil => rfl
  | cons l L ih =>
    simp only [List.cons_append, verChain]
    rw [if_neg, ih (fun x hx => h x (by simp [hx]))]
    intro he
    have := h l (by simp)
    rw [he] at this
    exact PLt_irrefl _ this

theorem verChain_at {G : Log} {l : Loc} (hl : l ∈ locs G)
    (hp : PLt (l.r.item.parentid, l.r.item.parentoff) (l.file, l.off)) :
    verChain (locs G).reverse (l.file, l.off) =
      ⟨l.r.payload, l.r.item.timestamp⟩ ::
        verChain (locs G).reverse (l.r.item.parentid, l.r.item.parentoff) := by
  obtain ⟨A, B, hAB⟩ := List.append_of_mem hl
  have hs := locs_sorted G
  rw [hAB] at hs ⊢
  rw [List.pairwise_append, List.pairwise_cons] at hs
  have hB : ∀ x ∈ B.reverse, PLt (l.file, l.off) (x.file, x.off) :=
    fun x hx => hs.2.1.1 x (List.mem_reverse.1 hx)
  have e : (A ++ l :: B).reverse = B.reverse ++ (l :: A.reverse) := by simp
  rw [e, verChain_skip _ _ _ hB]
  rw [show B.reverse ++ (l :: A.reverse) = (B.reverse ++ [l]) ++ A.reverse by simp]
  rw [verChain_skip (B.reverse ++ [l]) A.reverse (l.r.item.parentid, l.r.item.parentoff)]
  · simp [verChain]
  · intro x hx
    simp only [List.mem_append, List.mem_singleton] at hx
    rcases hx with hx | rfl
    · exact PLt_trans hp (hB x hx)
    · exact hp

/-- What `verChain` reads in a record. -/
def Loc.verKey (l : Loc) : Nat × Nat × Bytes × Nat × Nat × Nat :=
  (l.file, l.off, l.r.payload, l.r.item.timestamp, l.r.item.parentid, l.r.item.parentoff)

theorem verChain_congr {L M : List Loc} (h : L.map Loc.verKey = M.map Loc.verKey) (p : Nat × Nat) :
    verChain L p = verChain M p := by
  induction L generalizing M p with
  | nil => cases M with
    | nil => rfl
    | cons => simp at h
  | cons a L ih => cases M with
    | nil => simp at h
    | cons b M =>
      simp only [List.map_cons, List.cons.injEq, Loc.verKey, Prod.mk.injEq] at h
      obtain ⟨⟨e1, e2, e3, e4, e5, e6⟩, h⟩ := h
      simp only [verChain, e1, e2, e3, e4, e5, e6]
      rw [ih h, ih h]

end Zdb
