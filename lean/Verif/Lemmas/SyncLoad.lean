/-
Loading a user-key namespace from index files in which some deleted flags are missing.
-/
import Verif.Lemmas.SyncUser
import Verif.Lemmas.Fault
namespace Zdb

/-! ### the last record of a key -/

/-- The last record of key `k`. -/
def lastOf (P : List Loc) (k : Bytes) : Option Loc := (P.filter (fun l => l.id == k)).getLast?

theorem lastOf_nil (k : Bytes) : lastOf [] k = none := rfl

theorem lastOf_concat (P : List Loc) (l : Loc) (k : Bytes) :
    lastOf (P ++ [l]) k = if l.id = k then some l else lastOf P k := by
  unfold lastOf
  by_cases h : l.id = k
  · simp [h]
  · simp [h]

theorem lastOf_mem {P : List Loc} {k : Bytes} {l : Loc} (h : lastOf P k = some l) : l ∈ P ∧ l.id = k := by
  have := List.mem_of_getLast? h
  simpa using this

/-! ### index files without some flags -/

theorem encItem_flag (it : Item) : ∃ a c, a.length = 13 ∧ ∀ f, encItem { it with flags := f } =
    a ++ (toLE 1 f ++ c) := by
  refine ⟨toLE 1 it.idlength ++ (toLE 4 it.offset ++ (toLE 4 it.length ++ toLE 4 it.previous)),
    toLE 4 it.dataid ++ (toLE 4 it.timestamp ++ (toLE 4 it.crc ++
      (toLE 4 it.parentid ++ (toLE 4 it.parentoff ++ it.id)))), by simp, ?_⟩
  intro f
  simp only [encItem, List.append_assoc]

theorem locsIn_ge {file off : Nat} {g : List Rec} {l : Loc} (h : l ∈ locsIn file off g) : off ≤ l.off :=
  (mem_locsIn_file h).2.1

theorem locsFrom_range {i : Nat} {G : Log} {l : Loc} (h : l ∈ locsFrom i G) :
    i ≤ l.file ∧ l.file < i + G.length := by
  induction G generalizing i with
  | nil => simp [locsFrom] at h
  | cons g G ih =>
    simp only [locsFrom, List.mem_append] at h
    rcases h with h | h
    · have := (mem_locsIn_file h).1
      simp; omega
    · have := ih h
      simp; omega

theorem locs_of_mem {G : Log} {g : List Rec} {r : Rec} (hg : g ∈ G) (hr : r ∈ g) : ∃ l ∈ locs G, l.r = r := by
  obtain ⟨A, B, rfl⟩ := List.append_of_mem hg
  obtain ⟨a, b, rfl⟩ := List.append_of_mem hr
  refine ⟨⟨A.length, 29 + isize a, r⟩, ?_, rfl⟩
  rw [locs, locsFrom_append, locsFrom, locsIn_append]
  simp [locsIn]

theorem Unflagged.items {n : Nat} (g : List Rec) : ∀ (off : Nat) (b : Bytes),
    b.length = (g.flatMap (fun r => encItem r.item)).length →
    (∀ p : Nat, b[p]? = (g.flatMap (fun r => encItem r.item))[p]? ∨
      (b[p]? = some 0 ∧ (g.flatMap (fun r => encItem r.item))[p]? = some 1 ∧
        ∃ l ∈ locsIn n off g, off + p = l.off + 13)) →
    (∀ r ∈ g, r.item.flags = 0 ∨ r.item.flags = 1) →
    ∃ g' : List Rec, b = g'.flatMap (fun r => encItem r.item) ∧
      Kills (fun _ => True) (locsIn n off g') (locsIn n off g) ∧
      ∀ r ∈ g', r.item.flags = 0 ∨ r.item.flags = 1 := by
  induction g with
  | nil =>
    intro off b hl _ _
    refine ⟨[], ?_, trivial, by simp⟩
    simpa using hl
  | cons r g ih =>
    intro off b hl hb hfl
    simp only [List.flatMap_cons] at hl hb
    have hil := encItem_length r.item
    -- the first item
    have hcut : b.length = (encItem r.item).length + (b.drop (encItem r.item).length).length := by
      rw [List.length_drop]; rw [List.length_append] at hl; omega
    have hrest := ih (off + (34 + r.item.id.length)) (b.drop (encItem r.item).length)
      (by rw [List.length_append] at hl; omega) (by
        intro p
        rw [List.getElem?_drop]
        have := hb ((encItem r.item).length + p)
        rw [List.getElem?_append_right (by omega), Nat.add_sub_cancel_left] at this
        rcases this with h | ⟨h1, h2, l, hl, h3⟩
        · exact Or.inl h
        · refine Or.inr ⟨h1, h2, l, ?_, by rw [hil] at h3; omega⟩
          simp only [locsIn, List.mem_cons] at hl
          rcases hl with rfl | hl
          · exfalso
            simp only at h3
            rw [hil] at h3
            omega
          · exact hl) (fun x hx => hfl x (by simp [hx]))
    obtain ⟨g', hg1, hg2, hg3⟩ := hrest
    have hfirst : ∀ p : Nat, p < (encItem r.item).length → p ≠ 13 → b[p]? = (encItem r.item)[p]? := by
      intro p hp hne
      have := hb p
      rw [List.getElem?_append_left hp] at this
      rcases this with h | ⟨-, -, l, hl, h3⟩
      · exact h
      · exfalso
        simp only [locsIn, List.mem_cons] at hl
        rcases hl with rfl | hl
        · simp only at h3; omega
        · have := locsIn_ge hl
          rw [hil] at hp
          omega
    obtain ⟨a, c, ha, he⟩ := encItem_flag r.item
    have he0 : encItem r.item = a ++ (toLE 1 r.item.flags ++ c) := he r.item.flags
    have hsplit : b = b.take (encItem r.item).length ++ b.drop (encItem r.item).length :=
      (List.take_append_drop _ _).symm
    have htake : ∀ f : Nat, b[13]? = (encItem { r.item with flags := f })[13]? →
        b.take (encItem r.item).length = encItem { r.item with flags := f } := by
      intro f h13
      apply List.ext_getElem?
      intro p
      have hlf : (encItem { r.item with flags := f }).length = (encItem r.item).length := by
        rw [encItem_length, encItem_length]
      by_cases hp : p < (encItem r.item).length
      · rw [List.getElem?_take, if_pos hp]
        by_cases h : p = 13
        · rw [h, h13]
        · rw [hfirst p hp h, he f, he0]
          clear hlf hp
          rcases Nat.lt_or_ge p 13 with hlt | hlt
          · rw [List.getElem?_append_left (by omega), List.getElem?_append_left (by omega)]
          · have hgen : ∀ x y : Bytes, x.length = 1 → y.length = 1 →
                (a ++ (x ++ c))[p]? = (a ++ (y ++ c))[p]? := by
              intro x y hx hy
              rw [List.getElem?_append_right (by omega), List.getElem?_append_right (by omega),
                List.getElem?_append_right (by omega), List.getElem?_append_right (by omega), hx, hy]
            exact hgen _ _ (toLE_length _ _) (toLE_length _ _)
      · rw [List.getElem?_eq_none (by rw [List.length_take]; omega), List.getElem?_eq_none (by omega)]
    have hdec : ∃ f, (f = r.item.flags ∨ (r.item.flags = 1 ∧ f = 0)) ∧
        b[13]? = (encItem { r.item with flags := f })[13]? := by
      have := hb 13
      rw [List.getElem?_append_left (by omega)] at this
      rcases this with h | ⟨h1, h2, -⟩
      · exact ⟨r.item.flags, Or.inl rfl, h⟩
      · refine ⟨0, ?_, ?_⟩
        · rcases hfl r (by simp) with h | h
          · exfalso
            rw [he0, List.getElem?_append_right (by omega), h, ha] at h2
            simp [toLE] at h2
          · exact Or.inr ⟨h, rfl⟩
        · rw [h1, he 0, List.getElem?_append_right (by omega), ha]
          rfl
    obtain ⟨f, hf, h13⟩ := hdec
    refine ⟨{ r with item := { r.item with flags := f } } :: g', ?_, ?_, ?_⟩
    · rw [List.flatMap_cons, ← hg1, ← htake f h13]
      exact hsplit
    · simp only [locsIn, Kills]
      refine ⟨⟨rfl, ?_, fun _ _ => trivial⟩, hg2⟩
      intro h
      rcases hf with rfl | ⟨h1, rfl⟩
      · exact h
      · rfl
    · intro x hx
      simp only [List.mem_cons] at hx
      rcases hx with rfl | hx
      · rcases hf with rfl | ⟨-, rfl⟩
        · exact hfl r (by simp)
        · exact Or.inl rfl
      · exact hg3 x hx

theorem Unflagged.file {G : Log} {n : Nat} {g : List Rec} {b : Bytes} (hn : G[n]? = some g)
    (h : Unflagged G n b (encFile 0 n g)) (hfl : ∀ r ∈ g, r.item.flags = 0 ∨ r.item.flags = 1) :
    ∃ g' : List Rec, b = encFile 0 n g' ∧ Kills (fun _ => True) (locsIn n 29 g') (locsIn n 29 g) ∧
      ∀ r ∈ g', r.item.flags = 0 ∨ r.item.flags = 1 := by
  obtain ⟨h1, h2⟩ := h
  unfold encFile at h1 h2 ⊢
  generalize hh : encIHeader (freshIHeader n 0) = hd at h1 h2 ⊢
  have hhl : hd.length = 29 := by rw [← hh]; simp
  have hflag : ∀ p, FlagAt G n p → ∃ l ∈ locsIn n 29 g, p = l.off + 13 := by
    rintro p ⟨l, hl, hf, hp⟩
    refine ⟨l, ?_, hp⟩
    subst hf
    have hcut : G = G.take l.file ++ g :: G.drop (l.file + 1) := by
      obtain ⟨hlt, he⟩ := List.getElem?_eq_some_iff.1 hn
      rw [← he]; simp
    rw [hcut, locs, locsFrom_append, locsFrom] at hl
    have hlt := (List.getElem?_eq_some_iff.1 hn).1
    have hlen : (G.take l.file).length = l.file := by rw [List.length_take]; omega
    simp only [List.mem_append, hlen, Nat.zero_add] at hl
    rcases hl with hl | hl | hl
    · exfalso
      have := locsFrom_range hl
      omega
    · exact hl
    · exfalso
      have := locsFrom_range hl
      omega
  have hpre : ∀ p : Nat, p < 29 → b[p]? = hd[p]? := by
    intro p hp
    have := h2 p
    rw [List.getElem?_append_left (by omega)] at this
    rcases this with h | ⟨-, -, h⟩
    · exact h
    · obtain ⟨l, hl, h⟩ := hflag p h
      have := locsIn_ge hl
      omega
  have hb : b = hd ++ b.drop 29 := by
    refine (List.take_append_drop 29 b).symm.trans ?_
    congr 1
    apply List.ext_getElem?
    intro p
    by_cases hp : p < 29
    · rw [List.getElem?_take, if_pos hp, hpre p hp]
    · rw [List.getElem?_eq_none (by rw [List.length_take]; omega), List.getElem?_eq_none (by omega)]
  obtain ⟨g', g1, g2, g3⟩ := Unflagged.items (n := n) g 29 (b.drop 29)
    (by rw [List.length_drop, h1, List.length_append]; omega) (by
      intro p
      rw [List.getElem?_drop]
      have := h2 (29 + p)
      rw [List.getElem?_append_right (by omega), hhl, Nat.add_sub_cancel_left] at this
      rcases this with h | ⟨h3, h4, h5⟩
      · exact Or.inl h
      · obtain ⟨l, hl, h6⟩ := hflag _ h5
        exact Or.inr ⟨h3, h4, l, hl, h6⟩) hfl
  exact ⟨g', by rw [← g1]; exact hb, g2, g3⟩

theorem revived_log (G : Log) : ∀ (i : Nat) (fi : List Bytes), fi.length = G.length →
    (∀ (n : Nat) (f : Bytes) (g : List Rec), fi[n]? = some f → G[n]? = some g →
      ∃ g' : List Rec, f = encFile 0 (i + n) g' ∧ Kills (fun _ => True) (locsIn (i + n) 29 g') (locsIn (i + n) 29 g) ∧
        ∀ r ∈ g', r.item.flags = 0 ∨ r.item.flags = 1) →
    ∃ G' : Log, G'.length = G.length ∧ fi = G'.mapIdx (fun n g => encFile 0 (i + n) g) ∧
      Kills (fun _ => True) (locsFrom i G') (locsFrom i G) ∧
      ∀ g ∈ G', ∀ r ∈ g, r.item.flags = 0 ∨ r.item.flags = 1 := by
  induction G with
  | nil =>
    intro i fi hl _
    exact ⟨[], rfl, by simpa using hl, trivial, by simp⟩
  | cons g G ih =>
    intro i fi hl h
    cases fi with
    | nil => simp at hl
    | cons f fi =>
      obtain ⟨g', g1, g2, g3⟩ := h 0 f g rfl rfl
      obtain ⟨G', j1, j2, j3, j4⟩ := ih (i + 1) fi (by simpa using hl) (by
        intro n f g hf hg
        have := h (n + 1) f g (by simpa using hf) (by simpa using hg)
        rw [show i + 1 + n = i + (n + 1) by omega]
        exact this)
      refine ⟨g' :: G', by simp [j1], ?_, ?_, ?_⟩
      · rw [List.mapIdx_cons, ← g1, j2]
        congr 2
        funext n x
        rw [show i + 1 + n = i + (n + 1) by omega]
      · simp only [locsFrom]
        exact g2.append j3
      · intro x hx
        simp only [List.mem_cons] at hx
        rcases hx with rfl | hx
        · exact g3
        · exact j4 x hx

/-- What is left of the index files after a power loss is a log in which some deleted records came back. -/
theorem DInv.survivors {D : Disk} {br : Branches} {u : Nat} {s : Store} {G : Log} (h : DInv D s G)
    (hu : UInv br u s G) {fi fd : List Bytes} (hp : PowerLoss D fi fd) :
    fd = s.dfiles ∧ ∃ G' : Log, G'.length = G.length ∧ IRep 0 fi G' ∧
      Kills (fun _ => True) (locs G') (locs G) ∧ ∀ g ∈ G', ∀ r ∈ g, r.item.flags = 0 ∨ r.item.flags = 1 := by
  obtain ⟨p1, p2, p3, p4⟩ := hp
  have hil := hu.irep.length
  have hfile : ∀ n : Nat, n < G.length → ∃ g, fi[n]? = some g ∧ Unflagged G n g (encFile 0 n (G[n]?.getD [])) := by
    intro n hn
    have hd : n < D.i.length := by rw [h.ilen, hil]; exact hn
    have hs : n < s.ifiles.length := by omega
    obtain ⟨g, hg, hun⟩ := (h.idx n _ _ (List.getElem?_eq_getElem hd) (List.getElem?_eq_getElem hs)).survives
      (p3 n _ (List.getElem?_eq_getElem hd))
    refine ⟨g, hg, ?_⟩
    have := hu.irep.get n
    rw [List.getElem?_eq_getElem hs, List.getElem?_eq_getElem hn, Option.map_some, Option.some.injEq] at this
    rw [List.getElem?_eq_getElem hn, Option.getD_some, ← this]
    exact hun
  have hfl : ∀ g ∈ G, ∀ r ∈ g, r.item.flags = 0 ∨ r.item.flags = 1 := by
    intro g hg r hr
    obtain ⟨l, hl, rfl⟩ := locs_of_mem hg hr
    exact (hu.recs l hl).flags
  have hlen : fi.length = G.length := by
    have h1 : fi.length ≤ G.length := by rw [h.ilen, hil] at p1; exact p1
    by_cases h2 : fi.length < G.length
    · obtain ⟨g, hg, -⟩ := hfile _ h2
      rw [List.getElem?_eq_none (Nat.le_refl _)] at hg
      cases hg
    · omega
  constructor
  · apply List.ext_getElem?
    intro n
    by_cases hn : n < s.dfiles.length
    · have hd : D.d[n]? = some (DFile.solid s.dfiles[n]) := by
        rw [h.d, List.getElem?_map, List.getElem?_eq_getElem hn]; rfl
      have := p4 n _ hd
      rw [List.getElem?_eq_getElem hn]
      generalize fd[n]? = o at this
      cases this with
      | kept hp =>
        cases hp
        rfl
      | gone hn => cases hn
    · rw [h.d, List.length_map] at p2
      rw [List.getElem?_eq_none (by omega), List.getElem?_eq_none (by omega)]
  · obtain ⟨G', j1, j2, j3, j4⟩ := revived_log G 0 fi hlen (by
      intro n f g hf hg
      rw [Nat.zero_add]
      have hn := (List.getElem?_eq_some_iff.1 hg).1
      obtain ⟨x, hx, hun⟩ := hfile n hn
      rw [hf] at hx
      cases hx
      rw [hg, Option.getD_some] at hun
      exact hun.file hg (hfl g (List.mem_of_getElem? hg)))
    refine ⟨G', j1, ?_, j3, j4⟩
    rw [j2, IRep]
    congr 1
    funext n g
    rw [Nat.zero_add]

/-! ### replaying such a log -/

/-- The entry leads to the payload of the record. -/
structure Like (u : Nat) (e : Entry) (l : Loc) : Prop where
  ns : e.ns = u
  id : e.id = l.id
  offset : e.offset = l.r.item.offset
  length : e.length = l.r.item.length
  flags : e.flags = l.r.item.flags
  dataid : e.dataid = l.file
  crc : e.crc = l.r.item.crc
  timestamp : e.timestamp = l.r.item.timestamp

/-- The entry of a key whose last record is `o`. -/
def EntryOf (br : Branches) (u : Nat) (k : Bytes) : Option Loc → Prop
  | none => keyEnts br u k = []
  | some l => if l.live then ∃ e, keyEnts br u k = [e] ∧ Like u e l else keyEnts br u k = []

/-- State reached after replaying the records `P`, any of which may lack its deleted flag. -/
structure VInv (br : Branches) (u : Nat) (fi fd : List Bytes) (s : Store) (P : List Loc) : Prop where
  mode : s.mode = .user
  ifiles : s.ifiles = fi
  dfiles : s.dfiles = fd
  ents : ∀ k, EntryOf br u k (lastOf P k)

theorem EntryOf.congr {br br' : Branches} {u : Nat} {k : Bytes} {o : Option Loc} (h : EntryOf br u k o)
    (he : keyEnts br' u k = keyEnts br u k) : EntryOf br' u k o := by
  cases o with
  | none => exact he.trans h
  | some l =>
    simp only [EntryOf] at h ⊢
    split
    · rename_i hl
      rw [if_pos hl] at h
      obtain ⟨e, h1, h2⟩ := h
      exact ⟨e, he.trans h1, h2⟩
    · rename_i hl
      rw [if_neg hl] at h
      exact he.trans h

theorem keyEnts_append' (br : Branches) (e : Entry) (u : Nat) (hu : e.ns = u) (k : Bytes) :
    keyEnts (brAppend br e) u k = keyEnts br u k ++ (if e.id = k then [e] else []) := by
  subst hu; exact keyEnts_append br e k

theorem VInv.item {br : Branches} {u : Nat} {fi fd : List Bytes} {s : Store} {P : List Loc}
    (h : VInv br u fi fd s P) (l : Loc) (hfile : l.file = s.indexid)
    (hfl : l.r.item.flags = 0 ∨ l.r.item.flags = 1) :
    VInv (replayItem br s u l.off l.r.item).1 u fi fd (replayItem br s u l.off l.r.item).2
      (P ++ [l]) ∧ (replayItem br s u l.off l.r.item).2.indexid = s.indexid := by
  obtain ⟨t, ht1, ht⟩ : ∃ t : Store, (if l.off = ihdrLen then
      { s with seqmap := s.seqmap.map (· ++ [(s.nextentry, s.indexid)]) } else s) = t ∧
      t.mode = s.mode ∧ t.ifiles = s.ifiles ∧ t.dfiles = s.dfiles ∧ t.indexid = s.indexid := by
    refine ⟨_, rfl, ?_⟩
    split <;> simp
  obtain ⟨hm, h1, h2, h6⟩ := ht
  have hmu : t.mode = .user := by rw [hm, h.mode]
  have hlive : l.live = !isDeleted l.r.item.flags := rfl
  unfold replayItem
  simp only [ht1, hmu]
  unfold replayUser
  have hk := h.ents l.id
  have hid : l.r.item.id = l.id := rfl
  have hfs : (sourceEntry t u l.off l.r.item).flags = l.r.item.flags := rfl
  have hcases : (keyEnts br u l.id = [] ∨ ∃ e, keyEnts br u l.id = [e] ∧ e.ns = u ∧ e.id = l.id ∧
      isDeleted e.flags = false) := by
    cases ho : lastOf P l.id with
    | none => rw [ho] at hk; exact Or.inl hk
    | some m =>
      rw [ho] at hk
      simp only [EntryOf] at hk
      split at hk
      · rename_i hml
        obtain ⟨e, he, hlk⟩ := hk
        refine Or.inr ⟨e, he, hlk.ns, (mem_keyEnts he).2, ?_⟩
        rw [hlk.flags]
        simpa [Loc.live] using hml
      · exact Or.inl hk
  have hfin : ∀ br', (∀ k, k ≠ l.id → keyEnts br' u k = keyEnts br u k) → EntryOf br' u l.id (some l) →
      ∀ k, EntryOf br' u k (lastOf (P ++ [l]) k) := by
    intro br' ha hb k
    rw [lastOf_concat]
    by_cases hkl : l.id = k
    · rw [if_pos hkl, ← hkl]; exact hb
    · rw [if_neg hkl]; exact (h.ents k).congr (ha k (fun x => hkl x.symm))
  rcases hcases with hno | ⟨ex, hex, hns, heid, hdel⟩
  · have hget : indexGet br t u l.r.item.id = none := by
      simp only [indexGet, hmu, brGet_keyEnts, hid, hno, List.head?_nil]
    rw [hget]
    simp only [insertMemUser]
    generalize he : ({ sourceEntry t u l.off l.r.item with ns := u, dataid := t.indexid } : Entry) = e
    simp only [hfs]
    have hlike : Like u e l := by
      subst he
      exact ⟨rfl, rfl, rfl, rfl, rfl, by simp only [h6, hfile], rfl, rfl⟩
    have h3 : ∀ k, keyEnts (brAppend br e) u k = keyEnts br u k ++ (if e.id = k then [e] else []) :=
      keyEnts_append' br e u hlike.ns
    have hone : keyEnts (brAppend br e) u l.id = [e] := by
      rw [h3, hno, hlike.id, if_pos rfl, List.nil_append]
    have hne : ∀ k, k ≠ l.id → keyEnts (brAppend br e) u k = keyEnts br u k := by
      intro k hkl
      rw [h3, hlike.id, if_neg (fun x => hkl x.symm), List.append_nil]
    cases hd : isDeleted l.r.item.flags with
    | false =>
      refine ⟨⟨hmu, by rw [← h.ifiles, ← h1]; rfl, by rw [← h.dfiles, ← h2]; rfl, ?_⟩, h6⟩
      simp only [Bool.false_eq_true, if_false]
      refine hfin _ hne ?_
      simp only [EntryOf, hlive, hd, Bool.not_false, if_true]
      exact ⟨e, hone, hlike⟩
    | true =>
      refine ⟨⟨hmu, by rw [← h.ifiles, ← h1]; rfl, by rw [← h.dfiles, ← h2]; rfl, ?_⟩, h6⟩
      refine hfin _ (fun k hkl => ?_) ?_
      · simp only [if_true]
        rw [hid, keyEnts_remove_ne _ _ hkl]; exact hne k hkl
      · simp only [EntryOf, hlive, hd, Bool.not_true, Bool.false_eq_true, if_false, if_true]
        rw [hid]; exact keyEnts_remove_eq hone
  · have hget : indexGet br t u l.r.item.id = some ex := by
      simp [indexGet, hmu, brGet_keyEnts, hid, hex, hdel]
    rw [hget]
    simp only
    generalize he : updatedEntry t ex (sourceEntry t u l.off l.r.item) = e
    have hlike : Like u e l := by
      subst he
      exact ⟨hns, heid, rfl, rfl, rfl, by simp only [updatedEntry, h6, hfile], rfl, rfl⟩
    rw [hlike.flags, hlike.id]
    cases hd : isDeleted l.r.item.flags with
    | false =>
      refine ⟨⟨hmu, by rw [← h.ifiles, ← h1]; rfl, by rw [← h.dfiles, ← h2]; rfl, ?_⟩, h6⟩
      refine hfin _ (fun k hkl => ?_) ?_
      · simp only [Bool.false_eq_true, if_false]
        exact keyEnts_update_ne _ hlike.ns hlike.id hkl
      · simp only [EntryOf, hlive, hd, Bool.not_false, if_true, Bool.false_eq_true, if_false]
        exact ⟨e, keyEnts_update_eq hlike.ns hlike.id hex, hlike⟩
    | true =>
      refine ⟨⟨hmu, by rw [← h.ifiles, ← h1]; rfl, by rw [← h.dfiles, ← h2]; rfl, ?_⟩, h6⟩
      refine hfin _ (fun k hkl => ?_) ?_
      · simp only [if_true]
        exact keyEnts_remove_ne _ _ hkl
      · simp only [EntryOf, hlive, hd, Bool.not_true, Bool.false_eq_true, if_false, if_true]
        exact keyEnts_remove_eq hex

theorem VInv.items {br : Branches} {u : Nat} {fi fd : List Bytes} {s : Store} {P : List Loc}
    (h : VInv br u fi fd s P) (off : Nat) (g : List Rec)
    (hwf : ∀ r ∈ g, r.item.WF) (hfl : ∀ r ∈ g, r.item.flags = 0 ∨ r.item.flags = 1) :
    VInv (replayItems br s u off (g.map Rec.item)).1 u fi fd
      (replayItems br s u off (g.map Rec.item)).2 (P ++ locsIn s.indexid off g) ∧
      (replayItems br s u off (g.map Rec.item)).2.indexid = s.indexid := by
  induction g generalizing br s P off with
  | nil => simpa [locsIn, replayItems] using h
  | cons r g ih =>
    have hone := h.item ⟨s.indexid, off, r⟩ rfl (hfl r (by simp))
    simp only [List.map_cons, replayItems]
    have hid := hone.2
    have hlen : off + itemHdr + r.item.idlength = off + (34 + r.item.id.length) := by
      rw [(hwf r (by simp)).1, itemHdr]; omega
    have := ih hone.1 (off + (34 + r.item.id.length)) (fun x hx => hwf x (by simp [hx]))
      (fun x hx => hfl x (by simp [hx]))
    simp only [hid] at this
    rw [hlen]
    simpa [locsIn] using this

theorem VInv.loop {br : Branches} {u : Nat} {fi fd : List Bytes} {s : Store}
    (cfg : Option Mode) (hcfg : cfg = none ∨ cfg = some .user) (Gp Gr : Log)
    (h : VInv br u fi fd s (locs Gp)) (hrep : IRep 0 fi (Gp ++ Gr)) (hlen : (Gp ++ Gr).length ≤ 2 ^ 32)
    (hwf : ∀ l ∈ locs (Gp ++ Gr), l.r.item.WF)
    (hfl : ∀ l ∈ locs (Gp ++ Gr), l.r.item.flags = 0 ∨ l.r.item.flags = 1) :
    ∃ br' s', loadLoop cfg u (List.range' Gp.length Gr.length) br s = .ok br' s' ∧
      VInv br' u fi fd s' (locs (Gp ++ Gr)) ∧ (Gr ≠ [] → s'.indexid + 1 = (Gp ++ Gr).length) ∧
      (Gr = [] → s' = s) := by
  induction Gr generalizing Gp br s with
  | nil => exact ⟨br, s, rfl, by simpa using h, by simp, by simp⟩
  | cons g Gr ih =>
    have hcat : Gp ++ g :: Gr = (Gp ++ [g]) ++ Gr := by simp
    have hmem : ∀ r ∈ g, ∃ l ∈ locs (Gp ++ g :: Gr), l.r = r := fun r hr => locs_of_mem (by simp) hr
    rw [List.length_append] at hlen
    have hf : (indexSetId s Gp.length).ifiles[(indexSetId s Gp.length).indexid]? =
        some (encFile Mode.user.byte (indexSetId s Gp.length).indexid g) := by
      show s.ifiles[Gp.length]? = some (encFile 0 Gp.length g)
      rw [h.ifiles, hrep.get]
      simp
    have hwfg : ∀ r ∈ g, r.item.WF := by
      intro r hr; obtain ⟨l, hl, rfl⟩ := hmem r hr; exact hwf l hl
    simp only [List.length_cons, List.range'_succ, loadLoop]
    rw [loadFile_encFile cfg br _ u .user g hcfg
      (by show Gp.length < 2 ^ 32; simp at hlen; omega) hf hwfg]
    simp only
    have h0 : VInv br u fi fd ({ Zdb.rehash { indexSetId s Gp.length with mode := .user } with nextid := 0 } : Store)
        (locs Gp) := ⟨rfl, h.ifiles, h.dfiles, h.ents⟩
    have h1 := h0.items 29 g hwfg
      (by intro r hr; obtain ⟨l, hl, rfl⟩ := hmem r hr; exact hfl l hl)
    have e2 : (({ Zdb.rehash { indexSetId s Gp.length with mode := .user } with nextid := 0 } : Store)).indexid =
      Gp.length := rfl
    rw [e2] at h1
    rw [← locs_concat] at h1
    obtain ⟨br', s', h2, h3, h4, h5⟩ := ih (Gp ++ [g]) h1.1 (by rw [← hcat]; exact hrep)
      (by rw [← hcat]; simpa using hlen)
      (by rw [← hcat]; exact hwf) (by rw [← hcat]; exact hfl)
    simp only [List.length_append, List.length_singleton] at h2
    refine ⟨br', s', h2, by rw [hcat]; exact h3, ?_, by simp⟩
    intro _
    by_cases hGr : Gr = []
    · rw [h5 hGr]
      simp only [h1.2]
      simp [hGr]
    · rw [hcat]; exact h4 hGr

theorem Kills.stat_mem {P : Bytes → Prop} {a b : List Loc} (h : Kills P a b) {x : Loc} (hx : x ∈ a) :
    ∃ y ∈ b, x.stat = y.stat := by
  induction a generalizing b with
  | nil => cases hx
  | cons z a ih =>
    cases b with
    | nil => exact absurd h id
    | cons y b =>
      simp only [List.mem_cons] at hx
      rcases hx with rfl | hx
      · exact ⟨y, by simp, h.1.1⟩
      · obtain ⟨w, hw, he⟩ := ih h.2 hx
        exact ⟨w, by simp [hw], he⟩

theorem Kills.lastOf {P : Bytes → Prop} {a b : List Loc} (h : Kills P a b) (k : Bytes) :
    (lastOf a k = none ∧ lastOf b k = none) ∨
    ∃ x y, lastOf a k = some x ∧ lastOf b k = some y ∧ x.stat = y.stat ∧ (y.live = true → x.live = true) := by
  have key : ∀ (a b : List Loc), Kills P a b → ∀ (p q : Option Loc),
      ((p = none ∧ q = none) ∨ ∃ x y, p = some x ∧ q = some y ∧ x.stat = y.stat ∧ (y.live = true → x.live = true)) →
      (((a.filter (fun l => l.id == k)).getLast?.or p = none ∧ (b.filter (fun l => l.id == k)).getLast?.or q = none) ∨
        ∃ x y, (a.filter (fun l => l.id == k)).getLast?.or p = some x ∧
          (b.filter (fun l => l.id == k)).getLast?.or q = some y ∧ x.stat = y.stat ∧
          (y.live = true → x.live = true)) := by
    intro a
    induction a with
    | nil =>
      intro b h p q hpq
      cases b with
      | nil => simpa using hpq
      | cons _ _ => exact absurd h id
    | cons x a ih =>
      intro b h p q hpq
      cases b with
      | nil => exact absurd h id
      | cons y b =>
        obtain ⟨⟨h1, h2, -⟩, h3⟩ := h
        have hid : x.id = y.id := by
          have := congrArg (fun l => l.r.item.id) h1
          exact this
        by_cases hk : x.id = k
        · have hk' : y.id = k := by rw [← hid]; exact hk
          have := ih b h3 (some x) (some y) (Or.inr ⟨x, y, rfl, rfl, h1, h2⟩)
          rw [List.filter_cons_of_pos (by simp [hk]), List.filter_cons_of_pos (by simp [hk']),
            List.getLast?_cons, List.getLast?_cons]
          rcases this with ⟨h4, -⟩ | ⟨x', y', h4, h5, h6⟩
          · simp [Option.or_eq_none_iff] at h4
          · refine Or.inr ⟨x', y', ?_, ?_, h6⟩
            · cases hz : (List.filter (fun l => l.id == k) a).getLast? <;> rw [hz] at h4 <;> simpa using h4
            · cases hz : (List.filter (fun l => l.id == k) b).getLast? <;> rw [hz] at h5 <;> simpa using h5
        · have hk' : ¬ y.id = k := by rw [← hid]; exact hk
          rw [List.filter_cons_of_neg (by simp [hk]), List.filter_cons_of_neg (by simp [hk'])]
          exact ih b h3 p q hpq
  have := key a b h none none (Or.inl ⟨rfl, rfl⟩)
  unfold Zdb.lastOf
  simpa only [Option.or_none] using this

/-- What a key has after loading the files left by a power loss. -/
theorem UInv.load_lossy {br br0 : Branches} {u0 u : Nat} {s : Store} {G G' : Log} (h : UInv br u0 s G)
    {fi : List Bytes} (hrep : IRep 0 fi G') (hGl : G'.length = G.length)
    (hkills : Kills (fun _ => True) (locs G') (locs G))
    (hflags : ∀ g ∈ G', ∀ r ∈ g, r.item.flags = 0 ∨ r.item.flags = 1)
    (cfg : Option Mode) (hcfg : cfg = none ∨ cfg = some .user) (hlen : G.length < 2 ^ 32)
    (hbr : ∀ h, nsBranch br0 u h = []) :
    ∃ br' s', loadNs cfg br0 u fi s.dfiles = .ok br' s' ∧ s'.mode = .user ∧ InStep s' ∧
      s'.indexid + 1 = G.length ∧ s'.dfiles = s.dfiles ∧
      ∀ k, HasVal br' u s'.dfiles k (((lastOf (locs G') k).filter Loc.live).map (fun l => l.r.payload)) := by
  have hne : G' ≠ [] := by
    intro h0
    have := h.ne
    rw [h0] at hGl
    exact this (List.length_eq_zero_iff.1 hGl.symm)
  have hG : 0 < G'.length := List.length_pos_iff.2 hne
  have hn : maxFiles fi = G'.length := by
    rw [maxFiles, hrep.length]; omega
  have hm0 : (initRoot cfg fi s.dfiles).mode = .user := by
    rcases hcfg with rfl | rfl <;> rfl
  have h0 : ∀ i d, VInv br0 u fi s.dfiles
      ({ initRoot cfg fi s.dfiles with indexid := i, dirty := d } : Store) (locs []) := by
    intro i d
    refine ⟨hm0, rfl, rfl, ?_⟩
    intro k
    show keyEnts br0 u k = []
    rw [keyEnts, hbr]; rfl
  have hstat : ∀ l ∈ locs G', ∃ m ∈ locs G, l.stat = m.stat := fun l hl => hkills.stat_mem hl
  have hfl : ∀ l ∈ locs G', l.r.item.flags = 0 ∨ l.r.item.flags = 1 := by
    intro l hl
    obtain ⟨A, B, hAB⟩ := List.append_of_mem hl
    obtain ⟨G1, g1, g2, G2, hs⟩ := locs_split hAB
    exact hflags (g1 ++ l.r :: g2) (by rw [hs.log]; simp) l.r (by simp)
  have hrec : ∀ l ∈ locs G', RecOK s.dfiles l.file l.r := by
    intro l hl
    obtain ⟨m, hm, he⟩ := hstat l hl
    have hr := h.recs m hm
    have e1 : l.file = m.file := by
      have := congrArg Loc.file he
      exact this
    have e2 : ({ l.r.item with flags := 0 } : Item) = { m.r.item with flags := 0 } := by
      have := congrArg (fun x => x.r.item) he
      exact this
    have e3 : l.r.payload = m.r.payload := by
      have := congrArg (fun x => x.r.payload) he
      exact this
    have hitem : l.r.item = { m.r.item with flags := l.r.item.flags } := by
      have : l.r.item = { ({ l.r.item with flags := 0 } : Item) with flags := l.r.item.flags } := rfl
      rw [this, e2]
    have hlr : l.r = ⟨{ m.r.item with flags := l.r.item.flags }, m.r.payload⟩ := by
      cases hx : l.r with
      | mk i p =>
        rw [hx] at hitem e3
        simp only at hitem e3
        rw [hitem, e3]
    rw [e1, hlr]
    refine ⟨?_, hr.len, hr.crc, hfl l hl, hr.data⟩
    obtain ⟨w1, w2, w3, w4, w5, -, w6⟩ := hr.wf
    exact ⟨w1, w2, w3, w4, w5, by rcases hfl l hl with h | h <;> rw [h] <;> decide, w6⟩
  obtain ⟨i, d, hfold⟩ := indexSetId_foldl (List.range (G'.length + 1)) (initRoot cfg fi s.dfiles)
  obtain ⟨br', s', h1, h2, h3, -⟩ := VInv.loop cfg hcfg [] G' (h0 i d) hrep (by simp only [List.nil_append]; omega)
    (fun l hl => (hrec l hl).wf) hfl
  simp only [List.nil_append] at h2 h3
  have hid := h3 hne
  have hlt : s'.indexid < s'.dfiles.length := by rw [h2.dfiles, h.dlen]; omega
  obtain ⟨p, hp⟩ := dataOpen_same hlt (by
    obtain ⟨t, ht⟩ := h.dhead s'.indexid _ (List.getElem?_eq_getElem (by rw [h.dlen]; omega))
    refine ⟨t, ?_⟩
    simp only [h2.dfiles]
    rw [← ht]
    exact List.getElem?_eq_getElem _)
  refine ⟨br', { s' with dataid := s'.indexid, dprev := p }, ?_, h2.mode, ?_, ?_, h2.dfiles, ?_⟩
  · unfold loadNs
    simp only [hn, hfold, if_pos hG]
    rw [List.range_eq_range']
    simp only [List.length_nil] at h1
    rw [h1]
    simp only [hp]
  · refine ⟨?_, ?_, rfl⟩
    · simp only [h2.dfiles, h.dlen]; omega
    · simp only [h2.ifiles, hrep.length]; omega
  · simp only; omega
  · intro k
    have hk := h2.ents k
    simp only [h2.dfiles]
    cases ho : lastOf (locs G') k with
    | none => rw [ho] at hk; exact hk
    | some l =>
      rw [ho] at hk
      simp only [EntryOf] at hk
      by_cases hl : l.live = true
      · rw [if_pos hl] at hk
        obtain ⟨e, he, hlk⟩ := hk
        have hval : ((some l).filter Loc.live).map (fun l => l.r.payload) = some l.r.payload := by
          simp [Option.filter, hl]
        rw [hval]
        refine ⟨e, he, ?_, ?_⟩
        · rw [hlk.flags]; simpa [Loc.live] using hl
        · have hr := hrec l (lastOf_mem ho).1
          obtain ⟨w1, w2, w3, w4, -, -, -, w8, w9, -, -⟩ := hr.wf
          have hid : e.id = l.r.item.id := hlk.id
          rw [hlk.dataid]
          refine ⟨?_, ?_, ?_, Or.inl rfl, ?_⟩
          · simp only [entryRec, itemOf, Item.WF, hid, hlk.offset, hlk.length, hlk.timestamp, hlk.crc]
            exact ⟨trivial, w2, w3, w4, by decide, by decide, by decide, w8, w9, by decide, by decide⟩
          · simp only [entryRec, itemOf, hlk.length]; exact hr.len
          · simp only [entryRec, itemOf, hlk.crc]; exact hr.crc
          · obtain ⟨prev, hp, hd⟩ := hr.data
            refine ⟨prev, hp, ?_⟩
            simp only [entryRec, itemOf, recHdr, hid, hlk.offset, hlk.length, hlk.timestamp, hlk.crc] at hd ⊢
            exact hd
      · rw [if_neg hl] at hk
        have hval : ((some l).filter Loc.live).map (fun l => l.r.payload) = none := by
          simp [Option.filter, hl]
        rw [hval]
        exact hk

end Zdb
