/-
What forward walks find: SCAN.
-/
import Verif.Lemmas.ScanWalk
namespace Zdb

/-! ### reading an item -/

/-- The fixed part of an item. -/
def itemHead (it : Item) : Bytes :=
  toLE 1 it.idlength ++ (toLE 4 it.offset ++ (toLE 4 it.length ++ (toLE 4 it.previous ++
  (toLE 1 it.flags ++ (toLE 4 it.dataid ++ (toLE 4 it.timestamp ++ (toLE 4 it.crc ++
  (toLE 4 it.parentid ++ toLE 4 it.parentoff))))))))

theorem encItem_eq (it : Item) : encItem it = itemHead it ++ it.id := by
  simp [encItem, itemHead, List.append_assoc]

theorem itemHead_length (it : Item) : (itemHead it).length = 34 := by simp [itemHead]

theorem decItem_itemHead (it : Item) (h : it.WF) : decItem (itemHead it) = { it with id := [] } := by
  obtain ⟨h0, h1, h2, h3, h4, h5, h6, h7, h8, h9, h10⟩ := h
  have hid : it.idlength < 256 := by omega
  cases it
  simp_all [decItem, itemHead, pread_skip, pread_head, pread_all, fromLE_toLE1, fromLE_toLE4,
    List.drop_append, drop_toLE]

/-- File `f` has the item `it` at offset `off`. -/
def ItemAt (f : Bytes) (off : Nat) (it : Item) : Prop :=
  it.WF ∧ ∃ pre post, f = pre ++ (encItem it ++ post) ∧ off = pre.length

theorem ItemAt.head {f : Bytes} {off : Nat} {it : Item} (h : ItemAt f off it) :
    readExact f off itemHdr = some (itemHead it) := by
  obtain ⟨-, pre, post, hf, ho⟩ := h
  refine readExact_at (c := it.id ++ post) ?_ ho (by rw [itemHead_length]; rfl)
  rw [hf, encItem_eq, List.append_assoc]

theorem ItemAt.idlen {f : Bytes} {off : Nat} {it : Item} (h : ItemAt f off it) :
    idlenAt f off = some it.id.length := by
  rw [idlenAt, h.head, Option.map_some, decItem_itemHead it h.1, h.1.1]

theorem ItemAt.deleted {f : Bytes} {off : Nat} {it : Item} (h : ItemAt f off it) :
    deletedAt f off = some (isDeleted it.flags) := by
  rw [deletedAt, h.head, Option.map_some, decItem_itemHead it h.1]

theorem ItemAt.prev {f : Bytes} {off : Nat} {it : Item} (h : ItemAt f off it) :
    previousAt f off = some it.previous := by
  rw [previousAt, h.head, Option.map_some, decItem_itemHead it h.1]

theorem ItemAt.take {f : Bytes} {off : Nat} {it : Item} (h : ItemAt f off it) :
    takeItem f off = .found off it := by
  have h1 := h.head
  obtain ⟨hw, pre, post, hf, ho⟩ := h
  have h2 : readExact f (off + itemHdr) it.idlength = some it.id := by
    refine readExact_at (a := pre ++ itemHead it) (c := post) ?_ ?_ hw.1
    · rw [hf, encItem_eq]; simp [List.append_assoc]
    · rw [List.length_append, itemHead_length, ho]; rfl
  simp only [takeItem, readItemAt, h1, decItem_itemHead it hw, h2]

/-! ### steps of a forward walk -/

/-- What the four functions of a forward walk have in common. -/
structure UpStep (step : Bytes → Nat → Nat → Step) : Prop where
  live : ∀ f o off it, ItemAt f off it → off ≠ 0 → isDeleted it.flags = false →
    step f o off = .found off it
  dead : ∀ f o off it, ItemAt f off it → off ≠ 0 → isDeleted it.flags = true →
    ∃ o' t' o'', step f o off = .again o' t' ∧ step f o' t' = step f o'' (off + (34 + it.id.length))
  eof : ∀ f o off, off ≠ 0 → f.length ≤ off → ∃ o', step f o off = .other o' 29

theorem deletedAt_eof {f : Bytes} {off : Nat} (h : f.length ≤ off) : deletedAt f off = none := by
  rw [deletedAt, readExact_eq_none (by decide) (by simp only [itemHdr]; omega)]; rfl

theorem nextReal_zero {f : Bytes} {off : Nat} {it : Item} (h : ItemAt f off it) (o : Nat) :
    nextReal f off 0 = nextReal f off (off + (34 + it.id.length)) := by
  simp only [nextReal, if_true, h.idlen, Option.map_some, itemHdr]
  rw [if_neg (by omega)]
  simp only [Nat.add_assoc]

theorem nextReal_up : UpStep nextReal where
  live := by
    intro f o off it h h0 hd
    simp only [nextReal, if_neg h0, h.deleted, hd, h.take]
  dead := by
    intro f o off it h h0 hd
    refine ⟨off, 0, off, ?_, nextReal_zero h o⟩
    simp only [nextReal, if_neg h0, h.deleted, hd]
  eof := by
    intro f o off h0 h
    exact ⟨o, by simp only [nextReal, if_neg h0, deletedAt_eof h, ihdrLen]⟩

theorem firstReal_up : UpStep firstReal where
  live := by
    intro f o off it h h0 hd
    simp only [firstReal, h.deleted, hd, h.take]
  dead := by
    intro f o off it h h0 hd
    refine ⟨o, off + (34 + it.id.length), o, ?_, rfl⟩
    simp only [firstReal, h.deleted, hd, h.idlen, itemHdr, Nat.add_assoc]
  eof := by
    intro f o off h0 h
    exact ⟨o, by simp only [firstReal, deletedAt_eof h, ihdrLen]⟩

/-! ### forward walks -/

/-- The first live record of a list. -/
def firstLive (L : List Loc) : Walk :=
  match L.find? Loc.live with
  | some l => .found l.file l.off l.r.item
  | none => .noMore

theorem firstLive_ne_fuel (L : List Loc) : firstLive L ≠ .fuel := by
  unfold firstLive; split <;> simp

theorem walkUp_congr {step : Bytes → Nat → Nat → Step} {fs : List Bytes} {file : Nat} {f : Bytes}
    (hf : fs[file]? = some f) {o t o' t' : Nat} (h : step f o t = step f o' t') (n : Nat) :
    walkUp step fs n file o t = walkUp step fs n file o' t' := by
  cases n with
  | zero => rfl
  | succ n => simp only [walkUp, hf, h]

/-- The items of a log are well formed. -/
def ItemsOK (G : Log) : Prop := ∀ l ∈ locs G, l.r.item.WF

theorem IRep.itemAt {mode : Nat} {fs : List Bytes} {G : Log} (h : IRep mode fs G) (hw : ItemsOK G)
    {l : Loc} (hl : l ∈ locs G) : ∃ f, fs[l.file]? = some f ∧ ItemAt f l.off l.r.item := by
  obtain ⟨pre, post, h1, h2⟩ := h.at hl
  exact ⟨_, h1, hw l hl, pre, post, rfl, h2.symm⟩

theorem IRep.mid {mode : Nat} {fs : List Bytes} {G : Log} (h : IRep mode fs G)
    {G1 G2 : Log} {g : List Rec} (hG : G = G1 ++ g :: G2) :
    fs[G1.length]? = some (encFile mode G1.length g) := by
  rw [h.get, hG, List.getElem?_append_right (Nat.le_refl _)]; simp

theorem mem_locs_mid {G G1 G2 : Log} {g1 g2 : List Rec} {r : Rec}
    (hG : G = G1 ++ (g1 ++ r :: g2) :: G2) : (⟨G1.length, 29 + isize g1, r⟩ : Loc) ∈ locs G := by
  rw [hG, locs, locsFrom_append, locsFrom, locsIn_append, locsIn]
  simp

theorem walkUp_result {step : Bytes → Nat → Nat → Step} (hs : UpStep step) {mode : Nat}
    {fs : List Bytes} {G : Log} (h : IRep mode fs G) (hw : ItemsOK G) (hlen : G.length < 2 ^ 32)
    (G2 : Log) : ∀ (G1 : Log) (g1 g2 : List Rec), G = G1 ++ (g1 ++ g2) :: G2 → ∀ o, ∃ n,
      walkUp step fs n G1.length o (29 + isize g1) =
        firstLive (locsIn G1.length (29 + isize g1) g2 ++ locsFrom (G1.length + 1) G2) := by
  induction G2 with
  | nil =>
    intro G1 g1 g2
    induction g2 generalizing g1 with
    | nil =>
      intro hG o
      have hf := h.mid hG
      obtain ⟨o', ho⟩ := hs.eof (encFile mode G1.length (g1 ++ [])) o (29 + isize g1) (by omega)
        (by simp)
      have hnone : fs[G1.length + 1]? = none := by
        rw [h.get, hG]; simp
      have hlt : G1.length + 1 < 2 ^ 32 := by rw [hG] at hlen; simpa using hlen
      refine ⟨2, ?_⟩
      simp only [walkUp, hf, ho, Nat.mod_eq_of_lt hlt, hnone]
      rfl
    | cons r g2 ih =>
      intro hG o
      have hf := h.mid hG
      obtain ⟨f, hf', hi⟩ := h.itemAt hw (mem_locs_mid hG)
      simp only [hf, Option.some.injEq] at hf'
      subst hf'
      cases hd : isDeleted r.item.flags with
      | false =>
        refine ⟨1, ?_⟩
        have := hs.live _ o _ _ hi (by simp only; omega) hd
        simp only at this
        simp only [walkUp, hf, this, locsIn, firstLive, List.cons_append, List.find?_cons, Loc.live, hd,
          Bool.not_false]
      | true =>
        obtain ⟨o', t', o'', e1, e2⟩ := hs.dead _ o _ _ hi (by simp only; omega) hd
        obtain ⟨n, hn⟩ := ih (g1 ++ [r]) (by rw [hG]; simp) o''
        simp only at e1 e2
        rw [isize_append, isize, isize, Nat.add_zero, ← Nat.add_assoc] at hn
        refine ⟨n + 1, ?_⟩
        simp only [walkUp, hf, e1]
        rw [walkUp_congr hf e2, hn]
        simp only [locsIn, firstLive, List.cons_append, List.find?_cons, Loc.live, hd, Bool.not_true]
  | cons g G2 ihG =>
    intro G1 g1 g2
    induction g2 generalizing g1 with
    | nil =>
      intro hG o
      have hf := h.mid hG
      obtain ⟨o', ho⟩ := hs.eof (encFile mode G1.length (g1 ++ [])) o (29 + isize g1) (by omega)
        (by simp)
      have hlt : G1.length + 1 < 2 ^ 32 := by rw [hG] at hlen; simp at hlen; omega
      obtain ⟨n, hn⟩ := ihG (G1 ++ [g1]) [] g (by rw [hG]; simp) o'
      simp only [List.length_append, List.length_cons, List.length_nil, Nat.zero_add, isize,
        Nat.add_zero] at hn
      refine ⟨n + 1, ?_⟩
      simp only [walkUp, hf, ho, Nat.mod_eq_of_lt hlt, hn, locsIn, List.nil_append, locsFrom]
    | cons r g2 ih =>
      intro hG o
      have hf := h.mid hG
      obtain ⟨f, hf', hi⟩ := h.itemAt hw (mem_locs_mid hG)
      simp only [hf, Option.some.injEq] at hf'
      subst hf'
      cases hd : isDeleted r.item.flags with
      | false =>
        refine ⟨1, ?_⟩
        have := hs.live _ o _ _ hi (by simp only; omega) hd
        simp only at this
        simp only [walkUp, hf, this, locsIn, firstLive, List.cons_append, List.find?_cons, Loc.live, hd,
          Bool.not_false]
      | true =>
        obtain ⟨o', t', o'', e1, e2⟩ := hs.dead _ o _ _ hi (by simp only; omega) hd
        obtain ⟨n, hn⟩ := ih (g1 ++ [r]) (by rw [hG]; simp) o''
        simp only at e1 e2
        rw [isize_append, isize, isize, Nat.add_zero, ← Nat.add_assoc] at hn
        refine ⟨n + 1, ?_⟩
        simp only [walkUp, hf, e1]
        rw [walkUp_congr hf e2, hn]
        simp only [locsIn, firstLive, List.cons_append, List.find?_cons, Loc.live, hd, Bool.not_true]

/-- A walk that ends within two numbers of turns gives the same result. -/
theorem walkUp_unique {step : Bytes → Nat → Nat → Step} {fs : List Bytes} {n m file o t : Nat}
    (h1 : walkUp step fs n file o t ≠ .fuel) (h2 : walkUp step fs m file o t ≠ .fuel) :
    walkUp step fs n file o t = walkUp step fs m file o t := by
  rcases Nat.le_total n m with h | h
  · exact (walkUp_mono h1 h).symm
  · exact walkUp_mono h2 h

theorem firstHeader_eq {mode : Nat} {fs : List Bytes} {G : Log} (h : IRep mode fs G) (hw : ItemsOK G)
    (hne : G ≠ []) (hlen : G.length < 2 ^ 32) : firstHeader fs = firstLive (locs G) := by
  cases G with
  | nil => exact absurd rfl hne
  | cons g G =>
    obtain ⟨n, hn⟩ := walkUp_result firstReal_up h hw hlen G [] [] g rfl 29
    simp only [List.length_nil, isize, Nat.add_zero, Nat.zero_add] at hn
    have h1 : walkUp firstReal fs n 0 29 29 ≠ .fuel := by rw [hn]; exact firstLive_ne_fuel _
    have h2 := firstHeader_ends (fs := fs) (by rw [h.length]; exact hlen)
    exact (walkUp_unique h2 h1).trans hn

theorem nextHeader_eq {mode : Nat} {fs : List Bytes} {G : Log} (h : IRep mode fs G) (hw : ItemsOK G)
    (hlen : G.length < 2 ^ 32) {A B : List Loc} {l : Loc} (hl : locs G = A ++ l :: B) :
    nextHeader fs l.file l.off = firstLive B := by
  obtain ⟨G1, g1, g2, G2, hs⟩ := locs_split hl
  have hfile : l.file = G1.length := by rw [hs.file]; omega
  obtain ⟨n, hn⟩ := walkUp_result nextReal_up h hw hlen G2 G1 (g1 ++ [l.r]) g2 (by rw [hs.log]; simp) l.off
  obtain ⟨f, hf, hi⟩ := h.itemAt hw (l := l) (by rw [hl]; simp)
  rw [isize_append, isize, isize, Nat.add_zero, ← Nat.add_assoc, ← hs.off, ← hfile] at hn
  rw [← hs.after] at hn
  rw [← walkUp_congr hf (nextReal_zero hi 0)] at hn
  have h1 : walkUp nextReal fs n l.file l.off 0 ≠ .fuel := by rw [hn]; exact firstLive_ne_fuel _
  have h2 := nextHeader_ends (fs := fs) (by rw [h.length]; exact hlen) l.file l.off
  rw [nextHeader] at h2 ⊢
  rw [walkUp_unique h2 h1, hn]

/-! ### the loop of SCAN -/

def Loc.scanned (l : Loc) : Scanned := ⟨l.file, l.off, l.r.item⟩

theorem find?_live_split {L : List Loc} {l : Loc} (h : L.find? Loc.live = some l) :
    ∃ a b, L = a ++ l :: b ∧ L.filter Loc.live = l :: b.filter Loc.live ∧ l.live = true ∧
      ∀ x ∈ a, x.live = false := by
  rw [List.find?_eq_some_iff_append] at h
  obtain ⟨hl, a, b, rfl, ha⟩ := h
  refine ⟨a, b, rfl, ?_, hl, fun x hx => by simpa using ha x hx⟩
  rw [List.filter_append, List.filter_cons, if_pos hl, List.filter_eq_nil_iff.2, List.nil_append]
  intro x hx; have := ha x hx; simpa using this

theorem find?_live_none {L : List Loc} (h : L.find? Loc.live = none) : L.filter Loc.live = [] := by
  rw [List.find?_eq_none] at h
  rw [List.filter_eq_nil_iff]; exact h

theorem scanLoop_eq {mode : Nat} {fs : List Bytes} {G : Log} (h : IRep mode fs G) (hw : ItemsOK G)
    (hlen : G.length < 2 ^ 32) (n : Nat) : ∀ {A B : List Loc} {l : Loc}, locs G = A ++ l :: B →
    scanLoop (nextHeader fs) n l.file l.off = ((B.filter Loc.live).take n).map Loc.scanned := by
  induction n with
  | zero => intro A B l _; simp [scanLoop]
  | succ n ih =>
    intro A B l hl
    simp only [scanLoop, nextHeader_eq h hw hlen hl, firstLive]
    cases hB : B.find? Loc.live with
    | none => simp [find?_live_none hB]
    | some l' =>
      obtain ⟨a, b, rfl, hfil, -, -⟩ := find?_live_split hB
      have := ih (A := A ++ l :: a) (B := b) (l := l') (by rw [hl]; simp)
      simp only [this, hfil, List.take_succ_cons, List.map_cons]
      rfl

/-- SCAN without cursor. -/
theorem cmdScan_start {c : Ctx} {s : Store} {mode : Nat} {G : Log} (h : IRep mode s.ifiles G)
    (hw : ItemsOK G) (hne : G ≠ []) (hlen : G.length < 2 ^ 32) (hf : c.conf.isFrozen = false) (n : Bytes) :
    cmdScan c s [n] = replyScan (((live G).take (c.slice + 1)).map Loc.scanned) := by
  simp only [cmdScan, scanWith, hf, firstHeader_eq h hw hne hlen, firstLive, live]
  cases hB : (locs G).find? Loc.live with
  | none => simp [find?_live_none hB, replyScan]
  | some l =>
    obtain ⟨a, b, hab, hfil, -, -⟩ := find?_live_split hB
    simp only [scanLoop_eq h hw hlen _ hab, hfil, List.take_succ_cons, List.map_cons]
    rfl

end Zdb
