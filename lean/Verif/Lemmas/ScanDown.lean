/-
What backward walks find: RSCAN.
-/
import Verif.Lemmas.ScanUp
namespace Zdb

/-! ### neighbours in the log -/

/-- No index file is without records. -/
def NoEmpty (G : Log) : Prop := ∀ g ∈ G, g ≠ []

theorem lastOff_concat (d : Nat) (A : List Loc) (m : Loc) : lastOff d (A ++ [m]) = m.off := by
  rw [lastOff_append]; rfl

theorem mem_locsIn_lt {file off : Nat} {g : List Rec} {l : Loc} (h : l ∈ locsIn file off g) :
    l.file = file ∧ off ≤ l.off ∧ l.off < off + isize g := by
  induction g generalizing off with
  | nil => simp [locsIn] at h
  | cons r g ih =>
    simp only [locsIn, List.mem_cons] at h
    rcases h with rfl | h
    · refine ⟨rfl, Nat.le_refl _, ?_⟩
      simp only [isize]; omega
    · have := ih h
      simp only [isize]; omega

/-- The record before `l`: in the same file before it, or in the file before if `l` is the first record of
    its file. -/
theorem neighbour {G : Log} (hne : NoEmpty G) {A B : List Loc} {m l : Loc}
    (h : locs G = A ++ m :: l :: B) :
    (m.file = l.file ∧ m.off < l.off) ∨ (m.file + 1 = l.file ∧ l.off = 29) := by
  have h' : locs G = (A ++ [m]) ++ l :: B := by rw [h]; simp
  obtain ⟨G1, g1, g2, G2, hs⟩ := locs_split h'
  have hb := hs.before
  rcases List.eq_nil_or_concat g1 with hg | ⟨g1', r, hg⟩
  · subst hg
    right
    refine ⟨?_, by rw [hs.off]; rfl⟩
    rw [locsIn, List.append_nil] at hb
    rcases List.eq_nil_or_concat G1 with hG | ⟨G1', g, hG⟩
    · subst hG; simp [locsFrom] at hb
    · rw [List.concat_eq_append] at hG
      subst hG
      have hg0 : g ≠ [] := hne g (by rw [hs.log]; simp)
      have hm : m ∈ locsIn G1'.length 29 g := by
        rw [locsFrom_append, locsFrom, locsFrom, List.append_nil, Nat.zero_add] at hb
        obtain ⟨r0, g0, rfl⟩ := List.exists_cons_of_ne_nil hg0
        have hlast : (A ++ [m]).getLast? = some m := by simp
        rw [hb, List.getLast?_append] at hlast
        have hsome : (locsIn G1'.length 29 (r0 :: g0)).getLast? ≠ none := by
          simp [locsIn]
        cases hc : (locsIn G1'.length 29 (r0 :: g0)).getLast? with
        | none => exact absurd hc hsome
        | some x =>
          rw [hc] at hlast
          simp only [Option.some_or, Option.some.injEq] at hlast
          subst hlast
          exact List.mem_of_getLast? hc
      have := mem_locsIn_lt hm
      rw [hs.file, this.1]; simp
  · rw [List.concat_eq_append] at hg
    subst hg
    left
    rw [locsIn_append, ← List.append_assoc] at hb
    simp only [locsIn] at hb
    have := List.append_inj_right' hb rfl
    simp only [List.cons.injEq, and_true] at this
    rw [this, hs.off, isize_append]
    refine ⟨rfl, ?_⟩
    simp only [isize]; omega

theorem locs_item_prev {G : Log} (hp : PrevOK 0 (locs G)) {A B : List Loc} {l : Loc}
    (h : locs G = A ++ l :: B) : l.r.item.previous = lastOff 0 A := by
  rw [h, PrevOK_append] at hp
  exact hp.2.1

theorem headOK {mode : Nat} {fs : List Bytes} {G : Log} (h : IRep mode fs G) (hw : ItemsOK G)
    (hp : PrevOK 0 (locs G)) : ∀ f ∈ fs, HeadOK f := by
  intro f hf p hpr
  obtain ⟨i, hi⟩ := List.getElem?_of_mem hf
  rw [h.get] at hi
  cases hg : G[i]? with
  | none => simp [hg] at hi
  | some g =>
    rw [hg, Option.map_some, Option.some.injEq] at hi
    cases g with
    | nil =>
      have := previousAt_bound hpr
      rw [← hi] at this
      simp [isize] at this
    | cons r g =>
      obtain ⟨hlt, hgi⟩ := List.getElem?_eq_some_iff.1 hg
      have hG : G = G.take i ++ (r :: g) :: G.drop (i + 1) := by
        rw [← hgi, ← List.drop_eq_getElem_cons hlt, List.take_append_drop]
      have hlen : (G.take i).length = i := by simp; omega
      have hl : locs G = locs (G.take i) ++ (⟨i, 29, r⟩ : Loc) ::
          (locsIn i (29 + (34 + r.item.id.length)) g ++ locsFrom (i + 1) (G.drop (i + 1))) := by
        rw [locs]
        conv => lhs; rw [hG]
        rw [locsFrom_append, locsFrom, locsIn, hlen, Nat.zero_add]
        rfl
      obtain ⟨f', hf', hit⟩ := h.itemAt hw (l := (⟨i, 29, r⟩ : Loc)) (by rw [hl]; simp)
      simp only [h.get, hg, Option.map_some, Option.some.injEq] at hf'
      rw [hi] at hf'
      subst hf'
      have := hit.prev
      simp only at this
      rw [hpr, Option.some.injEq] at this
      have hprev := locs_item_prev hp hl
      simp only at hprev
      rw [this, hprev]
      rcases List.eq_nil_or_concat (locs (G.take i)) with h0 | ⟨A, m, hA⟩
      · left; rw [h0]; rfl
      · right
        rw [hA, List.concat_eq_append, lastOff_concat]
        apply mem_locs_off (G := G)
        rw [hl, hA]; simp

/-! ### RSCAN with a cursor -/

theorem prevGo_at {f : Bytes} {l : Loc} (h : ItemAt f l.off l.r.item) :
    prevReal.go f l.off = if l.live then .found l.off l.r.item else .again l.off 0 := by
  by_cases hd : isDeleted l.r.item.flags = true
  · simp [prevReal.go, h.deleted, Loc.live, hd]
  · have hd' : isDeleted l.r.item.flags = false := by simpa using hd
    simp [prevReal.go, h.deleted, Loc.live, hd', h.take]

theorem walkDown_prev {mode : Nat} {fs : List Bytes} {G : Log} (h : IRep mode fs G) (hw : ItemsOK G)
    (hp : PrevOK 0 (locs G)) (hlen : G.length < 2 ^ 32) (hne : NoEmpty G) (k : Nat) :
    ∀ (A : List Loc), A.length = k → ∀ (l : Loc) (B : List Loc), locs G = A ++ l :: B →
      ∃ n, walkDown prevReal fs n l.file l.off 0 = firstLive A.reverse := by
  induction k with
  | zero =>
    intro A hA l B hl
    have hA' := List.length_eq_zero_iff.1 hA
    subst hA'
    obtain ⟨f, hf, hi⟩ := h.itemAt hw (l := l) (by rw [hl]; simp)
    have hpr := hi.prev
    rw [locs_item_prev hp hl] at hpr
    have h29 : 29 ≤ l.off := mem_locs_off (G := G) (by rw [hl]; simp)
    refine ⟨1, ?_⟩
    have hstep : prevReal f l.off 0 = .noMore := by
      simp only [prevReal, if_true, hpr, lastOff]
      rw [if_neg (by omega)]
      simp
    simp only [walkDown, hf, hstep]
    rfl
  | succ k ih =>
    intro A hA l B hl
    rcases List.eq_nil_or_concat A with h0 | ⟨A0, m, hA0⟩
    · subst h0; simp at hA
    rw [List.concat_eq_append] at hA0
    subst hA0
    have hl' : locs G = A0 ++ m :: (l :: B) := by rw [hl]; simp
    obtain ⟨n, hn⟩ := ih A0 (by simpa using hA) m (l :: B) hl'
    obtain ⟨f, hf, hi⟩ := h.itemAt hw (l := l) (by rw [hl]; simp)
    obtain ⟨fm, hfm, him⟩ := h.itemAt hw (l := m) (by rw [hl']; simp)
    have hpr := hi.prev
    rw [locs_item_prev hp hl, lastOff_concat] at hpr
    have h29 : 29 ≤ m.off := mem_locs_off (G := G) (by rw [hl']; simp)
    have hgo := prevGo_at him
    have hrev : (A0 ++ [m]).reverse = m :: A0.reverse := by simp
    rw [hrev]
    rcases neighbour hne hl' with ⟨e1, e2⟩ | ⟨e1, e2⟩
    · rw [← e1, hfm] at hf
      obtain rfl := Option.some.inj hf
      have hstep : prevReal fm l.off 0 = prevReal.go fm m.off := by
        simp only [prevReal, if_true, hpr]
        rw [if_neg (show ¬ (m.off ≥ l.off) by omega), if_neg (show ¬ (m.off = 1) by omega),
          if_neg (show ¬ (m.off = 0) by omega)]
      refine ⟨n + 1, ?_⟩
      simp only [walkDown, ← e1, hfm, hstep, hgo]
      cases hm : m.live with
      | true => simp only [if_true, firstLive, List.find?_cons, hm]
      | false =>
        simp only [Bool.false_eq_true, if_false, hn, firstLive, List.find?_cons, hm]
    · have hstep : prevReal f l.off 0 = .other l.off m.off := by
        simp only [prevReal, if_true, hpr]
        rw [if_pos (by omega)]
      have hmlt : m.file < 2 ^ 32 := by
        have := mem_locs_lt (G := G) (l := m) (by rw [hl']; simp)
        omega
      have hmod : (l.file + (2 ^ 32 - 1)) % 2 ^ 32 = m.file := by omega
      have hstep2 : prevReal fm l.off m.off = prevReal.go fm m.off := by
        simp only [prevReal]
        rw [if_neg (by omega)]
      refine ⟨n + 1 + 1, ?_⟩
      simp only [walkDown, hf, hstep, hmod, hfm, hstep2, hgo]
      cases hm : m.live with
      | true => simp only [if_true, firstLive, List.find?_cons, hm]
      | false =>
        simp only [Bool.false_eq_true, if_false, hn, firstLive, List.find?_cons, hm]

theorem walkDown_unique {step : Bytes → Nat → Nat → Step} {fs : List Bytes} {n m file o t : Nat}
    (h1 : walkDown step fs n file o t ≠ .fuel) (h2 : walkDown step fs m file o t ≠ .fuel) :
    walkDown step fs n file o t = walkDown step fs m file o t := by
  rcases Nat.le_total n m with h | h
  · exact (walkDown_mono h1 h).symm
  · exact walkDown_mono h2 h

theorem prevHeader_eq {mode : Nat} {fs : List Bytes} {G : Log} (h : IRep mode fs G) (hw : ItemsOK G)
    (hp : PrevOK 0 (locs G)) (hlen : G.length < 2 ^ 32) (hne : NoEmpty G) {A B : List Loc} {l : Loc}
    (hl : locs G = A ++ l :: B) : prevHeader fs l.file l.off = firstLive A.reverse := by
  obtain ⟨n, hn⟩ := walkDown_prev h hw hp hlen hne A.length A rfl l B hl
  have h1 : walkDown prevReal fs n l.file l.off 0 ≠ .fuel := by rw [hn]; exact firstLive_ne_fuel _
  have h2 := prevHeader_ends (fs := fs) (by rw [h.length]; exact hlen) (headOK h hw hp) l.file l.off
  exact (walkDown_unique h2 h1).trans hn

/-! ### RSCAN without cursor -/

theorem walkDown_last {mode : Nat} {fs : List Bytes} {G : Log} (h : IRep mode fs G) (hw : ItemsOK G)
    (hp : PrevOK 0 (locs G)) (hlen : G.length < 2 ^ 32) (hne : NoEmpty G) (k : Nat) :
    ∀ (A : List Loc), A.length = k → ∀ (l : Loc) (B : List Loc) (o : Nat), locs G = A ++ l :: B →
      ∃ n, walkDown lastReal fs n l.file o l.off = firstLive (l :: A.reverse) := by
  induction k with
  | zero =>
    intro A hA l B o hl
    have hA' := List.length_eq_zero_iff.1 hA
    subst hA'
    obtain ⟨f, hf, hi⟩ := h.itemAt hw (l := l) (by rw [hl]; simp)
    have hpr := hi.prev
    rw [locs_item_prev hp hl, lastOff] at hpr
    have h29 : 29 ≤ l.off := mem_locs_off (G := G) (by rw [hl]; simp)
    refine ⟨2, ?_⟩
    cases hm : l.live with
    | true =>
      have hd : isDeleted l.r.item.flags = false := by simpa [Loc.live] using hm
      have hstep : lastReal f o l.off = .found l.off l.r.item := by
        simp only [lastReal]
        rw [if_neg (by omega), if_neg (by omega), if_neg (by omega)]
        simp only [hi.deleted, hd, hi.take]
      simp only [walkDown, hf, hstep, firstLive, List.find?_cons, hm]
    | false =>
      have hd : isDeleted l.r.item.flags = true := by simpa [Loc.live] using hm
      have hstep : lastReal f o l.off = .again o 0 := by
        simp only [lastReal]
        rw [if_neg (by omega), if_neg (by omega), if_neg (by omega)]
        simp only [hi.deleted, hd, hpr]
        rw [if_neg (by omega)]
      have hstep2 : lastReal f o 0 = .noMore := by simp [lastReal]
      simp only [walkDown, hf, hstep, hstep2, firstLive, List.find?_cons, hm]
      rfl
  | succ k ih =>
    intro A hA l B o hl
    rcases List.eq_nil_or_concat A with h0 | ⟨A0, m, hA0⟩
    · subst h0; simp at hA
    rw [List.concat_eq_append] at hA0
    subst hA0
    have hl' : locs G = A0 ++ m :: (l :: B) := by rw [hl]; simp
    obtain ⟨n, hn⟩ := ih A0 (by simpa using hA) m (l :: B) o hl'
    obtain ⟨f, hf, hi⟩ := h.itemAt hw (l := l) (by rw [hl]; simp)
    have hpr := hi.prev
    rw [locs_item_prev hp hl, lastOff_concat] at hpr
    have h29 : 29 ≤ m.off := mem_locs_off (G := G) (by rw [hl']; simp)
    have h29' : 29 ≤ l.off := mem_locs_off (G := G) (by rw [hl]; simp)
    have hrev : (A0 ++ [m]).reverse = m :: A0.reverse := by simp
    rw [hrev]
    refine ⟨n + 1, ?_⟩
    cases hm : l.live with
    | true =>
      have hd : isDeleted l.r.item.flags = false := by simpa [Loc.live] using hm
      have hstep : lastReal f o l.off = .found l.off l.r.item := by
        simp only [lastReal]
        rw [if_neg (by omega), if_neg (by omega), if_neg (by omega)]
        simp only [hi.deleted, hd, hi.take]
      simp only [walkDown, hf, hstep, firstLive, List.find?_cons, hm]
    | false =>
      have hd : isDeleted l.r.item.flags = true := by simpa [Loc.live] using hm
      have hmlt : m.file < 2 ^ 32 := by
        have := mem_locs_lt (G := G) (l := m) (by rw [hl']; simp)
        omega
      rcases neighbour hne hl' with ⟨e1, e2⟩ | ⟨e1, e2⟩
      · have hstep : lastReal f o l.off = .again o m.off := by
          simp only [lastReal]
          rw [if_neg (by omega), if_neg (by omega), if_neg (by omega)]
          simp only [hi.deleted, hd, hpr]
          rw [if_neg (by omega)]
        simp only [walkDown, hf, hstep]
        rw [← e1, hn]
        simp only [firstLive, List.find?_cons, hm]
      · have hstep : lastReal f o l.off = .other o m.off := by
          simp only [lastReal]
          rw [if_neg (by omega), if_neg (by omega), if_neg (by omega)]
          simp only [hi.deleted, hd, hpr]
          rw [if_pos (by omega)]
        have hmod : (l.file + (2 ^ 32 - 1)) % 2 ^ 32 = m.file := by omega
        simp only [walkDown, hf, hstep, hmod, hn]
        simp only [firstLive, List.find?_cons, hm]

/-- The last record of a log without empty files is in the last file. -/
theorem last_file {G : Log} (hne : NoEmpty G) {A : List Loc} {l : Loc} (h : locs G = A ++ [l]) :
    l.file + 1 = G.length := by
  obtain ⟨G1, g1, g2, G2, hs⟩ := locs_split h
  have ha := hs.after
  have hG2 : G2 = [] := by
    cases G2 with
    | nil => rfl
    | cons g G2 =>
      have : g ≠ [] := hne g (by rw [hs.log]; simp)
      obtain ⟨r, g', rfl⟩ := List.exists_cons_of_ne_nil this
      simp [locsFrom, locsIn] at ha
  rw [hs.log, hs.file, hG2]; simp

theorem lastHeader_eq {mode : Nat} {s : Store} {G : Log} (h : IRep mode s.ifiles G) (hw : ItemsOK G)
    (hp : PrevOK 0 (locs G)) (hlen : G.length < 2 ^ 32) (hiid : s.indexid + 1 = G.length)
    (hiprev : s.iprev = lastOff 0 (locs G)) (hne : locs G = [] ∨ NoEmpty G) :
    lastHeader s = firstLive (locs G).reverse := by
  have hend := lastHeader_ends (s := s) (by rw [h.length]; exact hlen)
  rcases List.eq_nil_or_concat (locs G) with h0 | ⟨A, l, hA⟩
  · have hf : ∃ f, s.ifiles[s.indexid]? = some f := by
      have : s.indexid < s.ifiles.length := by rw [h.length]; omega
      exact ⟨_, List.getElem?_eq_getElem this⟩
    obtain ⟨f, hf⟩ := hf
    have hi0 : s.iprev = 0 := by rw [hiprev, h0]; rfl
    have h1 : walkDown lastReal s.ifiles 1 s.indexid s.iprev s.iprev = .noMore := by
      simp [walkDown, hf, hi0, lastReal]
    have h2 : walkDown lastReal s.ifiles 1 s.indexid s.iprev s.iprev ≠ .fuel := by rw [h1]; simp
    rw [h0]
    exact (walkDown_unique hend h2).trans h1
  · rw [List.concat_eq_append] at hA
    have hne' : NoEmpty G := by
      rcases hne with h0 | h0
      · rw [hA] at h0; simp at h0
      · exact h0
    have hfile : s.indexid = l.file := by have := last_file hne' hA; omega
    have hoff : s.iprev = l.off := by rw [hiprev, hA, lastOff_concat]
    obtain ⟨n, hn⟩ := walkDown_last h hw hp hlen hne' A.length A rfl l [] l.off hA
    have h1 : walkDown lastReal s.ifiles n l.file l.off l.off ≠ .fuel := by
      rw [hn]; exact firstLive_ne_fuel _
    rw [lastHeader, hfile, hoff] at hend ⊢
    rw [walkDown_unique hend h1, hn, hA]
    simp

theorem rscanLoop_eq {mode : Nat} {fs : List Bytes} {G : Log} (h : IRep mode fs G) (hw : ItemsOK G)
    (hp : PrevOK 0 (locs G)) (hlen : G.length < 2 ^ 32) (hne : NoEmpty G) (n : Nat) :
    ∀ {A B : List Loc} {l : Loc}, locs G = A ++ l :: B →
    scanLoop (prevHeader fs) n l.file l.off = ((A.reverse.filter Loc.live).take n).map Loc.scanned := by
  induction n with
  | zero => intro A B l _; simp [scanLoop]
  | succ n ih =>
    intro A B l hl
    simp only [scanLoop, prevHeader_eq h hw hp hlen hne hl, firstLive]
    cases hB : A.reverse.find? Loc.live with
    | none => rw [find?_live_none hB]; rfl
    | some l' =>
      obtain ⟨a, b, hab, hfil, -, -⟩ := find?_live_split hB
      have hA : A = b.reverse ++ l' :: a.reverse := by
        have := congrArg List.reverse hab
        simpa using this
      have := ih (A := b.reverse) (B := a.reverse ++ l :: B) (l := l') (by rw [hl, hA]; simp)
      rw [List.reverse_reverse] at this
      simp only [this, hfil, List.take_succ_cons, List.map_cons]
      rfl

/-- RSCAN without cursor. -/
theorem cmdRscan_start {c : Ctx} {s : Store} {mode : Nat} {G : Log} (h : IRep mode s.ifiles G)
    (hw : ItemsOK G) (hp : PrevOK 0 (locs G)) (hlen : G.length < 2 ^ 32)
    (hiid : s.indexid + 1 = G.length) (hiprev : s.iprev = lastOff 0 (locs G))
    (hne : locs G = [] ∨ NoEmpty G) (hf : c.conf.isFrozen = false) (n : Bytes) :
    cmdRscan c s [n] = replyScan (((live G).reverse.take (c.slice + 1)).map Loc.scanned) := by
  rw [live, ← List.filter_reverse]
  simp only [cmdRscan, scanWith, hf, lastHeader_eq h hw hp hlen hiid hiprev hne, firstLive]
  cases hB : (locs G).reverse.find? Loc.live with
  | none => simp [find?_live_none hB, replyScan]
  | some l =>
    obtain ⟨a, b, hab, hfil, -, -⟩ := find?_live_split hB
    have hA : locs G = b.reverse ++ l :: a.reverse := by
      have := congrArg List.reverse hab
      simpa using this
    have hne' : NoEmpty G := by
      rcases hne with h0 | h0
      · rw [hA] at h0; simp at h0
      · exact h0
    have := rscanLoop_eq h hw hp hlen hne' c.slice hA
    rw [List.reverse_reverse] at this
    simp only [this, hfil, List.take_succ_cons, List.map_cons]
    rfl

end Zdb
