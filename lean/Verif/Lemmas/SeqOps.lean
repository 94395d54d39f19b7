/-
Preservation of the sequential invariant by the store operations.
-/
import Verif.Lemmas.SeqInv
namespace Zdb

/-! ### positions -/

theorem pos_inj {G : Log} {l m : Loc} (hl : l ∈ locs G) (hm : m ∈ locs G) (h : l.pos = m.pos) : l = m := by
  obtain ⟨A, B, hAB⟩ := List.append_of_mem hl
  have hs := locs_sorted G
  rw [hAB] at hs hm
  rw [List.pairwise_append, List.pairwise_cons] at hs
  simp only [Loc.pos] at h
  rcases List.mem_append.1 hm with hm | hm
  · have := hs.2.2 m hm l (by simp)
    rw [h] at this; exact absurd this (PLt_irrefl _)
  · rcases List.mem_cons.1 hm with rfl | hm
    · rfl
    · have := hs.2.1.1 m hm
      rw [h] at this; exact absurd this (PLt_irrefl _)

theorem SInv.parent_end {s : Store} {G : Log} (h : SInv s G) {l : Loc} (hl : l ∈ locs G) :
    PLt (parentOf l) (G.length - 1, logEnd G) := by
  rcases h.chain l hl with h0 | ⟨m, hm, hp, -⟩
  · rw [h0]; unfold PLt logEnd; simp only; omega
  · rw [← hp]; exact PLt_end h.ne hm

theorem SInv.parent_ne {s : Store} {G : Log} (h : SInv s G) {l x : Loc} (hl : l ∈ locs G)
    (hlive : l.live = true) (hx : x ∈ locs G) : parentOf x ≠ l.pos := by
  intro he
  rcases h.chain x hx with h0 | ⟨m, hm, hp, -, hd, -⟩
  · rw [h0] at he
    have := mem_locs_off hl
    simp only [Loc.pos, Prod.mk.injEq] at he
    omega
  · have := pos_inj hm hl (by rw [hp, he])
    rw [this, hlive] at hd
    cases hd

theorem verChain_avoid (X Y : List Loc) (a b : Loc) (hab : a.pos = b.pos) (p : Nat × Nat)
    (hp : p ≠ a.pos) (hpar : ∀ l ∈ X ++ Y, parentOf l ≠ a.pos) :
    verChain (X ++ a :: Y) p = verChain (X ++ b :: Y) p := by
  induction X generalizing p with
  | nil =>
    simp only [List.nil_append, verChain]
    have h1 : ¬ ((a.file, a.off) = p) := fun e => hp e.symm
    have h2 : ¬ ((b.file, b.off) = p) := fun e => hp (by rw [hab]; exact e.symm)
    rw [if_neg h1, if_neg h2]
  | cons x X ih =>
    simp only [List.cons_append, verChain]
    have h1 := ih (parentOf x) (hpar x (by simp)) (fun l hl => hpar l (by simp at hl ⊢; exact Or.inr hl))
    simp only [parentOf] at h1
    rw [ih p hp (fun l hl => hpar l (by simp at hl ⊢; exact Or.inr hl)), h1]

/-! ### log operations -/

theorem startsFrom_logAppend {G : Log} (hne : G ≠ []) (r : Rec) :
    startsFrom 0 0 (logAppend G r) = startsFrom 0 0 G := by
  obtain ⟨G', g, rfl⟩ := exists_concat hne
  rw [logAppend_eq, startsFrom_append, startsFrom_append]
  simp [startsFrom]

theorem logAppend_get {G : Log} (hne : G ≠ []) (r : Rec) {i : Nat} {g : List Rec}
    (hg : (logAppend G r)[i]? = some g) : ∃ g', G[i]? = some g' ∧ (g = g' ∨ g = g' ++ [r]) := by
  obtain ⟨G', g', rfl⟩ := exists_concat hne
  rw [logAppend_eq] at hg
  by_cases hi : i < G'.length
  · rw [List.getElem?_append_left hi] at hg ⊢
    exact ⟨g, hg, Or.inl rfl⟩
  · rw [List.getElem?_append_right (by omega)] at hg ⊢
    cases hk : i - G'.length with
    | zero =>
      rw [hk] at hg
      simp at hg
      exact ⟨g', by simp, Or.inr hg.symm⟩
    | succ k => rw [hk] at hg; simp at hg

theorem full_append {G : Log} (hne : G ≠ []) (r : Rec)
    (h : ∀ (i : Nat) (g : List Rec), G[i]? = some g → i + 1 < G.length → g ≠ []) :
    ∀ (i : Nat) (g : List Rec), (logAppend G r)[i]? = some g → i + 1 < (logAppend G r).length → g ≠ [] := by
  intro i g hg hi
  rw [logAppend_length] at hi
  obtain ⟨g', h1, h2⟩ := logAppend_get hne r hg
  rcases h2 with rfl | rfl
  · exact h i g h1 hi
  · simp

theorem replace_map_length {G G1 G2 : Log} {A B : List Loc} {l : Loc} {g1 g2 : List Rec}
    (hs : SplitAt 0 G A l B G1 g1 g2 G2) (r : Rec) :
    (G1 ++ (g1 ++ r :: g2) :: G2).map List.length = G.map List.length := by
  rw [hs.log]; simp

theorem full_congr {G H : Log} (he : H.map List.length = G.map List.length)
    (h : ∀ (i : Nat) (g : List Rec), G[i]? = some g → i + 1 < G.length → g ≠ []) :
    ∀ (i : Nat) (g : List Rec), H[i]? = some g → i + 1 < H.length → g ≠ [] := by
  intro i g hg hi h0
  have hl : H.length = G.length := by have := congrArg List.length he; simpa using this
  have h1 : (H.map List.length)[i]? = some 0 := by simp [hg, h0]
  rw [he, List.getElem?_map] at h1
  cases hgi : G[i]? with
  | none => rw [hgi] at h1; simp at h1
  | some g' =>
    rw [hgi] at h1
    simp at h1
    exact h i g' hgi (by omega) h1

/-! ### jump -/

theorem absSlots_jump (G : Log) : absSlots (logJump G) = absSlots G := by
  simp [absSlots, locs_jump]

theorem jump_seqmap (s : Store) :
    (jump s).seqmap = s.seqmap.map (· ++ [(s.nextentry, (s.indexid + 1) % 2 ^ 32)]) ∧
    (jump s).nextentry = s.nextentry ∧ (jump s).entries = s.entries ∧ (jump s).datasize = s.datasize ∧
    (jump s).mode = s.mode := by
  refine ⟨rfl, rfl, rfl, rfl, rfl⟩

theorem SInv.jump {s : Store} {G : Log} (h : SInv s G) (hcap : G.length < 2 ^ 32) (hitems : 29 < logEnd G) :
    SInv (jump s) (logJump G) := by
  have hc := h.toCore.jump (by rw [h.mode]; rfl) hcap
  obtain ⟨j1, j2, j3, j4, j5⟩ := jump_seqmap s
  have hid : (s.indexid + 1) % 2 ^ 32 = G.length := by rw [h.iid, Nat.mod_eq_of_lt hcap]
  have hsum : (s.dfiles.map List.length).sum ≤ ((Zdb.jump s).dfiles.map List.length).sum := by
    rw [hc.2.1]; simp
  refine { hc.1 with mode := by rw [j5]; exact h.mode, ids8 := ?_, own := ?_, map := ?_, full := ?_, next := ?_, entries := ?_, size := ?_, total := ?_, few := ?_, chain := ?_ }
  · rw [locs_jump]; exact h.ids8
  · rw [locs_jump]; exact h.own
  · obtain ⟨pre, h1, h2⟩ := h.map
    refine ⟨pre, ?_, h2⟩
    rw [j1, h1, hid, h.next, logJump, startsFrom_append, locs_length]
    simp [startsFrom]
  · intro i g hg hi
    rw [logJump_length] at hi
    rw [logJump, List.getElem?_append_left (by omega)] at hg
    by_cases hl : i + 1 < G.length
    · exact h.full i g hg hl
    · rintro rfl
      obtain ⟨G', g', rfl⟩ := exists_concat h.ne
      simp at hl hi
      have : i = G'.length := by omega
      subst this
      simp at hg
      subst hg
      simp [logEnd, isize] at hitems
  · rw [locs_jump, j2]; exact h.next
  · rw [live_jump, j3]; exact h.entries
  · rw [live_jump, j4]; exact h.size
  · rw [j4]; have := h.total; omega
  · rw [locs_jump]; have := h.few; omega
  · rw [locs_jump]; exact h.chain

/-! ### data record -/

theorem SInv.appendData {s : Store} {G : Log} (h : SInv s G) (b : Bytes) (p : Nat) :
    SInv { s with dfiles := appendFile s.dfiles s.dataid b, dprev := p } G := by
  have hlt : s.dataid < s.dfiles.length := by
    rw [h.dlen, h.did]; have := h.iid; omega
  refine { h.toCore.appendData b p with mode := h.mode, ids8 := h.ids8, own := h.own, map := h.map, full := h.full, next := h.next, entries := h.entries, size := h.size, total := ?_, few := ?_, chain := h.chain }
  · simp only
    rw [sum_lengths_append _ _ _ hlt]
    have := h.total
    omega
  · simp only
    rw [sum_lengths_append _ _ _ hlt]
    have := h.few
    omega

/-! ### new id -/

theorem absSlots_append {s : Store} {G : Log} (h : SInv s G) (r : Rec)
    (hpar : PLt (r.item.parentid, r.item.parentoff) (G.length - 1, logEnd G)) :
    absSlots (logAppend G r) = absSlots G ++ [if isDeleted r.item.flags then none else
      some { payload := r.payload, time := r.item.timestamp,
             older := verChain (locs G).reverse (r.item.parentid, r.item.parentoff) }] := by
  have hne := h.ne
  have hskip : ∀ p, PLt p (G.length - 1, logEnd G) →
      verChain (locs (logAppend G r)).reverse p = verChain (locs G).reverse p := by
    intro p hp
    rw [locs_append hne, List.reverse_append]
    exact verChain_skip [_] _ _ (by intro l hl; simp at hl; subst hl; exact hp)
  unfold absSlots
  conv => lhs; rw [locs_append hne]
  rw [List.map_append, ← locs_append hne]
  congr 1
  · apply List.map_congr_left
    intro l hl
    simp only [Loc.slot, Loc.val]
    have := hskip _ (h.parent_end hl)
    simp only [parentOf] at this
    rw [this]
  · simp only [List.map_cons, List.map_nil, Loc.slot, Loc.val, Loc.live]
    rw [hskip _ hpar]
    by_cases hd : isDeleted r.item.flags = true
    · simp [hd]
    · simp [hd]

theorem own_append {G : Log} {L : List Loc} {x : Loc}
    (h : ∀ (i : Nat) (l : Loc), L[i]? = some l → l.live = true → l.id = toLE 8 i)
    (hx : x.live = true → x.id = toLE 8 L.length) :
    ∀ (i : Nat) (l : Loc), (L ++ [x])[i]? = some l → l.live = true → l.id = toLE 8 i := by
  intro i l hl hlv
  by_cases hi : i < L.length
  · rw [List.getElem?_append_left hi] at hl; exact h i l hl hlv
  · rw [List.getElem?_append_right (by omega)] at hl
    cases hk : i - L.length with
    | zero =>
      rw [hk] at hl
      simp at hl
      subst hl
      have : i = L.length := by omega
      subst this
      exact hx hlv
    | succ k => rw [hk] at hl; simp at hl

theorem SInv.insert {s : Store} {G : Log} (h : SInv s G) (u : Nat)
    (io : Io) (hio : io.iapp = none) (r : SetReq) (p : Bytes)
    (hid : r.id = toLE 8 s.nextentry)
    (hoff : r.offset < 2 ^ 32) (hlen : r.length = p.length) (hp : p.length < 2 ^ 32)
    (hcrc : r.crc = crc32 p) (hdid : r.dataid = s.dataid) (hts : r.timestamp < 2 ^ 32)
    (hdata : ∃ prev, prev < 2 ^ 32 ∧ DataAt s.dfiles s.dataid r.offset
      (encDHdr { idlength := r.id.length, datalength := p.length, previous := prev,
                 integrity := crc32 p, flags := 0, timestamp := r.timestamp } ++ (r.id ++ p)))
    (hend : logEnd G < 2 ^ 32)
    (hb : ∀ (g : List Rec) (f : Bytes), G[s.indexid]? = some g → s.dfiles[s.indexid]? = some f →
      19 * (isize g + (34 + r.id.length)) ≤ 35 * (f.length - 28))
    (htot : s.datasize + p.length ≤ (s.dfiles.map List.length).sum)
    (hfew : 18 * ((locs G).length + 1) ≤ (s.dfiles.map List.length).sum) :
    (insertSeq s u io r).2 = true ∧
      SInv (insertSeq s u io r).1 (logAppend G ⟨itemOf s.iprev (r.entry u), p⟩) ∧
      absSlots (logAppend G ⟨itemOf s.iprev (r.entry u), p⟩) = (absSlots G).push p r.timestamp := by
  have hne := h.ne
  have hix : G.length - 1 = s.indexid := by have := h.iid; omega
  have hfl := h.irep.fileLen hne s.indexid h.iid
  have hiprev := h.iprev_lt
  have hlen' : r.length % 2 ^ 32 = p.length := by rw [hlen, Nat.mod_eq_of_lt hp]
  have hoff' : r.offset % 2 ^ 32 = r.offset := Nat.mod_eq_of_lt hoff
  have hts' : r.timestamp % 2 ^ 32 = r.timestamp := Nat.mod_eq_of_lt hts
  have hcrclt := crc32_lt p
  have hk8 : r.id.length = 8 := by rw [hid]; simp
  have hdlt : s.dataid < 2 ^ 32 := by have := h.files; have := h.iid; rw [h.did]; omega
  have hok : RecOK s.dfiles s.dataid ⟨itemOf s.iprev (r.entry u), p⟩ := by
    constructor
    · simp only [Item.WF, itemOf, SetReq.entry, hoff', hlen', hts', hcrc, hdid, hk8]
      refine ⟨trivial, by decide, hoff, hp, hiprev, by decide, hdlt, hts, hcrclt, by decide, by decide⟩
    · simp only [itemOf, SetReq.entry, hlen']
    · simp only [itemOf, SetReq.entry, hcrc]
    · left; rfl
    · obtain ⟨prev, hp1, hd⟩ := hdata
      refine ⟨prev, hp1, ?_⟩
      simp only [itemOf, SetReq.entry, hoff', hlen', hts', hcrc, recHdr]
      exact hd
  have hcore := h.toCore.appendItem ⟨itemOf s.iprev (r.entry u), p⟩ hend rfl
    (by simp only [itemOf, SetReq.entry, hdid] at hok ⊢; exact hok) hb
  have hlive := live_append hne ⟨itemOf s.iprev (r.entry u), p⟩ rfl
  have hlocs := locs_append hne ⟨itemOf s.iprev (r.entry u), p⟩
  rw [hix] at hlive hlocs
  have hparnew : PLt (0, 0) (G.length - 1, logEnd G) := by
    unfold PLt logEnd; simp only; omega
  have hst : insertSeq s u io r =
      ({ s with iprev := logEnd G,
                ifiles := appendFile s.ifiles s.indexid (encItem (itemOf s.iprev (r.entry u))),
                entries := s.entries + 1, datasize := s.datasize + p.length,
                nextentry := s.nextentry + 1, nextid := (s.nextid + 1) % 2 ^ 32 }, true) := by
    simp only [insertSeq, appendEntry, hio, WriteFault.ok, Option.isNone_none, if_true,
      cut_none, hfl]
    have : itemOf s.iprev { r.entry u with idxoffset := logEnd G % 2 ^ 32, indexid := s.indexid } =
        itemOf s.iprev (r.entry u) := rfl
    rw [this]
    have : (SetReq.entry r u).length = p.length := hlen'
    rw [this]
  refine ⟨by rw [hst], ?_, ?_⟩
  · rw [hst]
    refine { (hcore.congr rfl rfl rfl rfl rfl) with mode := h.mode, ids8 := ?_, own := ?_, map := ?_, full := full_append hne _ h.full, next := ?_, entries := ?_, size := ?_, total := htot, few := ?_, chain := ?_ }
    · rw [hlocs]
      intro l hl
      simp only [List.mem_append, List.mem_singleton] at hl
      rcases hl with hl | rfl
      · exact h.ids8 l hl
      · exact hk8
    · rw [hlocs]
      refine own_append (G := G) h.own ?_
      intro _
      simp only [Loc.id, itemOf, SetReq.entry]
      rw [hid, h.next]
    · rw [startsFrom_logAppend hne]; exact h.map
    · rw [hlocs]; simp [h.next]
    · rw [hlive]; simp [h.entries]
    · rw [hlive]; simp [h.size, itemOf, SetReq.entry, hlen']
    · rw [hlocs]; simpa using hfew
    · rw [hlocs]
      intro l hl
      simp only [List.mem_append, List.mem_singleton] at hl
      rcases hl with hl | rfl
      · rcases h.chain l hl with hc | ⟨m, hm, hc⟩
        · exact Or.inl hc
        · exact Or.inr ⟨m, by simp [hm], hc⟩
      · left; rfl
  · have hp0 : PLt ((⟨itemOf s.iprev (r.entry u), p⟩ : Rec).item.parentid,
        (⟨itemOf s.iprev (r.entry u), p⟩ : Rec).item.parentoff) (G.length - 1, logEnd G) := hparnew
    rw [absSlots_append h _ hp0, Slots.push]
    have hv : verChain (locs G).reverse (0, 0) = [] := by
      have := verChain_skip (locs G).reverse [] (0, 0) (by
        intro l hl
        have := mem_locs_off (List.mem_reverse.1 hl)
        unfold PLt; simp only; omega)
      rw [List.append_nil] at this
      rw [this]; rfl
    simp only [itemOf, SetReq.entry, hts', hv]
    rfl

/-! ### deletion -/

theorem absSlots_kill {G : Log} {A B : List Loc} {l : Loc} {G1 : Log} {g1 g2 : List Rec} {G2 : Log}
    (hs : SplitAt 0 G A l B G1 g1 g2 G2) :
    absSlots (G1 ++ (g1 ++ l.r.kill :: g2) :: G2) = (absSlots G).set A.length none := by
  have h1 : ∀ x : Loc, x.slot (locs (G1 ++ (g1 ++ l.r.kill :: g2) :: G2)) = x.slot (locs G) := by
    intro x
    simp only [Loc.slot, Loc.val, verChain_kill hs]
  have h2 : absSlots (G1 ++ (g1 ++ l.r.kill :: g2) :: G2) =
      (locs (G1 ++ (g1 ++ l.r.kill :: g2) :: G2)).map (fun x => x.slot (locs G)) := by
    unfold absSlots
    apply List.map_congr_left
    intro x _
    exact h1 x
  rw [h2, kill_locs hs, absSlots]
  have hs' := split_locs hs
  generalize locs G = L at hs' ⊢
  have h3 : L.map (fun x => x.slot L) = (A ++ l :: B).map (fun x => x.slot L) := by rw [hs']
  rw [h3]
  rw [List.map_append, List.map_append, List.map_cons, List.map_cons]
  rw [List.set_append_right _ _ (by simp)]
  simp [Loc.slot, Loc.live, Rec.kill, isDeleted]

theorem SInv.killItem {s : Store} {G : Log} (h : SInv s G) {k : Bytes} {l : Loc} (u : Nat)
    (hl : slotGet G k = some l) (io : Io) (hio : io.iflag = none) :
    ∃ A B G1 g1 g2 G2, SplitAt 0 G A l B G1 g1 g2 G2 ∧ A.length = fromLE k ∧
      deleteDisk s io (l.sentry u) = ({ s with ifiles := writeFileAt s.ifiles l.file l.off (encItem l.r.kill.item), dirty := dirtySet s.dirty l.file }, true) ∧
      Core 1 (fun l => l.r.item.dataid) (deleteDisk s io (l.sentry u)).1 (G1 ++ (g1 ++ l.r.kill :: g2) :: G2) := by
  obtain ⟨hk8, hget, hmem, hlive, hlid, hlt⟩ := h.slot hl
  have hAB : locs G = (locs G).take (fromLE k) ++ l :: (locs G).drop (fromLE k + 1) := by
    obtain ⟨hj, he⟩ := List.getElem?_eq_some_iff.1 hget
    conv => lhs; rw [← List.take_append_drop (fromLE k) (locs G), List.drop_eq_getElem_cons hj, he]
  obtain ⟨G1, g1, g2, G2, hs⟩ := locs_split hAB
  obtain ⟨f, hf1, hf2⟩ := h.toCore.readItem hmem
  have hfl : l.r.item.flags = 0 := by
    rcases (h.recs l hmem).flags with h2 | h2
    · exact h2
    · simp [Loc.live, h2, isDeleted] at hlive
  have hset : setItemFlags (encItem l.r.item) (setDeleted l.r.item.flags) = encItem l.r.kill.item := by
    rw [setItemFlags_encItem, hfl]; rfl
  have heq : deleteDisk s io (l.sentry u) =
      ({ s with ifiles := writeFileAt s.ifiles l.file l.off (encItem l.r.kill.item),
                dirty := dirtySet s.dirty l.file }, true) := by
    simp only [deleteDisk, Loc.sentry, Loc.entry, hf1, hf2, hio, WriteFault.ok, Option.isNone_none, if_true, cut_none,
      hset]
  refine ⟨_, _, G1, g1, g2, G2, hs, ?_, heq, ?_⟩
  · rw [List.length_take]; omega
  rw [heq]
  have hr := h.recs l hmem
  apply h.toCore.replaceItem hs l.r.kill rfl rfl
  constructor
  · have := hr.wf
    simp only [Item.WF, Rec.kill] at this ⊢
    simp only [this, true_and]
    decide
  · exact hr.len
  · exact hr.crc
  · right; rfl
  · exact hr.data

theorem SInv.delete {s : Store} {G : Log} (h : SInv s G) (br : Branches) (u : Nat) (io : Io)
    (hio : io.iflag = none) {k : Bytes} {l : Loc} (hk : slotGet G k = some l) :
    ∃ G', (indexDelete br s u io (l.sentry u)).2.2 = true ∧
      (indexDelete br s u io (l.sentry u)).1 = br ∧
      SInv (indexDelete br s u io (l.sentry u)).2.1 G' ∧
      absSlots G' = (absSlots G).del k ∧ G'.length = G.length ∧
      (locs G').length = (locs G).length := by
  obtain ⟨hk8, hget, hmem, hlive, hlid, hlt⟩ := h.slot hk
  obtain ⟨A, B, G1, g1, g2, G2, hs, hA, hd, hcore⟩ := h.killItem u hk io hio
  have hlocs := split_locs hs
  have hlocs' := kill_locs hs
  have hlv : live G = A.filter Loc.live ++ l :: B.filter Loc.live := by
    rw [live, hlocs, List.filter_append, List.filter_cons, hlive]; rfl
  have hst : indexDelete br s u io (l.sentry u) =
      (br, { s with ifiles := writeFileAt s.ifiles l.file l.off (encItem l.r.kill.item), dirty := dirtySet s.dirty l.file, entries := s.entries - 1, datasize := s.datasize - l.r.item.length }, true) := by
    have h1 : sub64 s.entries 1 = s.entries - 1 := sub64_le (by
      rw [h.entries, hlv]; simp; omega)
    have h2 : sub64 s.datasize (l.sentry u).length = s.datasize - l.r.item.length := sub64_le (by
      rw [h.size, hlv]; simp [Loc.sentry, Loc.entry]; omega)
    simp only [indexDelete, hd, if_true, h.mode, h1, h2]
  rw [hd] at hcore
  have hlv' : live (G1 ++ (g1 ++ l.r.kill :: g2) :: G2) = A.filter Loc.live ++ B.filter Loc.live := by
    rw [live, hlocs', List.filter_append, List.filter_cons]
    simp [Loc.live, Rec.kill, isDeleted]
  refine ⟨G1 ++ (g1 ++ l.r.kill :: g2) :: G2, by rw [hst], by rw [hst], ?_, ?_, ?_, ?_⟩
  · rw [hst]
    refine { (hcore.congr rfl rfl rfl rfl rfl) with mode := h.mode, ids8 := ?_, own := ?_, map := ?_, full := full_congr (replace_map_length hs _) h.full, next := ?_, entries := ?_, size := ?_, total := ?_, few := ?_, chain := ?_ }
    · rw [hlocs']
      intro x hx
      simp only [List.mem_append, List.mem_cons] at hx
      have := h.ids8
      rw [hlocs] at this
      rcases hx with hx | rfl | hx
      · exact this x (by simp [hx])
      · exact this l (by simp)
      · exact this x (by simp [hx])
    · rw [hlocs']
      intro i x hx hxl
      by_cases hi : i = A.length
      · subst hi
        simp at hx
        rw [← hx] at hxl
        simp [Loc.live, Rec.kill, isDeleted] at hxl
      · apply h.own i x ?_ hxl
        rw [hlocs]
        by_cases hlt : i < A.length
        · rw [List.getElem?_append_left hlt] at hx ⊢; exact hx
        · rw [List.getElem?_append_right (by omega)] at hx ⊢
          obtain ⟨j, hj⟩ : ∃ j, i - A.length = j + 1 := ⟨i - A.length - 1, by omega⟩
          rw [hj] at hx ⊢
          simpa using hx
    · rw [startsFrom_congr (replace_map_length hs l.r.kill)]; exact h.map
    · rw [hlocs']; have := h.next; rw [hlocs] at this; simpa using this
    · have := h.entries
      rw [hlv] at this
      rw [hlv']
      simp at this ⊢; omega
    · have := h.size
      rw [hlv] at this
      rw [hlv']
      simp at this ⊢; omega
    · have := h.total
      simp only
      omega
    · have := h.few
      rw [hlocs] at this
      rw [hlocs']
      simpa using this
    · rw [hlocs']
      have hch := h.chain
      rw [hlocs] at hch
      have key : ∀ x ∈ A ++ l :: B, parentOf x = (0, 0) ∨ ∃ m ∈ A ++ { l with r := l.r.kill } :: B,
          m.pos = parentOf x ∧ m.id = x.id ∧ m.live = false ∧ PLt (parentOf m) m.pos := by
        intro x hx
        rcases hch x hx with h0 | ⟨m, hm, h1, h2, h3, h4⟩
        · exact Or.inl h0
        · right
          simp only [List.mem_append, List.mem_cons] at hm
          rcases hm with hm | rfl | hm
          · exact ⟨m, by simp [hm], h1, h2, h3, h4⟩
          · rw [hlive] at h3; cases h3
          · exact ⟨m, by simp [hm], h1, h2, h3, h4⟩
      intro x hx
      simp only [List.mem_append, List.mem_cons] at hx
      rcases hx with hx | rfl | hx
      · exact key x (by simp [hx])
      · exact key l (by simp)
      · exact key x (by simp [hx])
  · rw [absSlots_kill hs, Slots.del, hA]
  · rw [hs.log]; simp
  · rw [hlocs', hlocs]; simp

/-! ### new version of an id -/

theorem getElem?_replace {α} {A B : List α} {a b : α} {i : Nat} {x : α}
    (h : (A ++ b :: B)[i]? = some x) : (i = A.length ∧ x = b) ∨ (A ++ a :: B)[i]? = some x := by
  by_cases hi : i = A.length
  · subst hi
    simp at h
    exact Or.inl ⟨rfl, h.symm⟩
  · right
    by_cases hlt : i < A.length
    · rw [List.getElem?_append_left hlt] at h ⊢; exact h
    · rw [List.getElem?_append_right (by omega)] at h ⊢
      obtain ⟨j, hj⟩ : ∃ j, i - A.length = j + 1 := ⟨i - A.length - 1, by omega⟩
      rw [hj] at h ⊢
      simpa using h

theorem decItem_hdr_previous {it : Item} (h : it.WF) :
    (decItem ((encItem it).take 34)).previous = it.previous := by
  have h1 := decItem_encItem it h
  have h2 : (decItem ((encItem it).take 34)).previous = (decItem (encItem it)).previous := by
    simp only [decItem, pread]
    simp [List.drop_take, List.take_take]
  rw [h2, h1]

theorem readExact_prefix {f : Bytes} {off n k : Nat} {b : Bytes} (h : readExact f off n = some b)
    (hk : k ≤ n) : readExact f off k = some (b.take k) := by
  unfold readExact at h ⊢
  dsimp only at h ⊢
  by_cases hl : (pread f off n).length = n
  · rw [if_pos hl] at h
    simp only [Option.some.injEq] at h
    have e : pread f off k = (pread f off n).take k := by
      simp [pread, List.take_take, Nat.min_eq_left hk]
    have : (pread f off k).length = k := by
      rw [e, List.length_take, hl]; omega
    rw [if_pos this, ← h, e]
  · rw [if_neg hl] at h; cases h

/-- Overwriting the record of an id. -/
theorem SInv.overwrite {s : Store} {G : Log} (h : SInv s G) (t : Store) (ht1 : t.ifiles = s.ifiles)
    (ht2 : t.seqmap = s.seqmap) (io : Io) (hio : io.iover = none) {k : Bytes}
    {l : Loc} (hk : slotGet G k = some l) (e : Entry) (he : e.id = k) :
    seqOverwrite t io e = { t with ifiles := writeFileAt t.ifiles l.file l.off (encItem (itemOf l.r.item.previous e)), dirty := dirtySet t.dirty l.file } := by
  obtain ⟨hk8, hget, hmem, hlive, hlid, hlt⟩ := h.slot hk
  obtain ⟨m, j, g, h1, h2, h3, h4, h5⟩ := h.search (fromLE k)
  have hb := fromLE_lt8 hk8
  rw [hget] at h5
  cases hgi : g[fromLE k - startOf G j]? with
  | none => rw [hgi] at h5; simp at h5
  | some r =>
    rw [hgi, Option.map_some, Option.some.injEq] at h5
    have hoffs : 29 + 42 * (fromLE k - startOf G j) < 2 ^ 32 := by
      have := h.offs _ hmem
      rw [h5] at this
      exact this
    have hoff : l.off = 29 + 42 * (fromLE k - startOf G j) := by rw [h5]
    have hfile : l.file = j := by rw [h5]
    unfold seqOverwrite
    rw [he]
    simp only [ht2, h1, h2]
    rw [(seqOffset_small h4 hb hoffs).2, ← hoff, ← hfile]
    obtain ⟨f, hf1, hf2⟩ := h.toCore.readItem hmem
    have hf3 := readExact_prefix (k := 34) hf2 (by simp [itemHdr])
    unfold overwriteItem
    have hdec := decItem_hdr_previous (h.recs l hmem).wf
    rw [← ht1] at hf1
    simp only [hf1, hf3, hio, WriteFault.ok, Option.isNone_none, if_true, cut_none, itemHdr, hdec]
    rw [ht2, h1]

theorem SInv.update {s : Store} {G : Log} (h : SInv s G) (u : Nat)
    (io : Io) (hio : io.iapp = none) (hio2 : io.iover = none) (r : SetReq) (p : Bytes)
    {l : Loc} (hk : slotGet G r.id = some l)
    (hoff : r.offset < 2 ^ 32) (hlen : r.length = p.length) (hp : p.length < 2 ^ 32)
    (hcrc : r.crc = crc32 p) (hdid : r.dataid = s.dataid) (hts : r.timestamp < 2 ^ 32)
    (hdata : ∃ prev, prev < 2 ^ 32 ∧ DataAt s.dfiles s.dataid r.offset
      (encDHdr { idlength := r.id.length, datalength := p.length, previous := prev,
                 integrity := crc32 p, flags := 0, timestamp := r.timestamp } ++ (r.id ++ p)))
    (hend : logEnd G < 2 ^ 32)
    (hb : ∀ (g : List Rec) (f : Bytes), G[s.indexid]? = some g → s.dfiles[s.indexid]? = some f →
      19 * (isize g + (34 + r.id.length)) ≤ 35 * (f.length - 28))
    (htot : s.datasize + p.length ≤ (s.dfiles.map List.length).sum)
    (hfew : 18 * ((locs G).length + 1) ≤ (s.dfiles.map List.length).sum) :
    ∃ G', (updateSeq s u io r (l.sentry u)).2 = true ∧
      SInv (updateSeq s u io r (l.sentry u)).1 G' ∧
      absSlots G' = (absSlots G).update r.id (l.val (locs G)) p r.timestamp ∧
      G'.length = G.length ∧ (locs G').length = (locs G).length + 1 ∧
      ∃ x it, (updateSeq s u io r (l.sentry u)).1.ifiles =
          writeFileAt (appendFile s.ifiles s.indexid x) l.file l.off (encItem it) ∧
        (updateSeq s u io r (l.sentry u)).1.dirty = dirtySet s.dirty l.file ∧
        (updateSeq s u io r (l.sentry u)).1.indexid = s.indexid ∧ it.WF ∧
        it.id.length = l.r.item.id.length ∧ it.parentid = s.indexid ∧ it.parentoff = logEnd G := by
  obtain ⟨hk8, hget, hmem, hlive, hlid, hlt⟩ := h.slot hk
  have hne := h.ne
  have hix : G.length - 1 = s.indexid := by have := h.iid; omega
  have hfl := h.irep.fileLen hne s.indexid h.iid
  have hiprev := h.iprev_lt
  have hlen' : r.length % 2 ^ 32 = p.length := by rw [hlen, Nat.mod_eq_of_lt hp]
  have hoff' : r.offset % 2 ^ 32 = r.offset := Nat.mod_eq_of_lt hoff
  have hts' : r.timestamp % 2 ^ 32 = r.timestamp := Nat.mod_eq_of_lt hts
  have hcrclt := crc32_lt p
  have hdlt : s.dataid < 2 ^ 32 := by have := h.files; have := h.iid; rw [h.did]; omega
  have hflag : l.r.item.flags = 0 := by
    rcases (h.recs l hmem).flags with h2 | h2
    · exact h2
    · simp [Loc.live, h2, isDeleted] at hlive
  have hrl := h.recs l hmem
  have hwf := hrl.wf
  -- the copy
  let c : Rec := ⟨{ l.r.item with previous := s.iprev, flags := 1 }, l.r.payload⟩
  have hcok : RecOK s.dfiles l.r.item.dataid c := by
    constructor
    · simp only [Item.WF, c] at hwf ⊢
      exact ⟨hwf.1, hwf.2.1, hwf.2.2.1, hwf.2.2.2.1, hiprev, by decide, hwf.2.2.2.2.2.2⟩
    · exact hrl.len
    · exact hrl.crc
    · right; rfl
    · exact hrl.data
  have hcid : c.item.id = r.id := hlid
  have hcore1 := h.toCore.appendItem c hend rfl hcok (by rw [hcid]; exact hb)
  have hlocs1 := locs_append hne c
  rw [hix] at hlocs1
  -- position of the record in the new log
  have hAB : locs G = (locs G).take (fromLE r.id) ++ l :: (locs G).drop (fromLE r.id + 1) := by
    obtain ⟨hj, he⟩ := List.getElem?_eq_some_iff.1 hget
    conv => lhs; rw [← List.take_append_drop (fromLE r.id) (locs G), List.drop_eq_getElem_cons hj, he]
  have hA : ((locs G).take (fromLE r.id)).length = fromLE r.id := by rw [List.length_take]; omega
  generalize (locs G).take (fromLE r.id) = A at hAB hA
  generalize (locs G).drop (fromLE r.id + 1) = B at hAB
  have hAB1 : locs (logAppend G c) = A ++ l :: (B ++ [⟨s.indexid, logEnd G, c⟩]) := by
    rw [hlocs1, hAB]; simp
  obtain ⟨G1, g1, g2, G2, hs⟩ := locs_split hAB1
  -- the new version
  let e : Entry := { r.entry u with parentid := s.indexid, parentoff := logEnd G }
  let n : Rec := ⟨itemOf l.r.item.previous e, p⟩
  have hnid : n.item.id = r.id := rfl
  have hnok : RecOK s.dfiles s.dataid n := by
    have hidx : s.indexid < 2 ^ 32 := by rw [← h.did]; exact hdlt
    have hpv : l.r.item.previous < 2 ^ 32 := by simp only [Item.WF] at hwf; exact hwf.2.2.2.2.1
    constructor
    · simp only [Item.WF, n, e, itemOf, SetReq.entry, hoff', hlen', hts', hcrc, hdid, hk8]
      exact ⟨trivial, by decide, hoff, hp, hpv, by decide, hdlt, hts, hcrclt, hidx, hend⟩
    · simp only [n, e, itemOf, SetReq.entry, hlen']
    · simp only [n, e, itemOf, SetReq.entry, hcrc]
    · left; rfl
    · obtain ⟨prev, hp1, hd⟩ := hdata
      refine ⟨prev, hp1, ?_⟩
      simp only [n, e, itemOf, SetReq.entry, hoff', hlen', hts', hcrc, recHdr]
      exact hd
  have hidlen : n.item.id.length = l.r.item.id.length := by rw [hnid, ← hlid]; rfl
  have hcore2 := hcore1.replaceItem hs n hidlen rfl (by
      simp only [n, e, itemOf, SetReq.entry, hdid] at hnok ⊢; exact hnok) (dirtySet s.dirty l.file)
  have hlocs2 : locs (G1 ++ (g1 ++ n :: g2) :: G2) =
      A ++ { l with r := n } :: (B ++ [⟨s.indexid, logEnd G, c⟩]) := locs_replace hs n hidlen
  have hlenG : (G1 ++ (g1 ++ n :: g2) :: G2).length = G.length := by
    have : (G1 ++ (g1 ++ n :: g2) :: G2).length = (logAppend G c).length := by rw [hs.log]; simp
    rw [this, logAppend_length]
  -- the intermediate state
  let s1 : Store := { s with iprev := logEnd G,
                             ifiles := appendFile s.ifiles s.indexid (encItem c.item) }
  have hch1 : ∀ x ∈ locs (logAppend G c), parentOf x = (0, 0) ∨ ∃ m ∈ locs (logAppend G c),
      m.pos = parentOf x ∧ m.id = x.id ∧ m.live = false ∧ PLt (parentOf m) m.pos := by
    rw [hlocs1]
    have key : ∀ x ∈ locs G, parentOf x = (0, 0) ∨ ∃ m ∈ locs G ++ [⟨s.indexid, logEnd G, c⟩],
        m.pos = parentOf x ∧ m.id = x.id ∧ m.live = false ∧ PLt (parentOf m) m.pos := by
      intro x hx
      rcases h.chain x hx with hc | ⟨m, hm, hc⟩
      · exact Or.inl hc
      · exact Or.inr ⟨m, by simp [hm], hc⟩
    intro x hx
    simp only [List.mem_append, List.mem_singleton] at hx
    rcases hx with hx | rfl
    · exact key x hx
    · exact key l hmem
  have hs1 : SInv { s1 with nextentry := s.nextentry + 1 } (logAppend G c) := by
    refine { (hcore1.congr rfl rfl rfl rfl rfl) with mode := h.mode, ids8 := ?_, own := ?_, map := ?_, full := full_append hne _ h.full, next := ?_, entries := ?_, size := ?_, total := h.total, few := ?_, chain := hch1 }
    · rw [hlocs1]
      intro x hx
      simp only [List.mem_append, List.mem_singleton] at hx
      rcases hx with hx | rfl
      · exact h.ids8 x hx
      · exact h.ids8 l hmem
    · rw [hlocs1]
      refine own_append (G := G) h.own ?_
      intro hd
      simp [Loc.live, c, isDeleted] at hd
    · rw [startsFrom_logAppend hne]; exact h.map
    · rw [hlocs1]; simp [h.next]
    · rw [live, hlocs1]; simp [Loc.live, c, isDeleted, List.filter_append]; exact h.entries
    · rw [live, hlocs1]; simp [Loc.live, c, isDeleted, List.filter_append]; exact h.size
    · rw [hlocs1]; simpa using hfew
  have hget1 : slotGet (logAppend G c) r.id = some l := by
    unfold slotGet slotAt seqPos at hk ⊢
    rw [if_pos hk8] at hk ⊢
    simp only at hk ⊢
    rw [hlocs1, List.getElem?_append_left hlt]
    exact hk
  have hover := hs1.overwrite s1 rfl rfl io hio2 hget1 e rfl
  have hlv : live G = A.filter Loc.live ++ l :: B.filter Loc.live := by
    rw [live, hAB, List.filter_append, List.filter_cons, hlive]; rfl
  have hst : updateSeq s u io r (l.sentry u) =
      ({ s1 with ifiles := writeFileAt s1.ifiles l.file l.off (encItem n.item), dirty := dirtySet s.dirty l.file, nextid := (s.nextid + 1) % 2 ^ 32, nextentry := s.nextentry + 1, datasize := s.datasize - l.r.item.length + p.length }, true) := by
    have hap : appendEntry s io { l.sentry u with flags := setDeleted (l.sentry u).flags } =
        (s1, { l.sentry u with flags := setDeleted (l.sentry u).flags, idxoffset := logEnd G, indexid := s.indexid }, true) := by
      simp only [appendEntry, hfl, Nat.mod_eq_of_lt hend, hio, WriteFault.ok, Option.isNone_none, if_true,
        cut_none]
      have : itemOf s.iprev { l.sentry u with flags := setDeleted (l.sentry u).flags, idxoffset := logEnd G, indexid := s.indexid } = c.item := by
        simp only [itemOf, Loc.sentry, Loc.entry, hflag, c]
        have := hwf.1
        rw [← this]
        rfl
      rw [this]
    simp only [updateSeq, hap, if_true]
    have he : ({ r.entry u with parentid := s1.indexid, parentoff := logEnd G } : Entry) = e := rfl
    rw [he, hover]
    have hl1 : (r.entry u).length = p.length := hlen'
    have h2 : sub64 s1.datasize (l.sentry u).length = s.datasize - l.r.item.length := sub64_le (by
      show _ ≤ s.datasize
      rw [h.size, hlv]; simp [Loc.sentry, Loc.entry]; omega)
    simp only [hl1, h2]
    rfl
  have hlv' : live (G1 ++ (g1 ++ n :: g2) :: G2) = A.filter Loc.live ++ { l with r := n } :: B.filter Loc.live := by
    rw [live, hlocs2, List.filter_append, List.filter_cons, List.filter_append]
    simp [Loc.live, n, e, itemOf, SetReq.entry, c, isDeleted]
  have hlc : (locs (G1 ++ (g1 ++ n :: g2) :: G2)).length = (locs G).length + 1 := by
    rw [hlocs2, hAB]; simp; omega
  refine ⟨G1 ++ (g1 ++ n :: g2) :: G2, by rw [hst], ?_, ?_, hlenG, hlc, encItem c.item, n.item, by rw [hst], by rw [hst],
    by rw [hst], hnok.wf, hidlen, rfl, rfl⟩
  · rw [hst]
    refine { (hcore2.congr rfl rfl rfl rfl rfl) with mode := h.mode, ids8 := ?_, own := ?_, map := ?_, full := full_congr (replace_map_length hs _) hs1.full, next := ?_, entries := ?_, size := ?_, total := ?_, few := ?_, chain := ?_ }
    · rw [hlocs2]
      intro x hx
      have := hs1.ids8
      rw [hAB1] at this
      simp only [List.mem_append, List.mem_cons] at hx
      rcases hx with hx | rfl | hx
      · exact this x (by simp [hx])
      · exact hk8
      · exact this x (by simp at hx ⊢; tauto)
    · rw [hlocs2]
      intro i x hx hxl
      rcases getElem?_replace (a := l) hx with ⟨rfl, rfl⟩ | hx
      · simp only [Loc.id]
        rw [hnid, hA, ← hk8]
        exact (toLE_fromLE r.id).symm
      · rw [← hAB1] at hx
        exact hs1.own i x hx hxl
    · rw [startsFrom_congr (replace_map_length hs n)]; exact hs1.map
    · rw [hlc]; simp [h.next]
    · have := h.entries
      rw [hlv] at this
      rw [hlv']
      simp at this ⊢; exact this
    · have := h.size
      rw [hlv] at this
      rw [hlv']
      have hnl : n.item.length = p.length := hlen'
      simp at this ⊢
      rw [hnl]; omega
    · simp only [s1]; omega
    · rw [hlc]; exact hfew
    · rw [hlocs2]
      have hch := hch1
      rw [hAB1] at hch
      have key : ∀ x ∈ A ++ l :: (B ++ [⟨s.indexid, logEnd G, c⟩]), parentOf x = (0, 0) ∨
          ∃ m ∈ A ++ { l with r := n } :: (B ++ [⟨s.indexid, logEnd G, c⟩]),
          m.pos = parentOf x ∧ m.id = x.id ∧ m.live = false ∧ PLt (parentOf m) m.pos := by
        intro x hx
        rcases hch x hx with h0 | ⟨m, hm, h1, h2, h3, h4⟩
        · exact Or.inl h0
        · right
          simp only [List.mem_append, List.mem_cons] at hm
          rcases hm with hm | rfl | hm
          · exact ⟨m, by simp [hm], h1, h2, h3, h4⟩
          · rw [hlive] at h3; cases h3
          · exact ⟨m, by simp at hm ⊢; tauto, h1, h2, h3, h4⟩
      intro x hx
      simp only [List.mem_append, List.mem_cons] at hx
      rcases hx with hx | rfl | hx
      · exact key x (by simp [hx])
      · right
        refine ⟨⟨s.indexid, logEnd G, c⟩, by simp, rfl, ?_, ?_, ?_⟩
        · simp only [Loc.id]; rw [hcid, hnid]
        · simp [Loc.live, c, isDeleted]
        · have := h.parent_end hmem
          rw [hix] at this
          exact this
      · exact key x (by simp at hx ⊢; tauto)
  · -- the slots
    have hrev : (A ++ { l with r := n } :: (B ++ [(⟨s.indexid, logEnd G, c⟩ : Loc)])).reverse =
        (⟨s.indexid, logEnd G, c⟩ : Loc) :: (B.reverse ++ { l with r := n } :: A.reverse) := by simp
    have hrevG : (locs G).reverse = B.reverse ++ l :: A.reverse := by rw [hAB]; simp
    have havoid : ∀ x ∈ locs G, verChain (B.reverse ++ { l with r := n } :: A.reverse) (parentOf x) =
        verChain (locs G).reverse (parentOf x) := by
      intro x hx
      rw [hrevG]
      refine (verChain_avoid B.reverse A.reverse l { l with r := n } rfl (parentOf x)
        (h.parent_ne hmem hlive hx) ?_).symm
      intro y hy
      apply h.parent_ne hmem hlive
      rw [hAB]
      simp at hy ⊢; tauto
    have hskip : ∀ x ∈ locs G, verChain (locs (G1 ++ (g1 ++ n :: g2) :: G2)).reverse (parentOf x) =
        verChain (locs G).reverse (parentOf x) := by
      intro x hx
      rw [hlocs2, hrev, ← havoid x hx]
      have := h.parent_end hx
      rw [hix] at this
      exact verChain_skip [_] _ _ (by intro y hy; simp at hy; subst hy; exact this)
    have hslot : ∀ x ∈ locs G, x.slot (locs (G1 ++ (g1 ++ n :: g2) :: G2)) = x.slot (locs G) := by
      intro x hx
      have := hskip x hx
      simp only [parentOf] at this
      simp only [Loc.slot, Loc.val, this]
    have hnew : Loc.slot (locs (G1 ++ (g1 ++ n :: g2) :: G2)) { l with r := n } =
        some ⟨p, r.timestamp, ⟨(l.val (locs G)).payload, (l.val (locs G)).time⟩ :: (l.val (locs G)).older⟩ := by
      have hnl : Loc.live { l with r := n } = true := by
        simp [Loc.live, n, e, itemOf, SetReq.entry, isDeleted]
      simp only [Loc.slot, hnl, if_true]
      have hnt : n.item.timestamp = r.timestamp := hts'
      have hpar : (n.item.parentid, n.item.parentoff) = (s.indexid, logEnd G) := rfl
      simp only [Loc.val, hnt, hpar]
      congr 2
      rw [hlocs2, hrev, verChain, if_pos rfl]
      have := havoid l hmem
      simp only [parentOf] at this
      rw [← this]
    have hdead : Loc.slot (locs (G1 ++ (g1 ++ n :: g2) :: G2)) ⟨s.indexid, logEnd G, c⟩ = none := by
      simp [Loc.slot, Loc.live, c, isDeleted]
    have hmapA : ∀ L : List Loc, (∀ x ∈ L, x ∈ locs G) →
        L.map (fun x => x.slot (locs (G1 ++ (g1 ++ n :: g2) :: G2))) = L.map (fun x => x.slot (locs G)) :=
      fun L hL => List.map_congr_left (fun x hx => hslot x (hL x hx))
    have e1 : absSlots (G1 ++ (g1 ++ n :: g2) :: G2) =
        (A ++ { l with r := n } :: (B ++ [(⟨s.indexid, logEnd G, c⟩ : Loc)])).map
          (fun x : Loc => x.slot (locs (G1 ++ (g1 ++ n :: g2) :: G2))) := by
      unfold absSlots
      rw [← hlocs2]
    have e2 : absSlots G = (A ++ l :: B).map (fun x => x.slot (locs G)) := by
      unfold absSlots
      rw [← hAB]
    rw [e1, e2]
    simp only [List.map_append, List.map_cons, List.map_nil, hnew, hdead]
    rw [hmapA A (by rw [hAB]; intro x hx; simp [hx]), hmapA B (by rw [hAB]; intro x hx; simp [hx])]
    unfold Slots.update
    rw [List.set_append_right _ _ (by simp; omega)]
    simp [hA]

end Zdb
