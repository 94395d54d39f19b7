/-
Preservation of the user-mode invariant by the store operations.
-/
import Verif.Lemmas.UserInv
import Verif.Lemmas.Crc
import Verif.Lemmas.LogStep
import Mathlib.Tactic.Tauto
namespace Zdb

/-! ### the map along log operations -/

theorem absKV_jump (G : Log) : absKV (logJump G) = absKV G := by
  simp [absKV, live_jump, locs_jump]

theorem live_append {G : Log} (hne : G ≠ []) (r : Rec) (hr : r.item.flags = 0) :
    live (logAppend G r) = live G ++ [⟨G.length - 1, logEnd G, r⟩] := by
  rw [live, locs_append hne, List.filter_append]
  simp [live, Loc.live, hr, isDeleted]

theorem absKV_append {G : Log} (hne : G ≠ []) (r : Rec) (hr : r.item.flags = 0)
    (hpar : ∀ l ∈ locs G, PLt (l.r.item.parentid, l.r.item.parentoff) (l.file, l.off))
    (hnew : PLt (r.item.parentid, r.item.parentoff) (G.length - 1, logEnd G)) :
    absKV (logAppend G r) = absKV G ++ [(r.item.id,
      { payload := r.payload, time := r.item.timestamp,
        older := verChain (locs G).reverse (r.item.parentid, r.item.parentoff) })] := by
  have hskip : ∀ p, PLt p (G.length - 1, logEnd G) →
      verChain (locs (logAppend G r)).reverse p = verChain (locs G).reverse p := by
    intro p hp
    rw [locs_append hne, List.reverse_append]
    exact verChain_skip [_] _ _ (by intro l hl; simp at hl; subst hl; exact hp)
  simp only [absKV, live_append hne r hr, List.map_append, List.map_cons, List.map_nil]
  congr 1
  · apply List.map_congr_left
    intro l hl
    simp only [Loc.val]
    rw [hskip _ (PLt_trans (hpar l (live_mem hl)) (PLt_end hne (live_mem hl)))]
  · simp only [Loc.val, Loc.id]
    rw [hskip _ hnew]

/-- The same record with the deleted flag. -/
def Rec.kill (r : Rec) : Rec := { r with item := { r.item with flags := 1 } }

theorem kill_locs {G : Log} {A B : List Loc} {l : Loc} {G1 : Log} {g1 g2 : List Rec} {G2 : Log}
    (hs : SplitAt 0 G A l B G1 g1 g2 G2) :
    locs (G1 ++ (g1 ++ l.r.kill :: g2) :: G2) = A ++ { l with r := l.r.kill } :: B :=
  locs_replace hs _ rfl

theorem split_locs {G : Log} {A B : List Loc} {l : Loc} {G1 : Log} {g1 g2 : List Rec} {G2 : Log}
    (hs : SplitAt 0 G A l B G1 g1 g2 G2) : locs G = A ++ l :: B := by
  have := locs_replace hs l.r rfl
  rw [← hs.log] at this
  exact this

theorem kill_live {G : Log} {A B : List Loc} {l : Loc} {G1 : Log} {g1 g2 : List Rec} {G2 : Log}
    (hs : SplitAt 0 G A l B G1 g1 g2 G2) (hl : l.live = true)
    (hn : ((live G).map Loc.id).Nodup) :
    live (G1 ++ (g1 ++ l.r.kill :: g2) :: G2) = (live G).filter (fun x => !(x.id == l.id)) := by
  have h1 : live G = A.filter Loc.live ++ l :: B.filter Loc.live := by
    rw [live, split_locs hs, List.filter_append, List.filter_cons, hl]; rfl
  rw [h1] at hn ⊢
  rw [filter_ne_split hn, live, kill_locs hs, List.filter_append, List.filter_cons]
  simp [Loc.live, Rec.kill, isDeleted]

theorem kill_verKey {G : Log} {A B : List Loc} {l : Loc} {G1 : Log} {g1 g2 : List Rec} {G2 : Log}
    (hs : SplitAt 0 G A l B G1 g1 g2 G2) :
    (locs (G1 ++ (g1 ++ l.r.kill :: g2) :: G2)).map Loc.verKey = (locs G).map Loc.verKey := by
  rw [kill_locs hs, split_locs hs]
  simp [Loc.verKey, Rec.kill]

theorem verChain_kill {G : Log} {A B : List Loc} {l : Loc} {G1 : Log} {g1 g2 : List Rec} {G2 : Log}
    (hs : SplitAt 0 G A l B G1 g1 g2 G2) (p : Nat × Nat) :
    verChain (locs (G1 ++ (g1 ++ l.r.kill :: g2) :: G2)).reverse p = verChain (locs G).reverse p := by
  apply verChain_congr
  rw [List.map_reverse, List.map_reverse, kill_verKey hs]

theorem kill_stat {G : Log} {A B : List Loc} {l : Loc} {G1 : Log} {g1 g2 : List Rec} {G2 : Log}
    (hs : SplitAt 0 G A l B G1 g1 g2 G2) :
    (locs (G1 ++ (g1 ++ l.r.kill :: g2) :: G2)).map Loc.stat = (locs G).map Loc.stat := by
  rw [kill_locs hs, split_locs hs]
  simp [Loc.stat, Rec.kill]

theorem stat_mem {L M : List Loc} (h : L.map Loc.stat = M.map Loc.stat) {x : Loc} (hx : x ∈ L) :
    ∃ y ∈ M, y.stat = x.stat := by
  have : x.stat ∈ M.map Loc.stat := by rw [← h]; exact List.mem_map_of_mem hx
  exact List.mem_map.1 this

theorem stat_eq {x y : Loc} (h : y.stat = x.stat) :
    y.file = x.file ∧ y.off = x.off ∧ y.id = x.id ∧ y.r.item.dataid = x.r.item.dataid ∧
      y.r.item.parentid = x.r.item.parentid ∧ y.r.item.parentoff = x.r.item.parentoff := by
  simp only [Loc.stat, Loc.mk.injEq, Rec.mk.injEq, Item.mk.injEq] at h
  simp only [Loc.id]
  tauto

theorem kill_newest {G : Log} {A B : List Loc} {l : Loc} {G1 : Log} {g1 g2 : List Rec} {G2 : Log}
    (hs : SplitAt 0 G A l B G1 g1 g2 G2)
    (h : (locs G).Pairwise (fun a b => a.live = true → a.id ≠ b.id)) :
    (locs (G1 ++ (g1 ++ l.r.kill :: g2) :: G2)).Pairwise (fun a b => a.live = true → a.id ≠ b.id) := by
  rw [split_locs hs] at h
  rw [kill_locs hs]
  rw [List.pairwise_append, List.pairwise_cons] at h ⊢
  refine ⟨h.1, ⟨?_, h.2.1.2⟩, ?_⟩
  · intro b _ hb
    simp [Loc.live, Rec.kill, isDeleted] at hb
  · intro a ha b hb
    rcases List.mem_cons.1 hb with rfl | hb
    · exact h.2.2 a ha l (by simp)
    · exact h.2.2 a ha b (by simp [hb])

theorem kill_diskid {G GK : Log} (hst : (locs GK).map Loc.stat = (locs G).map Loc.stat)
    (h : ∀ l ∈ locs G, l.r.item.dataid = l.file ∨ (l.r.item.dataid = 0 ∧ l.r.item.parentoff = 0)) :
    ∀ l ∈ locs GK, l.r.item.dataid = l.file ∨ (l.r.item.dataid = 0 ∧ l.r.item.parentoff = 0) := by
  intro x hx
  obtain ⟨y, hy, he⟩ := stat_mem hst hx
  obtain ⟨h1, h2, h3, h4, h5, h6⟩ := stat_eq he
  rw [← h1, ← h4, ← h6]; exact h y hy

theorem kill_chain {G GK : Log} (hst : (locs GK).map Loc.stat = (locs G).map Loc.stat)
    (h : ∀ l ∈ locs G, (l.r.item.parentoff = 0 ∧ l.r.item.parentid = 0) ∨
      ∃ m ∈ locs G, m.file = l.r.item.parentid ∧ m.off = l.r.item.parentoff ∧ m.id = l.id) :
    ∀ l ∈ locs GK, (l.r.item.parentoff = 0 ∧ l.r.item.parentid = 0) ∨
      ∃ m ∈ locs GK, m.file = l.r.item.parentid ∧ m.off = l.r.item.parentoff ∧ m.id = l.id := by
  intro x hx
  obtain ⟨y, hy, he⟩ := stat_mem hst hx
  obtain ⟨h1, h2, h3, h4, h5, h6⟩ := stat_eq he
  rcases h y hy with ⟨a, b⟩ | ⟨m, hm, a, b, c⟩
  · left; rw [← h5, ← h6]; exact ⟨a, b⟩
  · right
    obtain ⟨m', hm', he'⟩ := stat_mem hst.symm hm
    obtain ⟨e1, e2, e3, _⟩ := stat_eq he'
    exact ⟨m', hm', by rw [e1, a, h5], by rw [e2, b, h6], by rw [e3, c, h3]⟩

theorem absKV_kill {G : Log} {A B : List Loc} {l : Loc} {G1 : Log} {g1 g2 : List Rec} {G2 : Log}
    (hs : SplitAt 0 G A l B G1 g1 g2 G2) (hl : l.live = true)
    (hn : ((live G).map Loc.id).Nodup) :
    absKV (G1 ++ (g1 ++ l.r.kill :: g2) :: G2) = (absKV G).del l.id := by
  rw [absKV, kill_live hs hl hn, absKV, KV.del, List.filter_map]
  congr 1
  funext x
  simp only [Loc.val, verChain_kill hs]

/-! ### jump -/

theorem UInv.jump {br : Branches} {u : Nat} {s : Store} {G : Log} (h : UInv br u s G)
    (hcap : G.length < 2 ^ 32) : UInv br u (jump s) (logJump G) := by
  have hc := h.toCore.jump (by rw [h.mode]; rfl) hcap
  refine { hc.1 with mode := h.mode, ids := ?_, parents := ?_, nodup := ?_, brs := ?_, entries := ?_, size := ?_, total := ?_, newest := ?_, used := ?_, diskid := ?_, chain := ?_ }
  · rw [locs_jump]; exact h.ids
  · rw [locs_jump]; exact h.parents
  · rw [live_jump]; exact h.nodup
  · rw [live_jump]; exact h.brs
  · rw [live_jump]; exact h.entries
  · rw [live_jump]; exact h.size
  · rw [hc.2.1]
    have : (Zdb.jump s).datasize = s.datasize := rfl
    rw [this]
    have := h.total
    simp; omega
  · rw [locs_jump]; exact h.newest
  · rw [locs_jump]; exact h.used
  · rw [locs_jump]; exact h.diskid
  · rw [locs_jump]; exact h.chain

/-! ### data record -/

theorem sum_lengths_append (fs : List Bytes) (i : Nat) (b : Bytes) (hi : i < fs.length) :
    ((appendFile fs i b).map List.length).sum = (fs.map List.length).sum + b.length := by
  induction fs generalizing i with
  | nil => simp at hi
  | cons f fs ih =>
    cases i with
    | zero => simp [appendFile]; omega
    | succ i =>
      have := ih i (by simpa using hi)
      simp only [appendFile] at this
      simp only [appendFile, List.modify_succ_cons, List.map_cons, List.sum_cons, this]
      omega

theorem UInv.appendData {br : Branches} {u : Nat} {s : Store} {G : Log} (h : UInv br u s G)
    (b : Bytes) (p : Nat) :
    UInv br u { s with dfiles := appendFile s.dfiles s.dataid b, dprev := p } G := by
  refine { h.toCore.appendData b p with mode := h.mode, ids := h.ids, parents := h.parents, nodup := h.nodup, brs := h.brs, entries := h.entries, size := h.size, total := ?_, newest := h.newest, used := h.used, diskid := h.diskid, chain := h.chain }
  have hlt : s.dataid < s.dfiles.length := by
    rw [h.dlen, h.did]; have := h.iid; omega
  simp only
  rw [sum_lengths_append _ _ _ hlt]
  have := h.total
  omega

/-- Header bytes of a data record: `previous` is truncated to 32 bits when stored. -/
theorem encDHdr_prev (a b p c d e : Nat) :
    encDHdr { idlength := a, datalength := b, previous := p, integrity := c, flags := d, timestamp := e } =
    encDHdr { idlength := a, datalength := b, previous := p % 2 ^ 32, integrity := c, flags := d,
              timestamp := e } := by
  have := toLE_mod 4 p
  simp only [encDHdr]
  rw [show (256 : Nat) ^ 4 = 2 ^ 32 by decide] at this
  rw [this]

/-- Facts after a successful data write. -/
structure Written (s s' : Store) (k p : Bytes) (fl ts off : Nat) : Prop where
  eq : ∃ b prev, b.length = 18 + k.length + p.length ∧
    s' = { s with dfiles := appendFile s.dfiles s.dataid b, dprev := prev }
  pos : off = fileLen s.dfiles s.dataid
  data : ∃ prev, prev < 2 ^ 32 ∧ DataAt s'.dfiles s.dataid off
    (encDHdr { idlength := k.length, datalength := p.length, previous := prev,
               integrity := (if fl = 0 then crc32 p else 0), flags := fl, timestamp := ts } ++ (k ++ p))

theorem dataInsert_fail {s : Store} {io : Io} (hio : (io.dhdr.ok && io.dpay.ok) = false)
    (k p : Bytes) (fl crc ts : Nat) :
    (dataInsert s io k p fl crc ts).2 = 0 ∧
    ∃ b, (dataInsert s io k p fl crc ts).1 =
      { s with dfiles := appendFile s.dfiles s.dataid b, dprev := s.dprev } := by
  unfold dataInsert
  by_cases h1 : io.dhdr.ok
  · have h2 : io.dpay.ok = false := by simpa [h1] using hio
    simp only [h1, h2, Bool.not_true, Bool.false_eq_true, if_false, Bool.not_false, if_true]
    exact ⟨trivial, _, rfl⟩
  · have h1' : io.dhdr.ok = false := by simpa using h1
    simp only [h1', Bool.not_false, if_true]
    exact ⟨trivial, _, rfl⟩

theorem dataInsert_ok {s : Store} {io : Io} (hio : (io.dhdr.ok && io.dpay.ok) = true)
    (hf : ∃ f, s.dfiles[s.dataid]? = some f) (k p : Bytes) (fl crc ts : Nat)
    (hcrc : crc = if fl = 0 then crc32 p else 0) :
    Written s (dataInsert s io k p fl crc ts).1 k p fl ts (dataInsert s io k p fl crc ts).2 := by
  rw [Bool.and_eq_true] at hio
  unfold dataInsert
  simp only [hio.1, hio.2, Bool.not_true, Bool.false_eq_true, if_false]
  obtain ⟨f, hf⟩ := hf
  constructor
  · refine ⟨_, _, ?_, rfl⟩
    simp; omega
  · rfl
  · refine ⟨s.dprev % 2 ^ 32, Nat.mod_lt _ (by decide), ?_⟩
    simp only [fileLen, hf]
    rw [← hcrc, encDHdr_prev, List.append_assoc]
    exact DataAt.new hf _

/-! ### insertion of a new key -/

theorem UInv.insert {br : Branches} {u : Nat} {s : Store} {G : Log} (h : UInv br u s G)
    (io : Io) (hio : io.iapp = none) (r : SetReq) (p : Bytes)
    (hk : liveGet G r.id = none) (hk0 : 0 < r.id.length) (hk1 : r.id.length < 256)
    (hoff : r.offset < 2 ^ 32) (hlen : r.length = p.length) (hp : p.length < 2 ^ 32)
    (hcrc : r.crc = crc32 p) (hdid : r.dataid = 0 ∨ r.dataid = s.indexid) (hts : r.timestamp < 2 ^ 32)
    (hdata : ∃ prev, prev < 2 ^ 32 ∧ DataAt s.dfiles s.dataid r.offset
      (encDHdr { idlength := r.id.length, datalength := p.length, previous := prev,
                 integrity := crc32 p, flags := 0, timestamp := r.timestamp } ++ (r.id ++ p)))
    (hend : logEnd G < 2 ^ 32)
    (hb : ∀ (g : List Rec) (f : Bytes), G[s.indexid]? = some g → s.dfiles[s.indexid]? = some f →
      19 * (isize g + (34 + r.id.length)) ≤ 35 * (f.length - 28))
    (htot : s.datasize + p.length ≤ (s.dfiles.map List.length).sum) :
    (insertUser br s u io r).2.2 = true ∧
      UInv (insertUser br s u io r).1 u (insertUser br s u io r).2.1
        (logAppend G ⟨itemOf s.iprev (r.entry u), p⟩) ∧
      absKV (logAppend G ⟨itemOf s.iprev (r.entry u), p⟩) = (absKV G).put r.id p r.timestamp := by
  have hne := h.ne
  have hix : G.length - 1 = s.indexid := by have := h.iid; omega
  have hfl := h.irep.fileLen hne s.indexid h.iid
  have hiprev := h.iprev_lt
  have hlen' : r.length % 2 ^ 32 = p.length := by rw [hlen, Nat.mod_eq_of_lt hp]
  have hoff' : r.offset % 2 ^ 32 = r.offset := Nat.mod_eq_of_lt hoff
  have hts' : r.timestamp % 2 ^ 32 = r.timestamp := Nat.mod_eq_of_lt hts
  have hcrclt := crc32_lt p
  have hok : RecOK s.dfiles s.indexid ⟨itemOf s.iprev (r.entry u), p⟩ := by
    constructor
    · simp only [Item.WF, itemOf, SetReq.entry, hoff', hlen', hts', hcrc]
      have hd32 : r.dataid < 2 ^ 32 := by
        have := h.iid; have := h.files
        omega
      refine ⟨trivial, hk1, hoff, hp, hiprev, by decide, hd32, hts, hcrclt, by decide, by decide⟩
    · simp only [itemOf, SetReq.entry, hlen']
    · simp only [itemOf, SetReq.entry, hcrc]
    · left; rfl
    · obtain ⟨prev, hp1, hd⟩ := hdata
      refine ⟨prev, hp1, ?_⟩
      simp only [itemOf, SetReq.entry, hoff', hlen', hts', hcrc, recHdr]
      rw [← h.did]; exact hd
  have hcore := h.toCore.appendItem ⟨itemOf s.iprev (r.entry u), p⟩ hend rfl hok hb
  have hlive := live_append hne ⟨itemOf s.iprev (r.entry u), p⟩ rfl
  have hlocs := locs_append hne ⟨itemOf s.iprev (r.entry u), p⟩
  rw [hix] at hlive hlocs
  have hparnew : PLt (0, 0) (s.indexid, logEnd G) := by
    unfold PLt logEnd; simp only; omega
  refine ⟨?_, ?_, ?_⟩
  · simp [insertUser, appendEntry, hio, WriteFault.ok, insertMemUser]
  · have hbr : (insertUser br s u io r).1 = brAppend br
        (Loc.entry u ⟨s.indexid, logEnd G, ⟨itemOf s.iprev (r.entry u), p⟩⟩) := by
      simp only [insertUser, appendEntry, hio, WriteFault.ok, Option.isNone_none, if_true, insertMemUser]
      rw [hfl, Nat.mod_eq_of_lt hend]
      rfl
    have hst : (insertUser br s u io r).2.1 =
        { s with iprev := logEnd G,
                 ifiles := appendFile s.ifiles s.indexid (encItem (itemOf s.iprev (r.entry u))),
                 entries := s.entries + 1, datasize := s.datasize + p.length,
                 nextentry := s.nextentry + 1, nextid := (s.nextid + 1) % 2 ^ 32 } := by
      simp only [insertUser, appendEntry, hio, WriteFault.ok, Option.isNone_none, if_true, insertMemUser,
        cut_none, hfl]
      have : itemOf s.iprev { r.entry u with idxoffset := logEnd G % 2 ^ 32, indexid := s.indexid } =
          itemOf s.iprev (r.entry u) := rfl
      rw [this]
      have : (SetReq.entry r u).length = p.length := hlen'
      rw [this]
    rw [hbr, hst]
    refine { (hcore.congr rfl rfl rfl rfl rfl) with mode := h.mode, ids := ?_, parents := ?_, nodup := ?_, brs := ?_, entries := ?_, size := ?_, total := ?_, newest := ?_, used := ?_, diskid := ?_, chain := ?_ }
    · rw [hlocs]
      intro l hl
      simp only [List.mem_append, List.mem_singleton] at hl
      rcases hl with hl | rfl
      · exact h.ids l hl
      · exact hk0
    · rw [hlocs]
      intro l hl
      simp only [List.mem_append, List.mem_singleton] at hl
      rcases hl with hl | rfl
      · exact h.parents l hl
      · exact hparnew
    · rw [hlive, List.map_append, List.nodup_append]
      refine ⟨h.nodup, by simp, ?_⟩
      intro a ha b hb' heq
      simp only [List.map_cons, List.map_nil, List.mem_singleton] at hb'
      obtain ⟨l, hl, hla⟩ := List.mem_map.1 ha
      have := List.find?_eq_none.1 hk l hl
      apply this
      simp only [beq_iff_eq]
      rw [hla, heq, hb']; rfl
    · intro h'
      rw [nsBranch_append, hlive, ents_append]
      refine List.Perm.append (h.brs h') ?_
      by_cases hh : h' = keyHash r.id
      · subst hh
        simp [ents, Loc.id, itemOf, SetReq.entry, Loc.entry]
      · have : ¬ (keyHash r.id = h') := fun e => hh e.symm
        simp [ents, Loc.id, itemOf, SetReq.entry, Loc.entry, hh, this]
    · rw [hlive]; simp [h.entries]
    · rw [hlive]; simp [h.size, itemOf, SetReq.entry, hlen']
    · exact htot
    · rw [hlocs, List.pairwise_append]
      refine ⟨h.newest, by simp, ?_⟩
      intro a ha b hb hlive' he
      simp only [List.mem_singleton] at hb
      have := List.find?_eq_none.1 hk a (List.mem_filter.2 ⟨ha, hlive'⟩)
      apply this
      rw [he, hb]
      simp [Loc.id, itemOf, SetReq.entry]
    · intro _; simp
    · rw [hlocs]
      intro l hl
      simp only [List.mem_append, List.mem_singleton] at hl
      rcases hl with hl | rfl
      · exact h.diskid l hl
      · rcases hdid with hd | hd <;> simp [itemOf, SetReq.entry, hd]
    · rw [hlocs]
      intro l hl
      simp only [List.mem_append, List.mem_singleton] at hl
      rcases hl with hl | rfl
      · rcases h.chain l hl with hc | ⟨m, hm, hc⟩
        · exact Or.inl hc
        · exact Or.inr ⟨m, by simp [hm], hc⟩
      · left; simp [itemOf, SetReq.entry]
  · have habs := absKV_append hne ⟨itemOf s.iprev (r.entry u), p⟩ rfl h.parents
      (by rw [hix]; exact hparnew)
    rw [habs, KV.put, absKV_get, hk]
    have hdel : (absKV G).del r.id = absKV G := by
      rw [KV.del, List.filter_eq_self]
      intro x hx
      obtain ⟨l, hl, rfl⟩ := List.mem_map.1 hx
      have := List.find?_eq_none.1 hk l hl
      simpa using this
    rw [hdel]
    have hv : verChain (locs G).reverse (0, 0) = [] := by
      have := verChain_skip (locs G).reverse [] (0, 0) (by
        intro l hl
        have := mem_locs_off (List.mem_reverse.1 hl)
        unfold PLt; simp only; omega)
      rw [List.append_nil] at this
      rw [this]; rfl
    simp only [itemOf, SetReq.entry, hts', hv, Option.map_none]

/-! ### flagging an item -/

theorem UInv.killItem {br : Branches} {u : Nat} {s : Store} {G : Log} (h : UInv br u s G)
    {l : Loc} (hl : l ∈ live G) (io : Io) (hio : io.iflag = none) :
    ∃ A B G1 g1 g2 G2, SplitAt 0 G A l B G1 g1 g2 G2 ∧
      (deleteDisk s io (l.entry u)).2 = true ∧
      (∃ d, (deleteDisk s io (l.entry u)).1 =
        { s with ifiles := writeFileAt s.ifiles l.file l.off (encItem l.r.kill.item), dirty := d }) ∧
      Core 0 Loc.file (deleteDisk s io (l.entry u)).1 (G1 ++ (g1 ++ l.r.kill :: g2) :: G2) := by
  obtain ⟨A, B, hAB⟩ := List.append_of_mem (live_mem hl)
  obtain ⟨G1, g1, g2, G2, hs⟩ := locs_split hAB
  obtain ⟨f, hf1, hf2⟩ := h.toCore.readItem (live_mem hl)
  have hfl := live_flag h hl
  have hset : setItemFlags (encItem l.r.item) (setDeleted l.r.item.flags) = encItem l.r.kill.item := by
    rw [setItemFlags_encItem, hfl]; rfl
  have heq : deleteDisk s io (l.entry u) =
      ({ s with ifiles := writeFileAt s.ifiles l.file l.off (encItem l.r.kill.item),
                dirty := dirtySet s.dirty l.file }, true) := by
    simp only [deleteDisk, Loc.entry, hf1, hf2, hio, WriteFault.ok, Option.isNone_none, if_true, cut_none,
      hset]
  refine ⟨A, B, G1, g1, g2, G2, hs, by rw [heq], ⟨_, by rw [heq]⟩, ?_⟩
  rw [heq]
  have hr := h.recs l (live_mem hl)
  apply h.toCore.replaceItem hs l.r.kill rfl rfl
  constructor
  · have := hr.wf
    simp only [Item.WF, Rec.kill] at this ⊢
    simp only [this, true_and]
    decide
  · exact hr.len
  · exact hr.crc
  · right; rfl
  · exact hr.data

theorem sum_filter_ne {V : List Loc} {l : Loc} (hl : l ∈ V) (hn : (V.map Loc.id).Nodup) :
    ((V.filter (fun x => !(x.id == l.id))).map (fun x => x.r.item.length)).sum + l.r.item.length =
      (V.map (fun x => x.r.item.length)).sum ∧
    (V.filter (fun x => !(x.id == l.id))).length + 1 = V.length := by
  obtain ⟨a, b, rfl⟩ := List.append_of_mem hl
  rw [filter_ne_split hn]
  simp; omega

theorem nodup_filter {V : List Loc} (p : Loc → Bool) (hn : (V.map Loc.id).Nodup) :
    ((V.filter p).map Loc.id).Nodup := hn.sublist (List.filter_sublist.map _)

theorem ents_mem {u : Nat} {V : List Loc} {l : Loc} (hl : l ∈ V) :
    l.entry u ∈ ents u (keyHash l.id) V := by
  simp only [ents, List.mem_map]
  exact ⟨l, by simp [hl], rfl⟩

/-! ### new version of an existing key -/

theorem UInv.update {br : Branches} {u : Nat} {s : Store} {G : Log} (h : UInv br u s G)
    (io : Io) (hio : io.iapp = none) (hio2 : io.iflag = none) (r : SetReq) (p : Bytes)
    {l : Loc} (hk : liveGet G r.id = some l)
    (hoff : r.offset < 2 ^ 32) (hlen : r.length = p.length) (hp : p.length < 2 ^ 32)
    (hcrc : r.crc = crc32 p) (hts : r.timestamp < 2 ^ 32)
    (hdata : ∃ prev, prev < 2 ^ 32 ∧ DataAt s.dfiles s.dataid r.offset
      (encDHdr { idlength := r.id.length, datalength := p.length, previous := prev,
                 integrity := crc32 p, flags := 0, timestamp := r.timestamp } ++ (r.id ++ p)))
    (hend : logEnd G < 2 ^ 32)
    (hb : ∀ (g : List Rec) (f : Bytes), G[s.indexid]? = some g → s.dfiles[s.indexid]? = some f →
      19 * (isize g + (34 + r.id.length)) ≤ 35 * (f.length - 28))
    (htot : s.datasize + p.length ≤ (s.dfiles.map List.length).sum) :
    ∃ G', (updateUser br s u io r (l.entry u)).2.2 = true ∧
      UInv (updateUser br s u io r (l.entry u)).1 u (updateUser br s u io r (l.entry u)).2.1 G' ∧
      absKV G' = (absKV G).put r.id p r.timestamp ∧ LogStep (fun x => x = r.id) G G' := by
  obtain ⟨hl, hlid⟩ := liveGet_some hk
  obtain ⟨A, B, G1, g1, g2, G2, hs, hd1, ⟨d, hd2⟩, hcoreK⟩ := h.killItem hl io hio2
  have hmem := live_mem hl
  have hlive : l.live = true := (List.mem_filter.1 hl).2
  generalize hGK : G1 ++ (g1 ++ l.r.kill :: g2) :: G2 = GK at hcoreK
  generalize hsK : (deleteDisk s io (l.entry u)).1 = sK at hd2 hcoreK
  have hlenK : GK.length = G.length := by rw [← hGK, hs.log]; simp
  have hlocsK : locs GK = A ++ { l with r := l.r.kill } :: B := by rw [← hGK]; exact kill_locs hs
  have hlocs0 := split_locs hs
  have hliveK : live GK = (live G).filter (fun x => !(x.id == l.id)) := by
    rw [← hGK]; exact kill_live hs hlive h.nodup
  have habsK : absKV GK = (absKV G).del l.id := by rw [← hGK]; exact absKV_kill hs hlive h.nodup
  have hne := hcoreK.ne
  have hixs : sK.indexid = s.indexid := by rw [hd2]
  have hdfs : sK.dfiles = s.dfiles := by rw [hd2]
  have hpvs : sK.iprev = s.iprev := by rw [hd2]
  have hix : GK.length - 1 = s.indexid := by have := h.iid; omega
  have hendK : logEnd GK = logEnd G := by
    rw [← hcoreK.irep.fileLen hne sK.indexid hcoreK.iid, ← h.irep.fileLen h.ne s.indexid h.iid]
    rw [hixs, hd2]
    simp only [fileLen, writeFileAt, List.getElem?_modify]
    by_cases hi : l.file = s.indexid
    · obtain ⟨pre, post, h1, h2⟩ := h.irep.at hmem
      rw [← hi, h1]
      simp only [if_true, Option.map_eq_map, Option.map_some]
      rw [pwrite_at' rfl h2.symm (by simp [Rec.kill])]
      simp [Rec.kill]
    · cases s.ifiles[s.indexid]? <;> simp [hi]
  have hgK : ∀ (i : Nat) (g : List Rec), GK[i]? = some g → ∃ g', G[i]? = some g' ∧ isize g = isize g' := by
    intro i g hg
    rw [← hGK] at hg
    rw [hs.log]
    by_cases hlt : i < G1.length
    · rw [List.getElem?_append_left hlt] at hg ⊢; exact ⟨g, hg, rfl⟩
    · rw [List.getElem?_append_right (by omega)] at hg ⊢
      cases hk' : i - G1.length with
      | zero =>
        rw [hk'] at hg
        simp at hg
        refine ⟨g1 ++ l.r :: g2, by simp, ?_⟩
        rw [← hg, isize_append, isize_append]
        simp [isize, Rec.kill]
      | succ k => rw [hk'] at hg; exact ⟨g, by simpa using hg, rfl⟩
  have hiprev := h.iprev_lt
  have hlen' : r.length % 2 ^ 32 = p.length := by rw [hlen, Nat.mod_eq_of_lt hp]
  have hoff' : r.offset % 2 ^ 32 = r.offset := Nat.mod_eq_of_lt hoff
  have hts' : r.timestamp % 2 ^ 32 = r.timestamp := Nat.mod_eq_of_lt hts
  have hcrclt := crc32_lt p
  have hwf := (h.recs l hmem).wf
  have hfile := mem_locs_lt hmem
  have hfiles := h.files
  have hloff := h.offs l hmem
  have hiid := h.iid
  -- the new entry and record
  let e : Entry := updatedEntry sK (l.entry u) (r.entry u)
  let rc : Rec := ⟨itemOf s.iprev e, p⟩
  have hrc : rc.item.id = r.id := hlid
  have hok : RecOK sK.dfiles s.indexid rc := by
    rw [hdfs]
    constructor
    · simp only [Item.WF] at hwf
      simp only [Item.WF, rc, e, itemOf, updatedEntry, SetReq.entry, Loc.entry, hoff', hlen', hts', hcrc, hixs]
      refine ⟨trivial, hwf.2.1, hoff, hp, hiprev, by decide, by omega, hts, hcrclt, by omega, hloff⟩
    · simp only [rc, e, itemOf, updatedEntry, SetReq.entry, hlen']
    · simp only [rc, e, itemOf, updatedEntry, SetReq.entry, hcrc]
    · left; rfl
    · obtain ⟨prev, hp1, hd⟩ := hdata
      refine ⟨prev, hp1, ?_⟩
      simp only [recHdr, hrc]
      simp only [rc, e, itemOf, updatedEntry, SetReq.entry, hoff', hlen', hts', hcrc]
      rw [← h.did]; exact hd
  have hcore := hcoreK.appendItem rc (by rw [hendK]; exact hend) (by rw [hpvs]; rfl) (by
      simp only [hixs]; exact hok) (by
      rw [hixs, hdfs]
      intro g f hg hf
      obtain ⟨g', hg', he⟩ := hgK _ _ hg
      rw [he, hrc]
      exact hb g' f hg' hf)
  have hliveN := live_append hne rc rfl
  have hlocsN := locs_append hne rc
  rw [hix, hendK] at hliveN hlocsN
  have hparnew : PLt (l.file, l.off) (s.indexid, logEnd G) := by
    have := PLt_end h.ne hmem
    rwa [show G.length - 1 = s.indexid by omega] at this
  have hparK : ∀ x ∈ locs GK, PLt (x.r.item.parentid, x.r.item.parentoff) (x.file, x.off) := by
    have := h.parents
    rw [hlocs0] at this
    rw [hlocsK]
    intro x hx
    simp only [List.mem_append, List.mem_cons] at hx
    rcases hx with hx | rfl | hx
    · exact this x (by simp [hx])
    · exact this l (by simp)
    · exact this x (by simp [hx])
  have hsum := sum_filter_ne hl h.nodup
  have hst : updateUser br s u io r (l.entry u) =
      (brUpdate br u l.id (Loc.entry u ⟨s.indexid, logEnd G, rc⟩),
       { sK with iprev := logEnd G,
                 ifiles := appendFile sK.ifiles sK.indexid (encItem rc.item),
                 datasize := s.datasize - l.r.item.length + p.length }, true) := by
    simp only [updateUser, hsK, appendEntry, hio, WriteFault.ok, Option.isNone_none, if_true, cut_none,
      updateStats]
    have hfl : fileLen sK.ifiles sK.indexid = logEnd G := by
      rw [hcoreK.irep.fileLen hne _ hcoreK.iid, hendK]
    have hds : sK.datasize = s.datasize := by rw [hd2]
    have hr1 : (SetReq.entry r u).length = p.length := hlen'
    have hsub : sub64 s.datasize (l.entry u).length = s.datasize - l.r.item.length :=
      sub64_le (by rw [h.size]; have := hsum; simp only [Loc.entry]; omega)
    rw [hfl, hds, hr1, hpvs, hsub, Nat.mod_eq_of_lt hend]
    simp only [Loc.entry, Loc.id, hixs, rc, e, itemOf, updatedEntry, SetReq.entry]
  have hstep : LogStep (fun x => x = r.id) G (logAppend GK rc) := by
    refine ⟨by rw [logAppend_length, hlenK]; exact Nat.le_refl _, _, _, hlocsN, ?_, ?_⟩
    · rw [hlocs0, hlocsK]
      exact Kills.one _ A B rfl (fun _ => hlive) hlid
    · intro e he
      rw [List.mem_singleton.1 he]
      refine ⟨⟨hlid, rfl⟩, fun m hm hml hmid => ?_⟩
      have hg := liveGet_of_mem h.nodup (List.mem_filter.2 ⟨hm, hml⟩)
      rw [hmid, show Loc.id ⟨s.indexid, logEnd G, rc⟩ = r.id from hlid, hk] at hg
      injection hg with hg
      subst hg
      exact ⟨rfl, rfl⟩
  refine ⟨logAppend GK rc, by rw [hst], ?_, ?_, hstep⟩
  · rw [hst]
    rw [hendK] at hcore
    refine { (hcore.congr rfl rfl rfl rfl rfl) with mode := ?_, ids := ?_, parents := ?_, nodup := ?_, brs := ?_, entries := ?_, size := ?_, total := ?_, newest := ?_, used := ?_, diskid := ?_, chain := ?_ }
    · simp only [hd2]; exact h.mode
    · have := h.ids
      rw [hlocs0] at this
      rw [hlocsN, hlocsK]
      intro x hx
      simp only [List.mem_append, List.mem_cons, List.mem_singleton, List.not_mem_nil, or_false] at hx
      rcases hx with (hx | rfl | hx) | rfl
      · exact this x (by simp [hx])
      · exact this l (by simp)
      · exact this x (by simp [hx])
      · exact this l (by simp)
    · rw [hlocsN]
      intro x hx
      simp only [List.mem_append, List.mem_singleton] at hx
      rcases hx with hx | rfl
      · exact hparK x hx
      · exact hparnew
    · rw [hliveN, hliveK, List.map_append, List.nodup_append]
      refine ⟨nodup_filter _ h.nodup, by simp, ?_⟩
      intro a ha b hb' heq
      simp only [List.map_cons, List.map_nil, List.mem_singleton] at hb'
      obtain ⟨x, hx, hxa⟩ := List.mem_map.1 ha
      have hx2 := (List.mem_filter.1 hx).2
      simp only [Bool.not_eq_true', beq_eq_false_iff_ne, ne_eq] at hx2
      exact hx2 (by rw [hxa, heq, hb']; rfl)
    · intro h'
      rw [hliveN, hliveK, ents_append]
      simp only
      rw [nsBranch_update br u l.id (Loc.entry u ⟨s.indexid, logEnd G, rc⟩) h' rfl]
      by_cases hh : h' = keyHash l.id
      · rw [if_pos hh]
        have hex : ∃ e' ∈ nsBranch br u h', (fun e' : Entry => e'.id == l.id) e' := by
          refine ⟨l.entry u, ?_, by simp [Loc.entry, Loc.id]⟩
          rw [(h.brs h').mem_iff, hh]; exact ents_mem hl
        refine (replaceFirst_perm _ hex).trans ?_
        rw [eraseP_once ((ents_once u h' _ l.id h.nodup).perm (h.brs h').symm), ← ents_filter]
        have h1 := (h.brs h').filter (fun e' : Entry => !(e'.id == l.id))
        have h2 : ents u h' [⟨s.indexid, logEnd G, rc⟩] = [Loc.entry u ⟨s.indexid, logEnd G, rc⟩] := by
          have hid : (⟨s.indexid, logEnd G, rc⟩ : Loc).id = l.id := rfl
          simp [ents, hid, hh]
        rw [h2]
        exact (h1.cons _).trans (List.perm_append_singleton _ _).symm
      · rw [if_neg hh]
        have h2 : ents u h' [⟨s.indexid, logEnd G, rc⟩] = [] := by
          have hid : (⟨s.indexid, logEnd G, rc⟩ : Loc).id = l.id := rfl
          have : ¬ (keyHash l.id = h') := fun e => hh e.symm
          simp [ents, hid, this]
        rw [h2, List.append_nil]
        have h3 : ents u h' ((live G).filter (fun x => !(x.id == l.id))) = ents u h' (live G) := by
          rw [← ents_filter, List.filter_eq_self]
          intro e' he'
          simp only [ents, List.mem_map, List.mem_filter] at he'
          obtain ⟨x, ⟨_, hx2⟩, rfl⟩ := he'
          simp only [Bool.not_eq_true', beq_eq_false_iff_ne, ne_eq]
          intro he
          apply hh
          simp only [beq_iff_eq] at hx2
          have he2 : x.id = l.id := he
          rw [← hx2, he2]
        rw [h3]; exact h.brs h'
    · rw [hliveN, hliveK]
      simp only [List.length_append, List.length_cons, List.length_nil]
      rw [hd2]
      simp only
      rw [h.entries, ← hsum.2]
    · rw [hliveN, hliveK]
      simp only [List.map_append, List.sum_append, List.map_cons, List.map_nil, List.sum_cons, List.sum_nil]
      rw [h.size, ← hsum.1]
      have : rc.item.length = p.length := hlen'
      rw [this]; omega
    · simp only [hdfs]
      omega
    · rw [hlocsN, List.pairwise_append]
      refine ⟨by rw [← hGK]; exact kill_newest hs h.newest, by simp, ?_⟩
      intro a ha b hb' hal he
      simp only [List.mem_singleton] at hb'
      have hmem' : a ∈ live GK := List.mem_filter.2 ⟨ha, hal⟩
      rw [hliveK] at hmem'
      have h2 := (List.mem_filter.1 hmem').2
      simp only [Bool.not_eq_true', beq_eq_false_iff_ne, ne_eq] at h2
      exact h2 (by rw [he, hb']; rfl)
    · intro _
      have := h.used (List.ne_nil_of_mem hmem)
      simp only [hd2]; exact this
    · rw [hlocsN]
      intro x hx
      simp only [List.mem_append, List.mem_singleton] at hx
      rcases hx with hx | rfl
      · exact kill_diskid (by rw [← hGK]; exact kill_stat hs) h.diskid x hx
      · have h29 := mem_locs_off hmem
        have : ¬ (l.off = 0) := by omega
        simp [rc, e, itemOf, updatedEntry, Loc.entry, this, hixs]
    · rw [hlocsN]
      intro x hx
      simp only [List.mem_append, List.mem_singleton] at hx
      rcases hx with hx | rfl
      · rcases kill_chain (by rw [← hGK]; exact kill_stat hs) h.chain x hx with hc | ⟨m, hm, hc⟩
        · exact Or.inl hc
        · exact Or.inr ⟨m, by simp [hm], hc⟩
      · right
        refine ⟨{ l with r := l.r.kill }, ?_, rfl, rfl, rfl⟩
        rw [hlocsK]; simp
  · have habs := absKV_append hne rc rfl hparK (by
        rw [hix, hendK]; exact hparnew)
    rw [habs, habsK, KV.put, absKV_get, hk, hlid]
    congr 1
    have hv : verChain (locs GK).reverse (l.file, l.off) =
        ⟨l.r.payload, l.r.item.timestamp⟩ :: (l.val (locs G)).older := by
      rw [← hGK, verChain_kill hs, verChain_at hmem (h.parents l hmem)]; rfl
    have e1 : rc.item.parentid = l.file := rfl
    have e2 : rc.item.parentoff = l.off := rfl
    have e3 : rc.item.timestamp = r.timestamp := hts'
    rw [e1, e2, e3, hv, hrc]
    rfl

/-! ### deletion -/

theorem UInv.delete {br : Branches} {u : Nat} {s : Store} {G : Log} (h : UInv br u s G)
    (io : Io) (hio : io.iflag = none) {k : Bytes} {l : Loc} (hk : liveGet G k = some l) :
    ∃ G', (indexDelete br s u io (l.entry u)).2.2 = true ∧
      UInv (indexDelete br s u io (l.entry u)).1 u (indexDelete br s u io (l.entry u)).2.1 G' ∧
      absKV G' = (absKV G).del k ∧ LogStep (fun x => x = k) G G' := by
  obtain ⟨hl, hlid⟩ := liveGet_some hk
  obtain ⟨A, B, G1, g1, g2, G2, hs, hd1, ⟨d, hd2⟩, hcoreK⟩ := h.killItem hl io hio
  have hmem := live_mem hl
  have hlive : l.live = true := (List.mem_filter.1 hl).2
  generalize hGK : G1 ++ (g1 ++ l.r.kill :: g2) :: G2 = GK at hcoreK
  have hlenK : GK.length = G.length := by rw [← hGK, hs.log]; simp
  have hlocsK : locs GK = A ++ { l with r := l.r.kill } :: B := by rw [← hGK]; exact kill_locs hs
  have hlocs0 := split_locs hs
  have hliveK : live GK = (live G).filter (fun x => !(x.id == l.id)) := by
    rw [← hGK]; exact kill_live hs hlive h.nodup
  have habsK : absKV GK = (absKV G).del l.id := by rw [← hGK]; exact absKV_kill hs hlive h.nodup
  have hsum := sum_filter_ne hl h.nodup
  have hdel : deleteDisk s io (l.entry u) =
      ({ s with ifiles := writeFileAt s.ifiles l.file l.off (encItem l.r.kill.item), dirty := d }, true) := by
    rw [← hd2, ← hd1]
  rw [hdel] at hcoreK
  have hst : indexDelete br s u io (l.entry u) =
      (brRemove br u l.id,
       { s with ifiles := writeFileAt s.ifiles l.file l.off (encItem l.r.kill.item), dirty := d,
                entries := s.entries - 1, datasize := s.datasize - l.r.item.length }, true) := by
    have h1 : sub64 s.entries 1 = s.entries - 1 := sub64_le (by
      rw [h.entries]; exact List.length_pos_iff.2 (List.ne_nil_of_mem hl))
    have h2 : sub64 s.datasize (l.entry u).length = s.datasize - l.r.item.length :=
      sub64_le (by rw [h.size]; have := hsum; simp only [Loc.entry]; omega)
    simp only [indexDelete, hdel, if_true, h.mode, h1, h2]
    rfl
  have hstep : LogStep (fun x => x = k) G GK := by
    refine ⟨by rw [hlenK]; exact Nat.le_refl _, locs GK, [], by simp, ?_, by simp⟩
    rw [hlocs0, hlocsK]
    exact Kills.one _ A B rfl (fun _ => hlive) hlid
  refine ⟨GK, by rw [hst], ?_, by rw [habsK, hlid], hstep⟩
  rw [hst]
  refine { (hcoreK.congr rfl rfl rfl rfl rfl) with mode := h.mode, ids := ?_, parents := ?_, nodup := ?_, brs := ?_, entries := ?_, size := ?_, total := ?_, newest := ?_, used := ?_, diskid := ?_, chain := ?_ }
  · have := h.ids
    rw [hlocs0] at this
    rw [hlocsK]
    intro x hx
    simp only [List.mem_append, List.mem_cons] at hx
    rcases hx with hx | rfl | hx
    · exact this x (by simp [hx])
    · exact this l (by simp)
    · exact this x (by simp [hx])
  · have := h.parents
    rw [hlocs0] at this
    rw [hlocsK]
    intro x hx
    simp only [List.mem_append, List.mem_cons] at hx
    rcases hx with hx | rfl | hx
    · exact this x (by simp [hx])
    · exact this l (by simp)
    · exact this x (by simp [hx])
  · rw [hliveK]; exact nodup_filter _ h.nodup
  · intro h'
    rw [hliveK, nsBranch_remove, ← ents_filter]
    have hf := (h.brs h').filter (fun e' : Entry => !(e'.id == l.id))
    by_cases hh : h' = keyHash l.id
    · rw [if_pos hh, eraseP_once ((ents_once u h' _ l.id h.nodup).perm (h.brs h').symm)]
      exact hf
    · rw [if_neg hh]
      have h3 : (ents u h' (live G)).filter (fun e' => !(e'.id == l.id)) = ents u h' (live G) := by
        rw [List.filter_eq_self]
        intro e' he'
        simp only [ents, List.mem_map, List.mem_filter] at he'
        obtain ⟨x, ⟨_, hx2⟩, rfl⟩ := he'
        simp only [Bool.not_eq_true', beq_eq_false_iff_ne, ne_eq]
        intro he
        apply hh
        simp only [beq_iff_eq] at hx2
        have he2 : x.id = l.id := he
        rw [← hx2, he2]
      rw [h3]; exact h.brs h'
  · rw [hliveK]
    simp only
    rw [h.entries]; omega
  · rw [hliveK]
    simp only
    rw [h.size]; omega
  · have := h.total
    simp only; omega
  · rw [← hGK]; exact kill_newest hs h.newest
  · intro _; exact h.used (List.ne_nil_of_mem hmem)
  · exact kill_diskid (by rw [← hGK]; exact kill_stat hs) h.diskid
  · exact kill_chain (by rw [← hGK]; exact kill_stat hs) h.chain

end Zdb
