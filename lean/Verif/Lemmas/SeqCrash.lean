/-
What a new process finds in the files left by one that died during a command (sequential mode).
-/
import Verif.Lemmas.Crash
import Verif.Lemmas.SeqRun
import Verif.Lemmas.SeqSpec
namespace Zdb

/-- The files are those of a sequential namespace whose log is `G`, except that the header of the last data
    file may be missing or incomplete. -/
def SRecov (fi fd : List Bytes) (G : Log) : Prop :=
  ∃ t, SInv t G ∧ t.ifiles = fi ∧ dataInitialize fd t.indexid = t.dfiles

theorem SInv.dataInit {s : Store} {G : Log} (h : SInv s G) : dataInitialize s.dfiles s.indexid = s.dfiles := by
  have hlt : s.indexid < s.dfiles.length := by rw [h.dlen]; have := h.iid; omega
  apply dataInitialize_same hlt
  obtain ⟨t, ht⟩ := h.dhead s.indexid _ (List.getElem?_eq_getElem hlt)
  exact ⟨t, by rw [← ht]; exact List.getElem?_eq_getElem _⟩

theorem SInv.recov {s : Store} {G : Log} (h : SInv s G) : SRecov s.ifiles s.dfiles G :=
  ⟨s, h, rfl, h.dataInit⟩

/-! ### reads -/

/-- What the reading commands need. -/
structure SReads (s : Store) (G : Log) : Prop where
  mode : s.mode = .seq
  get : ∀ u k, Near G k → seqGet s u k = (slotAt G k).map (Loc.sentry u)
  recs : ∀ l ∈ locs G, RecOK s.dfiles l.r.item.dataid l.r

theorem SInv.reads {s : Store} {G : Log} (h : SInv s G) : SReads s G :=
  ⟨h.mode, fun u k hn => h.seqGet u k hn, h.recs⟩

theorem SReads.indexGet {br : Branches} {s : Store} {G : Log} (h : SReads s G) (u : Nat) (k : Bytes)
    (hn : Near G k) : indexGet br s u k = (slotGet G k).map (Loc.sentry u) := by
  simp only [Zdb.indexGet, h.mode, h.get u k hn, slotGet]
  cases hg : slotAt G k with
  | none => rfl
  | some l =>
    simp only [Option.map_some, Option.filter_some]
    have e : isDeleted (l.sentry u).flags = !l.live := by simp [Loc.sentry, Loc.entry, Loc.live]
    rw [e]
    cases l.live <;> rfl

theorem slotGet_mem {G : Log} {k : Bytes} {l : Loc} (hl : slotGet G k = some l) : l ∈ locs G := by
  unfold slotGet slotAt at hl
  cases h : seqPos k with
  | none => rw [h] at hl; simp at hl
  | some n =>
    rw [h] at hl
    simp only [Option.filter_eq_some_iff] at hl
    exact List.mem_of_getElem? hl.1

/-- The reply to a command that reads one key, as a function of the value of the key. -/
def readReply : DsCmd → Option Val → Reply
  | .get => replyGet
  | .exists => replyExists
  | .check => replyCheck
  | .length => replyLength
  | .keytime => replyKeytime
  | _ => fun _ => .nil

theorem SReads.read {c : Ctx} {br : Branches} {s : Store} {G : Log} (h : SReads s G) (d : DsCmd)
    (hd : d = .get ∨ d = .exists ∨ d = .check ∨ d = .length ∨ d = .keytime) (name k : Bytes) (hn : name ≠ [])
    (hk : Near G k) :
    (dsCommand c br s d [name, k]).2.2 = specSeqRead c.conf (absSlots G) k (readReply d) := by
  have hrec : ∀ l, slotGet G k = some l → RecOK s.dfiles l.r.item.dataid l.r :=
    fun l hl => h.recs l (slotGet_mem hl)
  rcases hd with rfl | rfl | rfl | rfl | rfl
  · simp only [dsCommand, cmdGet]
    refine seqReadChecks_spec name k hn _ _ ?_
    simp only [getSingle, h.indexGet c.u k hk, absSlots_get]
    cases hg : slotGet G k with
    | none => rfl
    | some l =>
      have hd := (hrec l hg).dataGet
      simp only [Option.map_some, Loc.sentry, Loc.entry, hd, replyGet, Loc.val, readReply]
  · simp only [dsCommand, cmdExists]
    refine seqReadChecks_spec name k hn _ _ ?_
    rw [h.indexGet c.u k hk, absSlots_get]
    cases slotGet G k <;> rfl
  · simp only [dsCommand, cmdCheck]
    refine seqReadChecks_spec name k hn _ _ ?_
    rw [h.indexGet c.u k hk, absSlots_get]
    cases hg : slotGet G k with
    | none => rfl
    | some l =>
      have := (hrec l hg).dataCheck
      simp only [Option.map_some, replyCheck, Loc.sentry, Loc.entry, this, readReply]
  · simp only [dsCommand, cmdLength]
    refine seqReadChecks_spec name k hn _ _ ?_
    rw [h.indexGet c.u k hk, absSlots_get]
    cases hg : slotGet G k with
    | none => rfl
    | some l =>
      simp only [Option.map_some, replyLength, Loc.sentry, Loc.entry, Loc.val, (hrec l hg).len, readReply]
  · simp only [dsCommand, cmdKeytime]
    refine seqReadChecks_spec name k hn _ _ ?_
    rw [h.indexGet c.u k hk, absSlots_get]
    cases slotGet G k <;> rfl

/-! ### loading -/

theorem locs_snoc_nil (G : Log) : locs (G ++ [[]]) = locs G := locs_jump G

/-- Loading the files.  If the last index file has no item, the map has no entry for it: what is stored can be
    read, but the invariant does not hold. -/
theorem SRecov.load {fi fd : List Bytes} {G : Log} (hr : SRecov fi fd G) (br : Branches) (u : Nat)
    (cfg : Option Mode) (hcfg : cfg = none ∨ cfg = some .seq) (hlen : G.length < 2 ^ 32) :
    ∃ s', loadNs cfg br u fi fd = .ok br s' ∧ SReads s' G ∧
      (s'.indexid = 0 ∨ 29 < fileLen s'.ifiles s'.indexid → SInv s' G) ∧
      s'.ifiles = fi ∧ ∃ id, s'.dfiles = dataInitialize fd id := by
  obtain ⟨s, h, rfl, hdi⟩ := hr
  have hG : 0 < G.length := List.length_pos_iff.2 h.ne
  have hn : maxFiles s.ifiles = G.length := by
    rw [maxFiles, h.irep.length]; omega
  obtain ⟨i, d, hfold⟩ := indexSetId_foldl (List.range (G.length + 1)) (initRoot cfg s.ifiles fd)
  have hmap0 : (rehash { ({ initRoot cfg s.ifiles fd with indexid := i, dirty := d } : Store) with mode := .seq }).seqmap =
      some ((0, 0) :: startsNE 0 0 []) := by
    rcases hcfg with rfl | rfl <;> rfl
  obtain ⟨s', h1, h2, h3, h4⟩ := SL.loop (fi := s.ifiles) (fd := fd) br u cfg hcfg [] G h.ne (s := { initRoot cfg s.ifiles fd with indexid := i, dirty := d })
    ⟨rfl, rfl, rfl, rfl, rfl, rfl⟩ hmap0 h.irep h.files
    (fun l hl => (h.recs l hl).wf) (fun l hl => (h.recs l hl).flags)
  simp only [List.nil_append] at h2 h3 h4
  have hsame : s'.indexid = s.indexid := by have := h.iid; omega
  have hdf : dataInitialize s'.dfiles s'.indexid = s.dfiles := by rw [h2.dfiles, hsame, hdi]
  have hp : ∃ p, dataOpen s' s'.indexid = { s' with dfiles := s.dfiles, dataid := s'.indexid, dprev := p } := by
    unfold dataOpen
    simp only [hdf]
    exact ⟨_, rfl⟩
  obtain ⟨p, hp⟩ := hp
  have hcore : Core 1 (fun l => l.r.item.dataid) { s' with dfiles := s.dfiles, dataid := s'.indexid, dprev := p } G := by
    refine ⟨?_, h3, rfl, h.dlen, h.files, h.recs, h.offs, h2.iprev, h.prevs, h.bound, h.dhead⟩
    simp only [h2.ifiles]; exact h.irep
  have hinv : (∃ pre, s'.seqmap = some (pre ++ startsFrom 0 0 G) ∧ (pre = [] ∨ pre = [(0, 0)])) →
      SInv { s' with dfiles := s.dfiles, dataid := s'.indexid, dprev := p } G := by
    intro hm
    refine { hcore with
      mode := h2.mode, ids8 := h.ids8, own := h.own, map := hm, full := h.full, next := h2.next,
      entries := h2.entries, size := h2.size, total := ?_, few := h.few, chain := h.chain }
    have e1 : s'.datasize = s.datasize := by rw [h2.size, h.size]; rfl
    simp only [e1]
    exact h.total
  refine ⟨{ s' with dfiles := s.dfiles, dataid := s'.indexid, dprev := p }, ?_, ?_, ?_, h2.ifiles,
    s.indexid, hdi.symm⟩
  · unfold loadNs
    simp only [hn, hfold, if_pos hG]
    rw [List.range_eq_range']
    simp only [List.length_nil] at h1
    rw [h1]
    simp only [hp]
  all_goals by_cases hall : ∀ g ∈ G, g ≠ []
  · exact (hinv ⟨[(0, 0)], by rw [h4, startsNE_full 0 0 G hall]; rfl, Or.inr rfl⟩).reads
  · obtain ⟨G', g, rfl⟩ := exists_concat h.ne
    have hfull : ∀ g ∈ G', g ≠ [] := by
      intro x hx
      obtain ⟨j, hj, he⟩ := List.getElem_of_mem hx
      refine h.full j x ?_ (by simp; omega)
      rw [List.getElem?_append_left hj, List.getElem?_eq_getElem hj, he]
    have hg : g = [] := by
      apply Classical.byContradiction
      intro hg
      apply hall
      intro x hx
      rcases List.mem_append.1 hx with hx | hx
      · exact hfull x hx
      · rw [List.mem_singleton.1 hx]; exact hg
    subst hg
    by_cases hG' : G' = []
    · subst hG'
      exact (hinv ⟨[], by rw [h4]; simp [startsNE, startsFrom], Or.inl rfl⟩).reads
    · have hst : startsNE 0 0 (G' ++ [[]]) = startsFrom 0 0 G' := by
        rw [startsNE_append, startsNE_full 0 0 G' hfull]; simp [startsNE]
      have hl := locs_snoc_nil G'
      have hlook : SLook { s' with dfiles := s.dfiles, dataid := s'.indexid, dprev := p } G' := by
        refine ⟨hG', ⟨[(0, 0)], by simp only [h4, hst]; rfl, Or.inr rfl⟩, ?_, ?_, ?_, ?_, ?_⟩
        · intro i g hg hi
          exact hfull g (List.mem_of_getElem? hg)
        · rw [← hl]; exact h.ids8
        · rw [← hl]; exact h.offs
        · rw [← hl]; exact fun l hl => (h.recs l hl).wf
        · refine ⟨G'.mapIdx (encFile 1), rfl, ?_⟩
          intro i f hf
          have hi : i < G'.length := by
            have := (List.getElem?_eq_some_iff.1 hf).1
            simpa using this
          rw [List.getElem?_mapIdx] at hf
          simp only [h2.ifiles]
          rw [h.irep.get, List.getElem?_append_left hi]
          exact hf
      refine ⟨h2.mode, ?_, h.recs⟩
      intro u k hk
      have hat : slotAt (G' ++ [[]]) k = slotAt G' k := by unfold slotAt; rw [hl]
      rw [hat]
      refine hlook.seqGet u k ?_
      unfold Near at hk ⊢
      rw [hl] at hk
      exact hk
  · intro _
    exact hinv ⟨[(0, 0)], by rw [h4, startsNE_full 0 0 G hall]; rfl, Or.inr rfl⟩
  · intro hlast
    obtain ⟨G', g, rfl⟩ := exists_concat h.ne
    have hg : g = [] := by
      apply Classical.byContradiction
      intro hg
      apply hall
      intro x hx
      rcases List.mem_append.1 hx with hx | hx
      · obtain ⟨j, hj, he⟩ := List.getElem_of_mem hx
        refine h.full j x ?_ (by simp; omega)
        rw [List.getElem?_append_left hj, List.getElem?_eq_getElem hj, he]
      · rw [List.mem_singleton.1 hx]; exact hg
    subst hg
    have hf := hcore.irep.fileLen h.ne s'.indexid h3
    simp only [] at hf hlast
    rcases hlast with hl | hl
    · have : G' = [] := by
        simp at h3
        exact List.length_eq_zero_iff.1 (by omega)
      subst this
      exact hinv ⟨[], by rw [h4]; simp [startsNE, startsFrom], Or.inl rfl⟩
    · rw [hf] at hl
      simp [logEnd, isize] at hl

/-! ### DEL -/

theorem slot_flag {s : Store} {G : Log} (h : SInv s G) {k : Bytes} {l : Loc} (hl : slotGet G k = some l) :
    l.r.item.flags = 0 := by
  obtain ⟨-, -, hmem, hlive, -⟩ := h.slot hl
  rcases (h.recs l hmem).flags with h2 | h2
  · exact h2
  · simp [Loc.live, h2, isDeleted] at hlive

/-- The file after a cut rewriting of the flags is the file before it or after the whole rewriting. -/
theorem SInv.flagCut {u : Nat} {s : Store} {G : Log} (h : SInv s G) {k : Bytes}
    {l : Loc} (hk : slotGet G k = some l) (io : Io) :
    (deleteDisk s io (l.sentry u)).1.dfiles = s.dfiles ∧
    ((deleteDisk s io (l.sentry u)).1.ifiles = s.ifiles ∨
     (deleteDisk s io (l.sentry u)).1.ifiles =
       (deleteDisk s { io with iflag := none } (l.sentry u)).1.ifiles) := by
  have hmem := slotGet_mem hk
  obtain ⟨f, hf1, hf2⟩ := h.toCore.readItem hmem
  have hfl := slot_flag h hk
  have hset : setItemFlags (encItem l.r.item) (setDeleted l.r.item.flags) =
      encItem { l.r.item with flags := setDeleted l.r.item.flags } := setItemFlags_encItem _ _
  cases hio : io.iflag with
  | none =>
    have : ({ io with iflag := none } : Io) = io := by cases io; simp_all
    rw [this]
    refine ⟨?_, Or.inr rfl⟩
    simp only [deleteDisk, Loc.sentry, Loc.entry, hf1, hf2, hio, WriteFault.ok, Option.isNone_none, if_true]
  | some n =>
    have e1 : (deleteDisk s io (l.sentry u)).1 =
        { s with ifiles := writeFileAt s.ifiles l.file l.off
                   ((encItem { l.r.item with flags := setDeleted l.r.item.flags }).take n) } := by
      simp only [deleteDisk, Loc.sentry, Loc.entry, hf1, hf2, hio, WriteFault.ok, Option.isNone_some,
        Bool.false_eq_true, if_false, WriteFault.cut, hset]
    have e2 : (deleteDisk s { io with iflag := none } (l.sentry u)).1.ifiles =
        writeFileAt s.ifiles l.file l.off (encItem { l.r.item with flags := setDeleted l.r.item.flags }) := by
      simp only [deleteDisk, Loc.sentry, Loc.entry, hf1, hf2, WriteFault.ok, Option.isNone_none, if_true, hset,
        cut_none]
    rw [e1, e2]
    refine ⟨rfl, ?_⟩
    obtain ⟨pre, post, hp1, hp2⟩ := h.irep.at hmem
    have hlen : (encItem l.r.item).length =
        (encItem { l.r.item with flags := setDeleted l.r.item.flags }).length := by simp
    have hw := pwrite_cut (b' := encItem { l.r.item with flags := setDeleted l.r.item.flags }) rfl hp2.symm hlen n
      (c := post)
    rcases encItem_cut l.r.item (by rw [hfl]; decide) (setDeleted l.r.item.flags) (by rw [hfl]; decide) n with
      hc | hc
    · left
      rw [hc] at hw
      exact modify_same _ hp1 hw
    · right
      rw [hc] at hw
      refine modify_congr _ _ hp1 ?_
      rw [hw, pwrite_at' rfl hp2.symm hlen]

/-- `dataInsert` only appends to the data file. -/
theorem SInv.dataInsert {s : Store} {G : Log} (h : SInv s G) (io : Io) (id p : Bytes) (fl crc ts : Nat)
    (hc : crc = if fl = 0 then crc32 p else 0) :
    SInv (dataInsert s io id p fl crc ts).1 G := by
  by_cases hd : (io.dhdr.ok && io.dpay.ok) = true
  · have hwr := dataInsert_ok (s := s) hd h.dataFile id p fl crc ts hc
    obtain ⟨b, prev, -, hs1⟩ := hwr.eq
    rw [hs1]; exact h.appendData b prev
  · have hd' : (io.dhdr.ok && io.dpay.ok) = false := by simpa using hd
    obtain ⟨-, b, d2⟩ := dataInsert_fail (s := s) hd' id p fl crc ts
    rw [d2]; exact h.appendData b _

/-- DEL either returns at once or writes the mark of deletion and flags the item. -/
theorem seqDel_reach {c : Ctx} {br : Branches} {s : Store} {G : Log} (h : SInv s G)
    (argv : List Bytes) (k : Bytes) (hn : Near G k) :
    (∀ io, ∃ r, cmdDel.body { c with io := io } br s argv k = (br, s, r)) ∨
    (∃ l, slotGet G k = some l ∧ ∀ io,
      let x := Zdb.dataInsert s io (l.sentry c.u).id [] 1 0 (timestampFromSet c.now argv 2)
      (cmdDel.body { c with io := io } br s argv k).2.1 =
        if x.2 = 0 then x.1 else (indexDelete br x.1 c.u io (l.sentry c.u)).2.1) := by
  unfold cmdDel.body
  simp only [h.indexGet _ k hn]
  by_cases hk : k.length > 255
  · left; intro io; rw [if_pos hk]; exact ⟨_, rfl⟩
  simp only [if_neg hk]
  by_cases h1 : (!c.writable) = true
  · left; intro io; rw [if_pos h1]; exact ⟨_, rfl⟩
  simp only [if_neg h1]
  by_cases h2 : c.conf.isFrozen = true
  · left; intro io; rw [if_pos h2]; exact ⟨_, rfl⟩
  simp only [if_neg h2]
  by_cases h3 : c.conf.isLocked = true
  · left; intro io; rw [if_pos h3]; exact ⟨_, rfl⟩
  simp only [if_neg h3]
  cases hg : slotGet G k with
  | none => left; intro io; exact ⟨_, rfl⟩
  | some l =>
    simp only [Option.map_some]
    by_cases h4 : c.conf.worm = true
    · left; intro io; rw [if_pos h4]; exact ⟨_, rfl⟩
    simp only [if_neg h4]
    right
    refine ⟨l, rfl, ?_⟩
    intro io
    generalize Zdb.dataInsert s io (l.sentry c.u).id [] 1 0 (timestampFromSet c.now argv 2) = x
    obtain ⟨s1, off⟩ := x
    simp only
    by_cases h0 : off = 0
    · simp only [if_pos h0]
    · simp only [if_neg h0]
      split <;> rfl

theorem seqDel_left {c : Ctx} {br : Branches} {s : Store} {G : Log} (h : SInv s G)
    (argv : List Bytes) (k : Bytes) (hn : Near G k) (io : Io) :
    ∃ G', SRecov (cmdDel.body { c with io := io } br s argv k).2.1.ifiles
        (cmdDel.body { c with io := io } br s argv k).2.1.dfiles G' ∧
      (absSlots G' = absSlots G ∨ ((absSlots G).get k ≠ none ∧ absSlots G' = (absSlots G).del k)) := by
  rcases seqDel_reach (c := c) (br := br) h argv k hn with hr | ⟨l, hg, hr⟩
  · obtain ⟨r, hr⟩ := hr io
    rw [hr]
    exact ⟨G, h.recov, Or.inl rfl⟩
  have hr := hr io
  simp only at hr
  rw [hr]
  have h1 := h.dataInsert io (l.sentry c.u).id [] 1 0 (timestampFromSet c.now argv 2) rfl
  generalize Zdb.dataInsert s io (l.sentry c.u).id [] 1 0 (timestampFromSet c.now argv 2) = x at h1 ⊢
  obtain ⟨s1, off⟩ := x
  simp only at h1 ⊢
  split
  · exact ⟨G, h1.recov, Or.inl rfl⟩
  have ji : ∀ io, (indexDelete br s1 c.u io (l.sentry c.u)).2.1.ifiles =
      (deleteDisk s1 io (l.sentry c.u)).1.ifiles := by
    intro io
    unfold indexDelete
    simp only
    repeat' split
    all_goals rfl
  have jd : ∀ io, (indexDelete br s1 c.u io (l.sentry c.u)).2.1.dfiles = s1.dfiles := by
    intro io
    rw [← (h1.flagCut (u := c.u) hg io).1]
    unfold indexDelete
    simp only
    repeat' split
    all_goals rfl
  rw [ji, jd]
  rcases (h1.flagCut (u := c.u) hg io).2 with f2 | f2
  · rw [f2]; exact ⟨G, h1.recov, Or.inl rfl⟩
  · obtain ⟨G', i1, i2, i3, i4, -⟩ := h1.delete br c.u { io with iflag := none } rfl hg
    refine ⟨G', ?_, Or.inr ⟨by rw [absSlots_get, hg]; simp, i4⟩⟩
    have := i3.recov
    rw [ji, jd] at this
    rw [f2]; exact this

/-! ### SET -/

/-- The copy of a record that an update appends. -/
def copyOf (s : Store) (l : Loc) : Rec := ⟨{ l.r.item with previous := s.iprev, flags := 1 }, l.r.payload⟩

/-- After the copy is appended. -/
theorem SInv.copied {s : Store} {G : Log} (h : SInv s G) {k : Bytes} {l : Loc} (hk : slotGet G k = some l)
    (hend : logEnd G < 2 ^ 32)
    (hb : ∀ (g : List Rec) (f : Bytes), G[s.indexid]? = some g → s.dfiles[s.indexid]? = some f →
      19 * (isize g + (34 + k.length)) ≤ 35 * (f.length - 28))
    (hfew : 18 * ((locs G).length + 1) ≤ (s.dfiles.map List.length).sum) :
    SInv { s with iprev := logEnd G, ifiles := appendFile s.ifiles s.indexid (encItem (copyOf s l).item), nextentry := s.nextentry + 1 } (logAppend G (copyOf s l)) ∧
      absSlots (logAppend G (copyOf s l)) = absSlots G ++ [none] := by
  obtain ⟨hk8, hget, hmem, hlive, hlid, hlt⟩ := h.slot hk
  have hne := h.ne
  have hix : G.length - 1 = s.indexid := by have := h.iid; omega
  have hrl := h.recs l hmem
  have hwf := hrl.wf
  have hcok : RecOK s.dfiles l.r.item.dataid (copyOf s l) := by
    constructor
    · simp only [Item.WF, copyOf] at hwf ⊢
      exact ⟨hwf.1, hwf.2.1, hwf.2.2.1, hwf.2.2.2.1, h.iprev_lt, by decide, hwf.2.2.2.2.2.2⟩
    · exact hrl.len
    · exact hrl.crc
    · right; rfl
    · exact hrl.data
  have hcid : (copyOf s l).item.id = k := hlid
  have hcore1 := h.toCore.appendItem (copyOf s l) hend rfl hcok (by rw [hcid]; exact hb)
  have hlocs1 := locs_append hne (copyOf s l)
  rw [hix] at hlocs1
  have hdead : ∀ a b, Loc.live ⟨a, b, copyOf s l⟩ = false := by
    intro a b; simp [Loc.live, copyOf, isDeleted]
  refine ⟨{ (hcore1.congr rfl rfl rfl rfl rfl) with mode := h.mode, ids8 := ?_, own := ?_, map := ?_, full := full_append hne _ h.full, next := ?_, entries := ?_, size := ?_, total := h.total, few := ?_, chain := ?_ }, ?_⟩
  · rw [hlocs1]
    intro x hx
    simp only [List.mem_append, List.mem_singleton] at hx
    rcases hx with hx | rfl
    · exact h.ids8 x hx
    · exact h.ids8 l hmem
  · rw [hlocs1]
    refine own_append (G := G) h.own ?_
    intro hd
    rw [hdead] at hd
    cases hd
  · rw [startsFrom_logAppend hne]; exact h.map
  · rw [hlocs1]; simp [h.next]
  · rw [live, hlocs1]; simp [hdead, List.filter_append]; exact h.entries
  · rw [live, hlocs1]; simp [hdead, List.filter_append]; exact h.size
  · rw [hlocs1]; simpa using hfew
  · rw [hlocs1]
    have key : ∀ x ∈ locs G, parentOf x = (0, 0) ∨ ∃ m ∈ locs G ++ [⟨s.indexid, logEnd G, copyOf s l⟩],
        m.pos = parentOf x ∧ m.id = x.id ∧ m.live = false ∧ PLt (parentOf m) m.pos := by
      intro x hx
      rcases h.chain x hx with hc | ⟨m, hm, hc⟩
      · exact Or.inl hc
      · exact Or.inr ⟨m, by simp [hm], hc⟩
    intro x hx
    simp only [List.mem_append, List.mem_singleton] at hx
    rcases hx with hx | rfl
    · exact key x hx
    · exact key l hmem
  · rw [absSlots_append h (copyOf s l) (h.parent_end hmem)]
    rfl

theorem SInv.copyEntry {s : Store} {G : Log} (h : SInv s G) {k : Bytes} {l : Loc} (hk : slotGet G k = some l)
    (hend : logEnd G < 2 ^ 32) (u : Nat) (io : Io) (hio : io.iapp = none) :
    (appendEntry s io { l.sentry u with flags := setDeleted (l.sentry u).flags }).1 =
      { s with iprev := logEnd G, ifiles := appendFile s.ifiles s.indexid (encItem (copyOf s l).item) } := by
  have hfl := h.irep.fileLen h.ne s.indexid h.iid
  have hflag := slot_flag h hk
  have hwf := (h.recs l (slotGet_mem hk)).wf
  simp only [appendEntry, hfl, Nat.mod_eq_of_lt hend, hio, WriteFault.ok, Option.isNone_none, if_true,
    cut_none]
  have : itemOf s.iprev { l.sentry u with flags := setDeleted (l.sentry u).flags, idxoffset := logEnd G, indexid := s.indexid } = (copyOf s l).item := by
    simp only [itemOf, Loc.sentry, Loc.entry, hflag, copyOf]
    have := hwf.1
    rw [← this]
    rfl
  rw [this]

theorem appendEntry_dfiles (s : Store) (io : Io) (e : Entry) : (appendEntry s io e).1.dfiles = s.dfiles := by
  unfold appendEntry
  dsimp only
  split <;> rfl

theorem appendEntry_congr (s : Store) {io io' : Io} (e : Entry) (h : io.iapp = io'.iapp) :
    appendEntry s io e = appendEntry s io' e := by
  simp only [appendEntry, h]

theorem seqOverwrite_congr (s : Store) {io io' : Io} (e : Entry) (h : io.iover = io'.iover) :
    seqOverwrite s io e = seqOverwrite s io' e := by
  simp only [seqOverwrite, overwriteItem, h]

theorem dataInsert_congr (s : Store) {io io' : Io} (id p : Bytes) (fl crc ts : Nat) (h : io.dhdr = io'.dhdr)
    (h' : io.dpay = io'.dpay) : dataInsert s io id p fl crc ts = dataInsert s io' id p fl crc ts := by
  simp only [dataInsert, h, h']

theorem overwriteItem_dfiles (s : Store) (io : Io) (e : Entry) (fid off : Nat) :
    (overwriteItem s io e fid off).dfiles = s.dfiles := by
  unfold overwriteItem
  cases s.ifiles[fid]? with
  | none => rfl
  | some f =>
    simp only
    cases readExact f off itemHdr with
    | none => rfl
    | some b => simp only; split <;> rfl

theorem seqOverwrite_dfiles (s : Store) (io : Io) (e : Entry) : (seqOverwrite s io e).dfiles = s.dfiles := by
  unfold seqOverwrite
  cases s.seqmap with
  | none => rfl
  | some m =>
    simp only
    cases seqSearch m (fromLE e.id) with
    | none => rfl
    | some x => simp only; exact overwriteItem_dfiles _ _ _ _ _

/-- No byte of the new item is written. -/
theorem overwriteItem_none (s : Store) (io : Io) (e : Entry) (fid off : Nat) (h : io.iover = some 0) :
    (overwriteItem s io e fid off).ifiles = s.ifiles := by
  unfold overwriteItem
  cases hf : s.ifiles[fid]? with
  | none => rfl
  | some f =>
    simp only
    cases hr : readExact f off itemHdr with
    | none => rfl
    | some b =>
      simp only [h, WriteFault.ok, WriteFault.cut, Option.isNone_some, Bool.false_eq_true, if_false,
        List.take_zero]
      refine modify_same _ hf (pwrite_nil _ _ ?_)
      unfold readExact at hr
      simp only at hr
      split at hr
      · rename_i hl
        simp [pread, itemHdr] at hl
        omega
      · cases hr

/-- All the bytes of the new item are written. -/
theorem overwriteItem_whole (s : Store) (io : Io) (e : Entry) (fid off n : Nat) (h : io.iover = some n)
    (hn : 34 + e.id.length ≤ n) :
    (overwriteItem s io e fid off).ifiles = (overwriteItem s { io with iover := none } e fid off).ifiles := by
  have hcut : ∀ it : Item, it.id.length ≤ e.id.length → (encItem it).take n = encItem it := by
    intro it hi
    apply List.take_of_length_le
    simp; omega
  unfold overwriteItem
  cases hf : s.ifiles[fid]? with
  | none => rfl
  | some f =>
    simp only
    cases hr : readExact f off itemHdr with
    | none => rfl
    | some b =>
      simp only [h, WriteFault.ok, WriteFault.cut, Option.isNone_some, Option.isNone_none, Bool.false_eq_true,
        if_false, if_true]
      rw [hcut _ (by simp [itemOf])]

theorem seqOverwrite_none (s : Store) (io : Io) (e : Entry) (h : io.iover = some 0) :
    (seqOverwrite s io e).ifiles = s.ifiles := by
  unfold seqOverwrite
  cases s.seqmap with
  | none => rfl
  | some m =>
    simp only
    cases seqSearch m (fromLE e.id) with
    | none => rfl
    | some x => simp only; exact overwriteItem_none _ _ _ _ _ h

theorem seqOverwrite_whole (s : Store) (io : Io) (e : Entry) (n : Nat) (h : io.iover = some n)
    (hn : 34 + e.id.length ≤ n) :
    (seqOverwrite s io e).ifiles = (seqOverwrite s { io with iover := none } e).ifiles := by
  unfold seqOverwrite
  cases s.seqmap with
  | none => rfl
  | some m =>
    simp only
    cases seqSearch m (fromLE e.id) with
    | none => rfl
    | some x => simp only; exact overwriteItem_whole _ _ _ _ _ _ h hn

theorem insertSeq_files (s : Store) (u : Nat) (io : Io) (r : SetReq) :
    (insertSeq s u io r).1.ifiles = (appendEntry s io (r.entry u)).1.ifiles ∧
    (insertSeq s u io r).1.dfiles = s.dfiles := by
  have := appendEntry_dfiles s io (r.entry u)
  unfold insertSeq
  generalize appendEntry s io (r.entry u) = x at this ⊢
  obtain ⟨a, b, c⟩ := x
  simp only at this ⊢
  split <;> exact ⟨rfl, this⟩

theorem updateSeq_dfiles (s : Store) (u : Nat) (io : Io) (r : SetReq) (ex : Entry) :
    (updateSeq s u io r ex).1.dfiles = s.dfiles := by
  have := appendEntry_dfiles s io { ex with flags := setDeleted ex.flags }
  unfold updateSeq
  generalize appendEntry s io { ex with flags := setDeleted ex.flags } = x at this ⊢
  obtain ⟨a, b, c⟩ := x
  simp only at this ⊢
  split
  · simp only [seqOverwrite_dfiles, this]
  · exact this

/-- How the writes to the index end: nothing, or all of the appended item and nothing more, or all of it and
    nothing or all of the overwritten one. -/
def IoWholeSeq (io : Io) : Prop :=
  io.iapp = some 0 ∨ (∃ n, io.iapp = some n ∧ 42 ≤ n) ∨
  (io.iapp = none ∧ (io.iover = none ∨ io.iover = some 0 ∨ ∃ n, io.iover = some n ∧ 42 ≤ n))

theorem setHandlerSeq_left {c : Ctx} (br : Branches) {s : Store} {G : Log} (h : SInv s G) (k p : Bytes) (ts : Nat)
    (hfl : Zdb.fileLen s.dfiles s.dataid ≤ 2 ^ 31) (io : Io) (hio : IoWholeSeq io) (X : Slots)
    (hX : ∃ G', SInv (setHandlerSeq { c with io := {} } br s k p ts ((slotGet G k).map (Loc.sentry c.u))).2.1 G' ∧
      absSlots G' = X) :
    ∃ G', SRecov (setHandlerSeq { c with io := io } br s k p ts ((slotGet G k).map (Loc.sentry c.u))).2.1.ifiles
        (setHandlerSeq { c with io := io } br s k p ts ((slotGet G k).map (Loc.sentry c.u))).2.1.dfiles G' ∧
      (absSlots G' = absSlots G ∨ absSlots G' = absSlots G ++ [none] ∨ absSlots G' = X) := by
  unfold setHandlerSeq at hX ⊢
  by_cases h1 : k.length ≠ 0 ∧ ((slotGet G k).map (Loc.sentry c.u)).isNone = true
  · rw [if_pos h1]; exact ⟨G, h.recov, Or.inl rfl⟩
  rw [if_neg h1] at hX ⊢
  by_cases h2 : upToDate s ((slotGet G k).map (Loc.sentry c.u)) p = true
  · simp only [h2, if_true]; exact ⟨G, h.recov, Or.inl rfl⟩
  simp only [h2, Bool.false_eq_true, if_false] at hX ⊢
  by_cases hw' : (io.dhdr.ok && io.dpay.ok) = false
  · obtain ⟨d1, -⟩ := dataInsert_fail (s := s) hw' (seqIdOf s ((slotGet G k).map (Loc.sentry c.u))) p 0 (crc32 p) ts
    simp only [d1, if_true]
    exact ⟨G, (h.dataInsert io _ p 0 (crc32 p) ts rfl).recov, Or.inl rfl⟩
  have hw : (io.dhdr.ok && io.dpay.ok) = true := by simpa using hw'
  have hcong : Zdb.dataInsert s io (seqIdOf s ((slotGet G k).map (Loc.sentry c.u))) p 0 (crc32 p) ts =
      Zdb.dataInsert s {} (seqIdOf s ((slotGet G k).map (Loc.sentry c.u))) p 0 (crc32 p) ts := by
    apply dataInsert_congr
    · simp [WriteFault.ok] at hw; rw [hw.1]
    · simp [WriteFault.ok] at hw; rw [hw.2]
  have hid8 : (seqIdOf s ((slotGet G k).map (Loc.sentry c.u))).length = 8 := by
    cases hg : slotGet G k with
    | none => simp [seqIdOf]
    | some l =>
      have := (h.slot hg).2.2.2.2.1
      have hk8 := (h.slot hg).1
      have e : (l.sentry c.u).id = k := this
      simp [seqIdOf, e, hk8]
  obtain ⟨s1, off, hdi, hoff0, hoff, i1, hnn, hdd, hdata, hend, hsl, htot, hfew⟩ :=
    h.stored hfl {} p ts _ hid8 rfl
  rw [hcong]
  rw [hdi] at hX ⊢
  simp only [if_neg hoff0] at hX ⊢
  cases hg : slotGet G k with
  | none =>
    simp only [hg, Option.map_none] at hX hid8 ⊢
    generalize hr : (⟨seqIdOf s none, off, p.length, crc32 p, s1.dataid, ts⟩ : SetReq) = r at hX ⊢
    have hrid : (r.entry c.u).id.length = 8 := by rw [← hr]; exact hid8
    obtain ⟨f1, f2⟩ := insertSeq_files s1 c.u io r
    have hfi : ∀ io, (if (insertSeq s1 c.u io r).2 = true then (br, (insertSeq s1 c.u io r).1, Reply.bulk (seqIdOf s none))
        else (br, (insertSeq s1 c.u io r).1, Reply.err "Cannot write index right now")).2.1 =
        (insertSeq s1 c.u io r).1 := by intro io; split <;> rfl
    rw [hfi] at hX ⊢
    have done : (appendEntry s1 io (r.entry c.u)).1.ifiles = (appendEntry s1 {} (r.entry c.u)).1.ifiles →
        ∃ G', SRecov (insertSeq s1 c.u io r).1.ifiles (insertSeq s1 c.u io r).1.dfiles G' ∧
        (absSlots G' = absSlots G ∨ absSlots G' = absSlots G ++ [none] ∨ absSlots G' = X) := by
      intro he
      obtain ⟨G', g1, g2⟩ := hX
      refine ⟨G', ?_, Or.inr (Or.inr g2)⟩
      have := g1.recov
      rw [(insertSeq_files s1 c.u {} r).1, (insertSeq_files s1 c.u {} r).2] at this
      rw [f1, f2, he]
      exact this
    rcases hio with hio | ⟨n, hio, hn⟩ | ⟨hio, -⟩
    · refine ⟨G, ?_, Or.inl rfl⟩
      rw [f1, f2, (appendEntry_none s1 io _ hio).1]
      exact i1.recov
    · apply done
      rw [appendEntry_whole s1 io _ n hio (by rw [hrid]; exact hn)]
      rw [appendEntry_congr s1 (io := { io with iapp := none }) (io' := {}) _ rfl]
    · apply done
      rw [appendEntry_congr s1 (io' := {}) _ hio]
  | some l =>
    have hidk : seqIdOf s ((slotGet G k).map (Loc.sentry c.u)) = k := by
      rw [hg]
      have e : (l.sentry c.u).id = k := (h.slot hg).2.2.2.2.1
      simp only [Option.map_some, seqIdOf, e, (h.slot hg).1]
      simp
    rw [hidk] at hsl hid8
    simp only [hg, Option.map_some] at hX hidk ⊢
    simp only [hidk] at hX ⊢
    generalize hr : (⟨k, off, p.length, crc32 p, s1.dataid, ts⟩ : SetReq) = r at hX ⊢
    have hrid : (r.entry c.u).id.length = 8 := by rw [← hr]; exact hid8
    have hlid : (l.sentry c.u).id.length = 8 := by
      have e : (l.sentry c.u).id = k := (h.slot hg).2.2.2.2.1
      rw [e]; exact hid8
    have hfi : ∀ io, (if (updateSeq s1 c.u io r (l.sentry c.u)).2 = true then
          (br, (updateSeq s1 c.u io r (l.sentry c.u)).1, Reply.bulk k)
        else (br, (updateSeq s1 c.u io r (l.sentry c.u)).1, Reply.err "Cannot write index right now")).2.1 =
        (updateSeq s1 c.u io r (l.sentry c.u)).1 := by intro io; split <;> rfl
    rw [hfi] at hX ⊢
    rw [updateSeq_dfiles]
    obtain ⟨c1, c2⟩ := i1.copied hg hend hsl hfew
    have hcopy := i1.copyEntry hg hend c.u {} rfl
    have copied : (updateSeq s1 c.u io r (l.sentry c.u)).1.ifiles =
          appendFile s1.ifiles s1.indexid (encItem (copyOf s1 l).item) →
        ∃ G', SRecov (updateSeq s1 c.u io r (l.sentry c.u)).1.ifiles s1.dfiles G' ∧
        (absSlots G' = absSlots G ∨ absSlots G' = absSlots G ++ [none] ∨ absSlots G' = X) := by
      intro he
      refine ⟨_, ?_, Or.inr (Or.inl c2)⟩
      rw [he]
      exact c1.recov
    have done : (updateSeq s1 c.u io r (l.sentry c.u)).1.ifiles = (updateSeq s1 c.u {} r (l.sentry c.u)).1.ifiles →
        ∃ G', SRecov (updateSeq s1 c.u io r (l.sentry c.u)).1.ifiles s1.dfiles G' ∧
        (absSlots G' = absSlots G ∨ absSlots G' = absSlots G ++ [none] ∨ absSlots G' = X) := by
      intro he
      obtain ⟨G', g1, g2⟩ := hX
      refine ⟨G', ?_, Or.inr (Or.inr g2)⟩
      have := g1.recov
      rw [updateSeq_dfiles] at this
      rw [he]; exact this
    have hfail : ∀ n, io.iapp = some n → (updateSeq s1 c.u io r (l.sentry c.u)).1 =
        (appendEntry s1 io { l.sentry c.u with flags := setDeleted (l.sentry c.u).flags }).1 := by
      intro n hn
      simp [updateSeq, appendEntry, hn, WriteFault.ok]
    rcases hio with hio | ⟨n, hio, hn⟩ | ⟨hio, hov⟩
    · refine ⟨G, ?_, Or.inl rfl⟩
      rw [hfail _ hio, (appendEntry_none s1 io _ hio).1]
      exact i1.recov
    · apply copied
      rw [hfail _ hio, appendEntry_whole s1 io _ n hio (by exact hlid ▸ hn)]
      rw [i1.copyEntry hg hend c.u { io with iapp := none } rfl]
    · have hok : ∀ io' : Io, io'.iapp = none → (updateSeq s1 c.u io' r (l.sentry c.u)).1.ifiles =
          (seqOverwrite (appendEntry s1 {} { l.sentry c.u with flags := setDeleted (l.sentry c.u).flags }).1 io'
            { r.entry c.u with parentid := s1.indexid, parentoff := Zdb.fileLen s1.ifiles s1.indexid % 2 ^ 32 }).ifiles := by
        intro io' hio'
        simp [updateSeq, appendEntry, hio', WriteFault.ok]
      rcases hov with hov | hov | ⟨n, hov, hn⟩
      · apply done
        rw [hok io hio, hok {} rfl, seqOverwrite_congr _ (io' := {}) _ hov]
      · apply copied
        rw [hok io hio, seqOverwrite_none _ _ _ hov, hcopy]
      · apply done
        rw [hok io hio, hok {} rfl, seqOverwrite_whole _ _ _ n hov (by exact hrid ▸ hn)]
        rw [seqOverwrite_congr _ (io := { io with iover := none }) (io' := {}) _ rfl]

/-- SET either returns at once or reaches the handler. -/
theorem seqSet_reach {c : Ctx} {br : Branches} {s : Store} {G : Log} (h : SInv s G)
    (argv : List Bytes) (k p : Bytes) (hn : Near G k) :
    (∀ io, ∃ r, cmdSet.body { c with io := io } br s argv k p = (br, s, r)) ∨
    (∀ io, cmdSet.body { c with io := io } br s argv k p =
      setHandlerSeq { c with io := io } br (jumpIfFull c.limit s p.length) k p
        (timestampFromSet c.now argv 3) ((slotGet G k).map (Loc.sentry c.u))) := by
  unfold cmdSet.body
  have hentry : (if k.length ≠ 0 then Zdb.indexGet br s c.u k else none) =
      (slotGet G k).map (Loc.sentry c.u) := by
    by_cases h0 : k.length = 0
    · rw [List.length_eq_zero_iff.1 h0]; simp [slotGet_nil]
    · rw [if_pos h0, h.indexGet c.u k hn]
  simp only [hentry, h.mode]
  by_cases hk : k.length > 255
  · left; intro io; rw [if_pos hk]; exact ⟨_, rfl⟩
  simp only [if_neg hk]
  by_cases h1 : (!c.writable) = true
  · left; intro io; rw [if_pos h1]; exact ⟨_, rfl⟩
  simp only [if_neg h1]
  by_cases h2 : c.conf.isFrozen = true
  · left; intro io; rw [if_pos h2]; exact ⟨_, rfl⟩
  simp only [if_neg h2]
  by_cases h3 : c.conf.isLocked = true
  · left; intro io; rw [if_pos h3]; exact ⟨_, rfl⟩
  simp only [if_neg h3]
  by_cases h4 : (((slotGet G k).map (Loc.sentry c.u)).isSome && c.conf.worm) = true
  · left; intro io; rw [if_pos h4]; exact ⟨_, rfl⟩
  simp only [if_neg h4]
  by_cases h5 : overQuota c.conf s.datasize p.length (floatingOf ((slotGet G k).map (Loc.sentry c.u))) = true
  · left; intro io; rw [if_pos h5]; exact ⟨_, rfl⟩
  simp only [if_neg h5]
  right
  exact fun _ => trivial

theorem seqSet_left {c : Ctx} {br : Branches} {s : Store} {G : Log} (h : SInv s G) (hc0 : c.io = {})
    (hlim : c.limit ≤ 2 ^ 31) (hcap : s.ifiles.length < 2 ^ 32) (htot : totalData s < 2 ^ 63)
    (hq : c.conf.maxsize < 2 ^ 63) (argv : List Bytes) (k p : Bytes) (hp : p.length < 2 ^ 32) (hn : Near G k)
    (hclean : CleanStep s (cmdSet.body c br s argv k p).2.1) (io : Io) (hio : IoWholeSeq io) :
    ∃ G', SRecov (cmdSet.body { c with io := io } br s argv k p).2.1.ifiles
        (cmdSet.body { c with io := io } br s argv k p).2.1.dfiles G' ∧
      (absSlots G' = absSlots G ∨ absSlots G' = absSlots G ++ [none] ∨
       absSlots G' = (specSeqSet c.conf c.writable (c.io.dhdr.ok && c.io.dpay.ok) (absSlots G) k p
          (timestampFromSet c.now argv 3)).1) := by
  rcases seqSet_reach (c := c) (br := br) h argv k p hn with hr | hr
  · obtain ⟨r, hr⟩ := hr io
    rw [hr]
    exact ⟨G, h.recov, Or.inl rfl⟩
  have hcc : ({ c with io := {} } : Ctx) = c := by rw [← hc0]
  obtain ⟨G2, -, x1, x2⟩ := seqSet_body_spec br h (by rw [hc0]) (by rw [hc0]) hlim hcap htot hq argv k p hp hn hclean
  have x2' := (Prod.ext_iff.1 x2).1
  simp only at x2'
  obtain ⟨G1, j1, j2, j3, j4, j5⟩ := seqJumpIfFull_spec h hcap c.limit p.length hlim (by
    rcases hclean with hc | hc
    · left
      rw [← hc, ← hcc, hr {}, setHandlerSeq_indexid]
    · exact Or.inr hc)
  have hr0 := hr {}
  rw [hcc] at hr0
  have := setHandlerSeq_left (c := c) br j1 k p (timestampFromSet c.now argv 3) j5 io hio (absSlots G2) (by
    refine ⟨G2, ?_, rfl⟩
    rw [j3, hcc, ← hr0]; exact x1)
  rw [j2, j3, x2'] at this
  rw [hr io]
  exact this

/-- What a command during which the process died may have done to the slots. -/
def SLeft (c : Ctx) (m : Slots) (d : DsCmd) (argv : List Bytes) (m' : Slots) : Prop :=
  m' = m ∨ (d = .set ∧ m' = m ++ [none]) ∨ (d = .set ∧ m' = (specSeqCmd c m d argv).1) ∨
    (d = .del ∧ ∃ k, argv[1]? = some k ∧ m.get k ≠ none ∧ m' = m.del k)

theorem deathIo_wholeSeq (p : Death) (hw : p.wholeSeq) : IoWholeSeq (deathIo p) := by
  cases p with
  | itemApp m =>
    rcases hw with rfl | hw
    · left; rfl
    · right; left; exact ⟨m, rfl, hw⟩
  | itemOver m =>
    right; right
    rcases hw with rfl | hw
    · exact ⟨rfl, Or.inr (Or.inl rfl)⟩
    · exact ⟨rfl, Or.inr (Or.inr ⟨m, rfl, hw⟩)⟩
  | _ => left; rfl

theorem nearStore {s : Store} {G : Log} (h : SInv s G) {e : NsEvent} (hn : NearStore s e) :
    NearEvent (absSlots G) e := by
  have hl : (List.replicate s.nextentry (none : Option Val)).length = (absSlots G).length := by
    rw [List.length_replicate, h.next, absSlots_length]
  have key : ∀ k, NearKey (List.replicate s.nextentry none) k → NearKey (absSlots G) k := by
    intro k hk
    unfold NearKey at hk ⊢
    rw [hl] at hk
    exact hk
  unfold NearStore at hn
  cases e with
  | cmd c d argv =>
    cases d <;> exact fun k hk => key k (hn k hk)
  | foreign => trivial
  | reload => trivial

/-- What a command with the writes of `deathIo` leaves. -/
theorem SInv.cut {c : Ctx} {br : Branches} {s : Store} {G : Log} (h : SInv s G) {d : DsCmd}
    {argv : List Bytes} {p : Death} (hok : DiedSeqOK c br s d argv p)
    (hroom : Room s.ifiles.length (totalData s) 1) :
    ∃ G', SRecov (dsCommand { c with io := deathIo p } br s d argv).2.1.ifiles
        (dsCommand { c with io := deathIo p } br s d argv).2.1.dfiles G' ∧
      SLeft c (absSlots G) d argv (absSlots G') := by
  have hcap : s.ifiles.length < 2 ^ 32 := by have := hroom.1; omega
  have htot : totalData s < 2 ^ 63 := by have := hroom.2; omega
  have same : ∃ G', SRecov s.ifiles s.dfiles G' ∧ SLeft c (absSlots G) d argv (absSlots G') :=
    ⟨G, h.recov, Or.inl rfl⟩
  have hnear := nearStore h hok.near
  have hclean := hok.clean
  cases d with
  | set =>
    have key : ∀ n k v rest, argv = n :: k :: v :: rest →
        CleanStep s (cmdSet.body c br s argv k v).2.1 →
        (specSeqCmd c (absSlots G) .set argv).1 = (specSeqSet c.conf c.writable (c.io.dhdr.ok && c.io.dpay.ok)
          (absSlots G) k v (timestampFromSet c.now argv 3)).1 →
        ∃ G', SRecov (cmdSet.body { c with io := deathIo p } br s argv k v).2.1.ifiles
          (cmdSet.body { c with io := deathIo p } br s argv k v).2.1.dfiles G' ∧
          SLeft c (absSlots G) .set argv (absSlots G') := by
      intro n k v rest ha hcl hsp
      have hl := hok.args.size v (by rw [ha]; simp)
      obtain ⟨G', h1, h2⟩ := seqSet_left h hok.io hok.limit hcap htot hok.quota argv k v (by omega)
        (near_iff.1 (hnear k (by rw [ha]; rfl))) hcl (deathIo p) (deathIo_wholeSeq p hok.whole)
      refine ⟨G', h1, ?_⟩
      rcases h2 with h2 | h2 | h2
      · exact Or.inl h2
      · exact Or.inr (Or.inl ⟨rfl, h2⟩)
      · exact Or.inr (Or.inr (Or.inl ⟨rfl, by rw [hsp]; exact h2⟩))
    match argv, key, same, hclean with
    | [n, k, v], key, _, hclean => exact key n k v [] rfl hclean rfl
    | [n, k, v, t], key, same, hclean =>
      simp only [dsCommand, cmdSet] at hclean ⊢
      by_cases had : c.admin = true
      · simp only [had, if_true] at hclean ⊢
        exact key n k v [t] rfl hclean (by simp only [specSeqCmd, had, if_true]; rfl)
      · simp only [had]; exact same
    | [], _, same, _ => exact same
    | [_], _, same, _ => exact same
    | [_, _], _, same, _ => exact same
    | _ :: _ :: _ :: _ :: _ :: _, _, same, _ => exact same
  | del =>
    have key : ∀ k, argv[1]? = some k → ∃ G', SRecov (cmdDel.body { c with io := deathIo p } br s argv k).2.1.ifiles
        (cmdDel.body { c with io := deathIo p } br s argv k).2.1.dfiles G' ∧
        SLeft c (absSlots G) .del argv (absSlots G') := by
      intro k ha
      obtain ⟨G', h1, h2⟩ := seqDel_left (c := c) (br := br) h argv k (near_iff.1 (hnear k ha)) (deathIo p)
      refine ⟨G', h1, ?_⟩
      rcases h2 with h2 | h2
      · exact Or.inl h2
      · exact Or.inr (Or.inr (Or.inr ⟨rfl, k, ha, h2.1, h2.2⟩))
    match argv, key, same with
    | [n, k], key, same =>
      simp only [dsCommand, cmdDel]
      split
      · exact same
      · exact key k rfl
    | [n, k, t], key, same =>
      simp only [dsCommand, cmdDel]
      split
      · exact key k rfl
      · exact same
    | [], _, same => exact same
    | [_], _, same => exact same
    | _ :: _ :: _ :: _ :: _, _, same => exact same
  | nsjump =>
    simp only [dsCommand, cmdNsjump] at hclean ⊢
    by_cases had : c.admin = true
    · simp only [had, if_true] at hclean ⊢
      have hlen := h.irep.length
      have hcj := h.toCore.jump (by rw [h.mode]; rfl) (by omega)
      have hit : 29 < logEnd G := by
        rcases hclean with hc' | hc'
        · have h1 := hcj.1.iid
          have h2 := h.iid
          have : (logJump G).length = G.length + 1 := by simp [logJump]
          omega
        · rw [h.fileLen] at hc'; exact hc'
      exact ⟨logJump G, (h.jump (by omega) hit).recov, Or.inl (absSlots_jump G)⟩
    · simp only [had]; exact same
  | index =>
    simp only [dsCommand]
    rcases cmdIndex_cases { c with io := deathIo p } s argv with h' | h' <;> rw [h'] <;> exact same
  | _ => exact same

/-- The files left by a dead process are those of some log, and its slots are ones the command may leave. -/
theorem SInv.died {c : Ctx} {br : Branches} {s : Store} {G : Log} (h : SInv s G) {d : DsCmd}
    {argv : List Bytes} {p : Death} (hok : DiedSeqOK c br s d argv p)
    (hroom : Room s.ifiles.length (totalData s) 1) :
    ∃ G', SRecov (deathFiles c br s d argv p).1 (deathFiles c br s d argv p).2 G' ∧
      SLeft c (absSlots G) d argv (absSlots G') := by
  have same : ∃ G', SRecov s.ifiles s.dfiles G' ∧ SLeft c (absSlots G) d argv (absSlots G') :=
    ⟨G, h.recov, Or.inl rfl⟩
  have hlen := h.irep.length
  have hcap : G.length < 2 ^ 32 := by have := hroom.1; omega
  have hid : (s.indexid + 1) % 2 ^ 32 = G.length := by rw [h.iid, Nat.mod_eq_of_lt hcap]
  obtain ⟨-, jd, ji, jx⟩ := h.toCore.jump (by rw [h.mode]; rfl) hcap
  have hm : s.mode.byte = 1 := by rw [h.mode]; rfl
  have jumped : ∀ fd, ((dsCommand c br s d argv).2.1.indexid != s.indexid) = true →
      dataInitialize fd G.length = (Zdb.jump s).dfiles →
      ∃ G', SRecov (Zdb.jump s).ifiles fd G' ∧ SLeft c (absSlots G) d argv (absSlots G') := by
    intro fd hj hfd
    have hit : 29 < logEnd G := by
      rcases hok.clean with hc' | hc'
      · rw [hc'] at hj; simp at hj
      · rw [h.fileLen] at hc'; exact hc'
    refine ⟨logJump G, ⟨Zdb.jump s, h.jump hcap hit, rfl, by rw [jx]; exact hfd⟩, ?_⟩
    rw [absSlots_jump]; exact Or.inl rfl
  cases p with
  | start => exact same
  | jumpIndex n =>
    simp only [deathFiles]
    split
    · rename_i hj
      rw [hid, hm]
      have hc : indexCreateCut s.ifiles G.length 1 n = (Zdb.jump s).ifiles := by
        have hw := hok.whole
        simp only [Death.wholeSeq] at hw
        rw [ji, indexCreateCut]
        rw [if_neg (by omega), List.take_of_length_le (by simp; omega)]
      rw [hc]
      apply jumped _ hj
      rw [jd, dataInitialize]
      rw [if_neg (by rw [h.dlen]; omega)]
    · exact same
  | jumpData n =>
    simp only [deathFiles]
    split
    · rename_i hj
      rw [hid, hm]
      have hc : indexCreate s.ifiles G.length 1 = (Zdb.jump s).ifiles := by
        rw [ji, indexCreate]
        rw [if_neg (by omega)]
      rw [hc]
      apply jumped _ hj
      have hdl := h.dlen
      rw [jd, dataInitializeCut]
      rw [if_neg (by rw [h.dlen]; omega), dataInitialize]
      rw [if_pos (by simp; omega), writeFileAt]
      apply List.ext_getElem?
      intro j
      rw [List.getElem?_modify]
      rcases Nat.lt_trichotomy j s.dfiles.length with hj | hj | hj
      · have hne : ¬ G.length = j := by omega
        rw [List.getElem?_append_left hj, List.getElem?_append_left hj]; simp [hne]
      · subst hj
        have he : G.length = s.dfiles.length := by omega
        simp [pwrite_take, he]
      · rw [List.getElem?_eq_none (by simp; omega), List.getElem?_eq_none (by simp; omega)]; simp
    · exact same
  | dataHdr n => exact h.cut hok hroom
  | dataPay n => exact h.cut hok hroom
  | itemFlag n => exact h.cut hok hroom
  | itemApp n => exact h.cut hok hroom
  | itemOver n => exact h.cut hok hroom

/-! ### executions -/

/-- What one event, or death, does to the slots. -/
def SlotsStep (m : Slots) : LifeEv × Reply → Slots → Prop
  | (.ev e, r), m' => m' = (specSeqEvent m e).1 ∧ ∀ r', (specSeqEvent m e).2 = some r' → r = r'
  | (.died c d argv _, _), m' => SLeft c m d argv m'

inductive SlotsRun : Slots → List (LifeEv × Reply) → Slots → Prop where
  | nil (m : Slots) : SlotsRun m [] m
  | cons {m m1 m2 : Slots} {x : LifeEv × Reply} {tr : List (LifeEv × Reply)} (h1 : SlotsStep m x m1)
      (h2 : SlotsRun m1 tr m2) : SlotsRun m (x :: tr) m2

theorem SRecov.len {fi fd : List Bytes} {G : Log} (h : SRecov fi fd G) : fi.length = G.length := by
  obtain ⟨t, k1, rfl, -⟩ := h
  exact k1.irep.length

theorem SInv.crashRun {cfg : Option Mode} (hcfg : cfg = none ∨ cfg = some .seq) {u : Nat} {br br' : Branches}
    {s s' : Store} {tr : List (LifeEv × Reply)} (hr : SeqCrashRun cfg u br s tr br' s') {G : Log}
    (h : SInv s G) (hroom : Room s.ifiles.length (totalData s) tr.length) :
    ∃ G', SInv s' G' ∧ s'.ifiles.length ≤ s.ifiles.length + tr.length ∧
      totalData s' ≤ totalData s + tr.length * 2 ^ 24 ∧ SlotsRun (absSlots G) tr (absSlots G') := by
  induction hr generalizing G with
  | nil br s => exact ⟨G, h, by simp, by simp, .nil _⟩
  | @ev br br1 br2 s s1 s2 e r tr hok hn h1 h2 ih =>
    simp only [List.length_cons] at hroom
    have hroom1 : Room s.ifiles.length (totalData s) 1 := hroom.mono (by omega)
    have hne := nearStore h hn
    have hev1 : ∀ x ∈ [(e, r)], EvOK x.1 := by
      intro x hx
      rw [List.mem_singleton] at hx
      subst hx; exact hok
    obtain ⟨G1, i1, i2, i3⟩ := SInv.run hcfg h1 h hev1 ⟨hne, trivial⟩ hroom1
    have hf := CleanRun.files hcfg h1 h hev1 ⟨hne, trivial⟩ hroom1
    have ht : totalData s1 ≤ totalData s + 2 ^ 24 := by
      cases h1 with
      | @cmd c d argv _ br1' _ _ s1' _ _ _ hu hc hcl hn =>
        cases hn
        have hg := dsCommand_grows c br s d argv (2 ^ 23) hok.2.size
        rw [hc] at hg
        have := hg.1
        simp only at this
        omega
      | foreign hb hn => cases hn; omega
      | reload hl hcl hn =>
        cases hn
        have hlen := h.irep.length
        have hid := h.iid
        have hfl := h.fileLen
        obtain ⟨t, k1, k2, k3, k4, -⟩ := h.reload br u cfg hcfg (by have := hroom1.1; omega) (by omega)
        rw [hl] at k1
        injection k1 with k1 k1'
        subst k1'
        rw [totalData, k4]; unfold totalData; omega
    simp only [List.length_singleton] at hf
    obtain ⟨G', j1, j2, j3, j4⟩ := ih i1 ⟨by have := hroom.1; omega, by have := hroom.2; omega⟩
    refine ⟨G', j1, ?_, ?_, .cons ⟨?_, i3.1⟩ j4⟩
    · simp only [List.length_cons]; omega
    · simp only [List.length_cons]; omega
    · rw [i2]; rfl
  | @died c d argv p br br0 br1 br2 s s1 s2 tr hu hok h1 hl h2 ih =>
    simp only [List.length_cons] at hroom
    obtain ⟨G1, i1, i2⟩ := h.died hok (hroom.mono (by omega))
    obtain ⟨g1, g2⟩ := deathFiles_grows c br s d argv p (2 ^ 23) hok.args.size
    have hlen : G1.length < 2 ^ 32 := by
      have := i1.len
      have := hroom.1
      omega
    obtain ⟨t, k1, -, k2, k3, id, k4⟩ := i1.load br0 u cfg hcfg hlen
    rw [h1] at k1
    injection k1 with k1 k1'
    subst k1; subst k1'
    have hsum := sum_dataInitialize (deathFiles c br s d argv p).2 id
    have ht : totalData s1 ≤ totalData s + 2 ^ 24 := by
      rw [totalData, k4]; omega
    obtain ⟨G', j1, j2, j3, j4⟩ := ih (k2 hl) ⟨by have := hroom.1; rw [k3]; omega, by have := hroom.2; omega⟩
    refine ⟨G', j1, ?_, ?_, .cons i2 j4⟩
    · simp only [List.length_cons]; rw [k3] at j2; omega
    · simp only [List.length_cons]; omega

theorem SeqLifeRun.hcfg {cfg : Option Mode} {u : Nat} {tr : List (LifeEv × Reply)} {br' : Branches}
    {s' : Store} (h : SeqLifeRun cfg u tr br' s') : cfg = none ∨ cfg = some .seq := by
  obtain ⟨br, s, h0, -⟩ := h.run
  exact h0.fresh.1

theorem SeqLifeRun.inv {cfg : Option Mode} {u : Nat} {tr : List (LifeEv × Reply)} {br' : Branches}
    {s' : Store} (h : SeqLifeRun cfg u tr br' s') :
    ∃ G, SInv s' G ∧ s'.ifiles.length ≤ tr.length + 1 ∧ totalData s' ≤ 28 + tr.length * 2 ^ 24 ∧
      SlotsRun [] tr (absSlots G) := by
  have hcfg := h.hcfg
  obtain ⟨br, s, h1, h2⟩ := h.run
  have hlen := h.len
  have := h1.fresh.2
  subst this
  obtain ⟨G, i1, i2, i3, i4⟩ := SInv.crashRun hcfg h2 freshStore_sinv (by
    unfold maxEvents at hlen
    constructor
    · simp [freshStore]; omega
    · simp [freshStore, totalData]; omega)
  refine ⟨G, i1, ?_, ?_, i4⟩
  · simp only [freshStore, List.length_cons, List.length_nil] at i2; omega
  · simp only [freshStore, totalData, List.map_cons, List.map_nil, List.sum_cons, List.sum_nil,
      freshDFHeader_length] at i3
    unfold totalData; omega

theorem SeqLifeRun.room {cfg : Option Mode} {u : Nat} {tr : List (LifeEv × Reply)} {br' : Branches}
    {s' : Store} (h : SeqLifeRun cfg u tr br' s') (hlen : tr.length < maxEvents) :
    Room s'.ifiles.length (totalData s') 1 := by
  obtain ⟨G, -, i2, i3, -⟩ := h.inv
  unfold maxEvents at hlen
  exact ⟨by omega, by omega⟩

/-! ### slots not written to -/

theorem Slots.get_del (m : Slots) (k k' : Bytes) (hk : m.get k ≠ none) :
    (m.del k).get k' = if k = k' then none else m.get k' := by
  cases hg : m.get k with
  | none => exact absurd hg hk
  | some v => exact Slots.get_set m hg none k'

theorem specSeqSet_other (conf : NsConf) (w st : Bool) (m : Slots) (k p : Bytes) (t : Nat) (k' : Bytes)
    (hm : m.length < 2 ^ 64) (hne : (specSeqSet conf w st m k p t).2 ≠ .bulk k') :
    (specSeqSet conf w st m k p t).1.get k' = m.get k' := by
  rcases specSeqSet_cases conf w st m k p t with ⟨-, h⟩ | ⟨-, -, h, -⟩ | ⟨v, hv, h, -⟩
  · rw [h]
  · rw [h] at hne ⊢
    simp only at hne ⊢
    rw [Slots.get_push _ _ _ _ hm, if_neg (fun e => hne (by rw [e]))]
  · rw [h] at hne ⊢
    simp only [Slots.update] at hne ⊢
    rw [Slots.get_snoc_none, Slots.get_set m hv, if_neg (fun e => hne (by rw [e]))]

theorem specSeqSet_same (conf : NsConf) (w st : Bool) (m : Slots) (k p : Bytes) (t : Nat) (k' : Bytes)
    (hm : m.length < 2 ^ 64) (he : (specSeqSet conf w st m k p t).2 = .bulk k') :
    ∃ v, (specSeqSet conf w st m k p t).1.get k' = some v ∧ v.payload = p ∧ k'.length = 8 := by
  rcases specSeqSet_cases conf w st m k p t with ⟨h, -⟩ | ⟨-, -, h, -⟩ | ⟨v, hv, h, -⟩
  · exact absurd he (h k')
  · rw [h] at he ⊢
    simp only [Reply.bulk.injEq] at he ⊢
    rw [Slots.get_push _ _ _ _ hm, if_pos he.symm]
    exact ⟨_, rfl, rfl, by rw [← he]; simp⟩
  · rw [h] at he ⊢
    simp only [Slots.update, Reply.bulk.injEq] at he ⊢
    rw [Slots.get_snoc_none, Slots.get_set m hv, if_pos he]
    exact ⟨_, rfl, rfl, by rw [← he]; exact (Slots.some_lt hv).1⟩

theorem specSeqSet_len (conf : NsConf) (w st : Bool) (m : Slots) (k p : Bytes) (t : Nat) :
    m.length ≤ (specSeqSet conf w st m k p t).1.length ∧ (specSeqSet conf w st m k p t).1.length ≤ m.length + 1 := by
  rcases specSeqSet_cases conf w st m k p t with ⟨-, h⟩ | ⟨-, -, h, -⟩ | ⟨v, hv, h, -⟩ <;> rw [h] <;>
    simp [Slots.push, Slots.update]

theorem specSeqCmd_set (c : Ctx) (m : Slots) (argv : List Bytes) :
    ((specSeqCmd c m .set argv).1 = m ∧ ∃ e, (specSeqCmd c m .set argv).2 = some (.err e)) ∨
    ∃ n k p rest t, argv = n :: k :: p :: rest ∧
      specSeqCmd c m .set argv = ((specSeqSet c.conf c.writable (c.io.dhdr.ok && c.io.dpay.ok) m k p t).1,
        some (specSeqSet c.conf c.writable (c.io.dhdr.ok && c.io.dpay.ok) m k p t).2) := by
  match argv with
  | [n, k, p] => exact Or.inr ⟨n, k, p, [], _, rfl, rfl⟩
  | [n, k, p, t] =>
    by_cases had : c.admin = true
    · right
      refine ⟨n, k, p, [t], (atoll t % 2 ^ 32).toNat, rfl, ?_⟩
      simp only [specSeqCmd, had, if_true]
    · left; simp [specSeqCmd, had]
  | [] => left; exact ⟨rfl, _, rfl⟩
  | [_] => left; exact ⟨rfl, _, rfl⟩
  | [_, _] => left; exact ⟨rfl, _, rfl⟩
  | _ :: _ :: _ :: _ :: _ :: _ => left; exact ⟨rfl, _, rfl⟩

theorem SLeft.len {c : Ctx} {m m' : Slots} {d : DsCmd} {argv : List Bytes} (h : SLeft c m d argv m') :
    m.length ≤ m'.length ∧ m'.length ≤ m.length + 1 := by
  rcases h with rfl | ⟨-, rfl⟩ | ⟨rfl, rfl⟩ | ⟨-, k, -, -, rfl⟩
  · simp
  · simp
  · rcases specSeqCmd_set c m argv with ⟨h, -⟩ | ⟨n, k, p, rest, t, -, h⟩
    · rw [h]; simp
    · rw [h]; exact specSeqSet_len ..
  · simp [Slots.del]

/-- Ids the command does not name are as before. -/
theorem SLeft.spares {c : Ctx} {m m' : Slots} {d : DsCmd} {argv : List Bytes} (h : SLeft c m d argv m')
    (hm : m.length < 2 ^ 64) {k : Bytes} (hlt : fromLE k < m.length)
    (hs : d = .set ∨ d = .del → argv[1]? ≠ some k) : m'.get k = m.get k := by
  rcases h with rfl | ⟨-, rfl⟩ | ⟨rfl, rfl⟩ | ⟨rfl, k', h1, h2, rfl⟩
  · rfl
  · exact Slots.get_snoc_none m k
  · rcases specSeqCmd_set c m argv with ⟨h, -⟩ | ⟨n, k', p, rest, t, rfl, h⟩
    · rw [h]
    · have hne : k' ≠ k := fun e => hs (Or.inl rfl) (by rw [e]; rfl)
      rw [h]
      simp only
      apply specSeqSet_other _ _ _ _ _ _ _ _ hm
      intro e
      rcases specSeqSet_cases c.conf c.writable (c.io.dhdr.ok && c.io.dpay.ok) m k' p t with
        ⟨h3, -⟩ | ⟨-, -, h3, -⟩ | ⟨v, hv, h3, -⟩
      · exact h3 _ e
      · rw [h3] at e
        simp only [Reply.bulk.injEq] at e
        rw [← e, fromLE_toLE8 hm] at hlt
        omega
      · rw [h3] at e
        simp only [Reply.bulk.injEq] at e
        exact hne e
  · rw [Slots.get_del _ _ _ h2, if_neg]
    intro e
    exact hs (Or.inr rfl) (by rw [h1, e])

theorem SlotsStep.len {m m' : Slots} {x : LifeEv × Reply} (h : SlotsStep m x m') :
    m.length ≤ m'.length ∧ m'.length ≤ m.length + 1 := by
  obtain ⟨e, r⟩ := x
  cases e with
  | ev e =>
    obtain ⟨rfl, hr⟩ := h
    have h1 := specSeqEvent_length m e r hr
    have h2 := ackedSets_le [(e, r)]
    simp only [List.length_singleton] at h2
    omega
  | died c d argv p => exact SLeft.len h

theorem SlotsRun.len {m m' : Slots} {tr : List (LifeEv × Reply)} (h : SlotsRun m tr m') :
    m.length ≤ m'.length ∧ m'.length ≤ m.length + tr.length := by
  induction h with
  | nil => simp
  | cons h1 _ ih =>
    have := h1.len
    simp only [List.length_cons]
    omega

theorem SlotsRun.split {m m' : Slots} {a b : List (LifeEv × Reply)} (h : SlotsRun m (a ++ b) m') :
    ∃ m1, SlotsRun m a m1 ∧ SlotsRun m1 b m' := by
  induction a generalizing m with
  | nil => exact ⟨m, .nil m, h⟩
  | cons x a ih =>
    cases h with
    | cons h1 h2 =>
      obtain ⟨m1, i1, i2⟩ := ih h2
      exact ⟨m1, .cons h1 i1, i2⟩

/-- What a completed command does is among what a cut one may do. -/
theorem specSeqCmd_left (c : Ctx) (m : Slots) (d : DsCmd) (argv : List Bytes) :
    SLeft c m d argv (specSeqCmd c m d argv).1 := by
  have del : ∀ n k rest, SLeft c m .del (n :: k :: rest)
      (specSeqDel c.conf c.writable (c.io.dhdr.ok && c.io.dpay.ok) m k).1 := by
    intro n k rest
    rcases specSeqDel_cases c.conf c.writable (c.io.dhdr.ok && c.io.dpay.ok) m k with ⟨-, h⟩ | ⟨v, hv, h⟩
    · exact Or.inl h
    · rw [h]
      exact Or.inr (Or.inr (Or.inr ⟨rfl, k, rfl, by rw [hv]; simp, rfl⟩))
  cases d with
  | set => exact Or.inr (Or.inr (Or.inl ⟨rfl, rfl⟩))
  | del =>
    match argv with
    | [n, k] =>
      simp only [specSeqCmd]
      split
      · exact Or.inl rfl
      · exact del n k []
    | [n, k, t] =>
      simp only [specSeqCmd]
      split
      · exact del n k [t]
      · exact Or.inl rfl
    | [] => exact Or.inl rfl
    | [_] => exact Or.inl rfl
    | _ :: _ :: _ :: _ :: _ => exact Or.inl rfl
  | _ => exact Or.inl (specSeqCmd_fst_of_not_writes c m _ argv rfl)

end Zdb
