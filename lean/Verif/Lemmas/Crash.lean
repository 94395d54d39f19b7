/-
What a new process finds in the files left by one that died during a command (user-key mode).
-/
import Verif.Lemmas.UserRun
import Verif.Lemmas.Growth
import Verif.Lemmas.UserSpec
import Verif.Spec.Crash
namespace Zdb

/-- The files are those of a namespace whose log is `G`, except that the header of the last data file may be
    missing or incomplete. -/
def Recov (u : Nat) (fi fd : List Bytes) (G : Log) : Prop :=
  ∃ br t, UInv br u t G ∧ t.ifiles = fi ∧ dataInitialize fd t.indexid = t.dfiles

theorem dataInitialize_same {fs : List Bytes} {id : Nat} (hlt : id < fs.length)
    (hh : ∃ t, fs[id]? = some (encDFHeader (freshDFHeader id) ++ t)) : dataInitialize fs id = fs := by
  obtain ⟨t, ht⟩ := hh
  unfold dataInitialize
  simp only
  rw [if_pos hlt, writeFileAt]
  apply List.ext_getElem?
  intro j
  rw [List.getElem?_modify]
  by_cases hj : id = j
  · subst hj; simp [ht, pwrite_same]
  · simp [hj]

theorem UInv.dataInit {br : Branches} {u : Nat} {s : Store} {G : Log} (h : UInv br u s G) :
    dataInitialize s.dfiles s.indexid = s.dfiles := by
  have hlt : s.indexid < s.dfiles.length := by rw [h.dlen]; have := h.iid; omega
  apply dataInitialize_same hlt
  obtain ⟨t, ht⟩ := h.dhead s.indexid _ (List.getElem?_eq_getElem hlt)
  exact ⟨t, by rw [← ht]; exact List.getElem?_eq_getElem _⟩

theorem UInv.recov {br : Branches} {u : Nat} {s : Store} {G : Log} (h : UInv br u s G) :
    Recov u s.ifiles s.dfiles G := ⟨br, s, h, rfl, h.dataInit⟩

/-- Loading the files. -/
theorem Recov.load {br0 : Branches} {u : Nat} {fi fd : List Bytes} {G : Log} (hr : Recov u fi fd G)
    (cfg : Option Mode) (hcfg : cfg = none ∨ cfg = some .user) (hlen : G.length < 2 ^ 32)
    (hbr : ∀ h, nsBranch br0 u h = []) :
    ∃ br' s', loadNs cfg br0 u fi fd = .ok br' s' ∧ UInv br' u s' G ∧
      s'.ifiles = fi ∧ ∃ id, s'.dfiles = dataInitialize fd id := by
  obtain ⟨br, s, h, rfl, hdi⟩ := hr
  have hG : 0 < G.length := List.length_pos_iff.2 h.ne
  have hn : maxFiles s.ifiles = G.length := by
    rw [maxFiles, h.irep.length]; omega
  have hm0 : (initRoot cfg s.ifiles fd).mode = .user := by
    rcases hcfg with rfl | rfl <;> rfl
  have h0 : ∀ i d, LInv br0 br0 u s.ifiles fd
      ({ initRoot cfg s.ifiles fd with indexid := i, dirty := d } : Store) (locs []) := by
    intro i d
    refine ⟨hm0, rfl, rfl, ?_, fun _ _ _ => rfl, rfl, rfl, rfl, rfl⟩
    intro k; rw [hbr]; exact List.Perm.refl _
  obtain ⟨i, d, hfold⟩ := indexSetId_foldl (List.range (G.length + 1)) (initRoot cfg s.ifiles fd)
  obtain ⟨br', s', h1, h2, h3, -⟩ := LInv.loop cfg hcfg [] G (h0 i d) h.irep h.files
    (fun l hl => (h.recs l hl).wf) (fun l hl => (h.recs l hl).flags) h.offs h.newest
  simp only [List.nil_append] at h2 h3
  have hid := h3 h.ne
  have hsame : s'.indexid = s.indexid := by have := h.iid; omega
  have hdf : dataInitialize s'.dfiles s'.indexid = s.dfiles := by rw [h2.dfiles, hsame, hdi]
  have hp : ∃ p, dataOpen s' s'.indexid = { s' with dfiles := s.dfiles, dataid := s'.indexid, dprev := p } := by
    unfold dataOpen
    simp only [hdf]
    exact ⟨_, rfl⟩
  obtain ⟨p, hp⟩ := hp
  refine ⟨br', { s' with dfiles := s.dfiles, dataid := s'.indexid, dprev := p }, ?_, ?_, h2.ifiles,
    s.indexid, hdi.symm⟩
  · unfold loadNs
    simp only [hn, hfold, if_pos hG]
    rw [List.range_eq_range']
    simp only [List.length_nil] at h1
    rw [h1]
    simp only [hp]
  · have hcore : Core 0 Loc.file { s' with dfiles := s.dfiles, dataid := s'.indexid, dprev := p } G := by
      refine ⟨?_, hid, rfl, h.dlen, h.files, h.recs, h.offs, h2.iprev, h.prevs, h.bound, h.dhead⟩
      simp only [h2.ifiles]; exact h.irep
    refine { hcore with
      mode := h2.mode, ids := h.ids, parents := h.parents, nodup := h.nodup, brs := h2.brs,
      entries := h2.entries, size := h2.size, total := ?_, newest := h.newest, used := ?_,
      diskid := h.diskid, chain := h.chain }
    · have e1 : s'.datasize = s.datasize := by rw [h2.size, h.size]; rfl
      simp only [e1]
      exact h.total
    · intro hne
      simp only [h2.next]
      exact List.length_pos_iff.2 hne

/-! ### rewriting the flags of an item, cut anywhere -/

theorem cut_one (x z : Bytes) (y y' : UInt8) (n : Nat) :
    (x ++ y' :: z).take n ++ (x ++ y :: z).drop n = x ++ y :: z ∨
    (x ++ y' :: z).take n ++ (x ++ y :: z).drop n = x ++ y' :: z := by
  by_cases h : n ≤ x.length
  · left
    rw [List.take_append_of_le_length h, List.drop_append_of_le_length h, ← List.append_assoc,
      List.take_append_drop]
  · right
    obtain ⟨m, rfl⟩ : ∃ m, n = x.length + (m + 1) := ⟨n - x.length - 1, by omega⟩
    rw [List.take_length_add_append, List.drop_length_add_append]
    simp

theorem encItem_split (it : Item) :
    ∃ x z y, ∀ f, f < 256 → encItem { it with flags := f } = x ++ (if f = it.flags then y else UInt8.ofNat f) :: z := by
  refine ⟨toLE 1 it.idlength ++ (toLE 4 it.offset ++ (toLE 4 it.length ++ toLE 4 it.previous)),
    toLE 4 it.dataid ++ (toLE 4 it.timestamp ++ (toLE 4 it.crc ++ (toLE 4 it.parentid ++
      (toLE 4 it.parentoff ++ it.id)))), UInt8.ofNat it.flags, ?_⟩
  intro f hf
  have : toLE 1 f = [UInt8.ofNat f] := by
    simp [toLE, Nat.mod_eq_of_lt hf]
  have h2 : (if f = it.flags then UInt8.ofNat it.flags else UInt8.ofNat f) = UInt8.ofNat f := by
    split
    · rename_i e; rw [e]
    · rfl
  rw [h2]
  simp [encItem, this]

/-- Part of an item rewritten with another flag byte is the old item or the new one. -/
theorem encItem_cut (it : Item) (hf : it.flags < 256) (f : Nat) (hf' : f < 256) (n : Nat) :
    (encItem { it with flags := f }).take n ++ (encItem it).drop n = encItem it ∨
    (encItem { it with flags := f }).take n ++ (encItem it).drop n = encItem { it with flags := f } := by
  obtain ⟨x, z, y, h⟩ := encItem_split it
  have h1 := h it.flags hf
  have h2 := h f hf'
  have h1' : encItem it = x ++ y :: z := by
    rw [if_pos rfl] at h1; exact h1
  rw [h1', h2]
  exact cut_one x z y _ n

/-- Writing the first `n` bytes of `b'` over `b` in a file. -/
theorem pwrite_cut {f a b b' c : Bytes} {off : Nat} (hf : f = a ++ (b ++ c)) (ho : off = a.length)
    (h : b.length = b'.length) (n : Nat) :
    pwrite f off (b'.take n) = a ++ ((b'.take n ++ b.drop n) ++ c) := by
  have : f = a ++ (b.take n ++ (b.drop n ++ c)) := by
    rw [hf, ← List.append_assoc (b.take n), List.take_append_drop]
  rw [pwrite_at' this ho (by simp [h])]
  simp

theorem modify_same {fs : List Bytes} {i : Nat} {f : Bytes} (g : Bytes → Bytes) (h : fs[i]? = some f)
    (hg : g f = f) : fs.modify i g = fs := by
  apply List.ext_getElem?
  intro j
  rw [List.getElem?_modify]
  by_cases hj : i = j
  · subst hj; simp [h, hg]
  · simp [hj]

theorem modify_congr {fs : List Bytes} {i : Nat} {f : Bytes} (g g' : Bytes → Bytes) (h : fs[i]? = some f)
    (hg : g f = g' f) : fs.modify i g = fs.modify i g' := by
  apply List.ext_getElem?
  intro j
  rw [List.getElem?_modify, List.getElem?_modify]
  by_cases hj : i = j
  · subst hj; simp [h, hg]
  · simp [hj]

/-- The file after a cut rewriting of the flags is the file before it or after the whole rewriting. -/
theorem UInv.flagCut {br : Branches} {u : Nat} {s : Store} {G : Log} (h : UInv br u s G)
    {l : Loc} (hl : l ∈ live G) (io : Io) :
    (deleteDisk s io (l.entry u)).1.dfiles = s.dfiles ∧
    ((deleteDisk s io (l.entry u)).1.ifiles = s.ifiles ∨
     (deleteDisk s io (l.entry u)).1.ifiles =
       (deleteDisk s { io with iflag := none } (l.entry u)).1.ifiles) := by
  obtain ⟨f, hf1, hf2⟩ := h.toCore.readItem (live_mem hl)
  have hfl := live_flag h hl
  have hset : setItemFlags (encItem l.r.item) (setDeleted l.r.item.flags) =
      encItem { l.r.item with flags := setDeleted l.r.item.flags } := setItemFlags_encItem _ _
  cases hio : io.iflag with
  | none =>
    have : ({ io with iflag := none } : Io) = io := by cases io; simp_all
    rw [this]
    refine ⟨?_, Or.inr rfl⟩
    simp only [deleteDisk, Loc.entry, hf1, hf2, hio, WriteFault.ok, Option.isNone_none, if_true]
  | some n =>
    have e1 : (deleteDisk s io (l.entry u)).1 =
        { s with ifiles := writeFileAt s.ifiles l.file l.off
                   ((encItem { l.r.item with flags := setDeleted l.r.item.flags }).take n) } := by
      simp only [deleteDisk, Loc.entry, hf1, hf2, hio, WriteFault.ok, Option.isNone_some, Bool.false_eq_true,
        if_false, WriteFault.cut, hset]
    have e2 : (deleteDisk s { io with iflag := none } (l.entry u)).1.ifiles =
        writeFileAt s.ifiles l.file l.off (encItem { l.r.item with flags := setDeleted l.r.item.flags }) := by
      simp only [deleteDisk, Loc.entry, hf1, hf2, WriteFault.ok, Option.isNone_none, if_true, hset, cut_none]
    rw [e1, e2]
    refine ⟨rfl, ?_⟩
    obtain ⟨pre, post, hp1, hp2⟩ := h.irep.at (live_mem hl)
    have hlen : (encItem l.r.item).length =
        (encItem { l.r.item with flags := setDeleted l.r.item.flags }).length := by simp
    have hw := pwrite_cut (b' := encItem { l.r.item with flags := setDeleted l.r.item.flags }) rfl hp2.symm hlen n
      (c := post)
    rcases encItem_cut l.r.item (by rw [hfl]; decide) (setDeleted l.r.item.flags) (by rw [hfl]; decide) n with
      hc | hc
    · left
      rw [hc] at hw
      exact modify_same _ hp1 hw
    · right
      rw [hc] at hw
      refine modify_congr _ _ hp1 ?_
      rw [hw, pwrite_at' rfl hp2.symm hlen]

/-! ### the handlers -/

theorem appendFile_nil (fs : List Bytes) (i : Nat) : appendFile fs i [] = fs := by
  unfold appendFile
  cases h : fs[i]? with
  | none =>
    apply List.ext_getElem?
    intro j
    rw [List.getElem?_modify]
    by_cases hj : i = j
    · subst hj; simp [h]
    · simp [hj]
  | some f => exact modify_same _ h (by simp)

theorem appendEntry_none (s : Store) (io : Io) (e : Entry) (h : io.iapp = some 0) :
    (appendEntry s io e).1.ifiles = s.ifiles ∧ (appendEntry s io e).1.dfiles = s.dfiles := by
  simp [appendEntry, h, WriteFault.ok, WriteFault.cut, appendFile_nil]

theorem appendEntry_whole (s : Store) (io : Io) (e : Entry) (n : Nat) (h : io.iapp = some n)
    (hn : 34 + e.id.length ≤ n) :
    (appendEntry s io e).1 = (appendEntry s { io with iapp := none } e).1 := by
  have : ∀ it : Item, it.id.length ≤ e.id.length → (encItem it).take n = encItem it := by
    intro it hi
    apply List.take_of_length_le
    simp; omega
  simp only [appendEntry, h, WriteFault.ok, WriteFault.cut, Option.isNone_some, Option.isNone_none, if_true,
    Bool.false_eq_true, if_false]
  rw [this _ (by simp [itemOf])]

theorem insertUser_files (br : Branches) (s : Store) (u : Nat) (io : Io) (r : SetReq) :
    (insertUser br s u io r).2.1.ifiles = (appendEntry s io (r.entry u)).1.ifiles ∧
    (insertUser br s u io r).2.1.dfiles = (appendEntry s io (r.entry u)).1.dfiles := by
  unfold insertUser
  simp only
  split <;> exact ⟨rfl, rfl⟩

/-- The process dies before the new item is appended: the key keeps its value or is lost. -/
theorem setHandlerUser_lost {c : Ctx} {br : Branches} {s : Store} {G : Log} (h : UInv br c.u s G)
    (hd : (c.io.dhdr.ok && c.io.dpay.ok) = true) (ha : c.io.iapp = some 0) (k p : Bytes) (ts : Nat) :
    ∃ G', Recov c.u (setHandlerUser c br s k p ts ((liveGet G k).map (Loc.entry c.u))).2.1.ifiles
        (setHandlerUser c br s k p ts ((liveGet G k).map (Loc.entry c.u))).2.1.dfiles G' ∧
      (absKV G' = absKV G ∨ absKV G' = (absKV G).del k) := by
  unfold setHandlerUser
  by_cases hk : k.length = 0
  · rw [if_pos hk]; exact ⟨G, h.recov, Or.inl rfl⟩
  rw [if_neg hk]
  by_cases hup : upToDate s ((liveGet G k).map (Loc.entry c.u)) p = true
  · rw [if_pos hup]; exact ⟨G, h.recov, Or.inl rfl⟩
  rw [if_neg hup]
  have hwr := dataInsert_ok (s := s) hd h.dataFile k p 0 (crc32 p) ts rfl
  generalize dataInsert s c.io k p 0 (crc32 p) ts = di at hwr ⊢
  obtain ⟨s1, off⟩ := di
  simp only at hwr ⊢
  obtain ⟨b, prev, hbl, hs1⟩ := hwr.eq
  have h1 : UInv br c.u s1 G := by rw [hs1]; exact h.appendData b prev
  by_cases hoff : off = 0
  · rw [if_pos hoff]; exact ⟨G, h1.recov, Or.inl rfl⟩
  rw [if_neg hoff]
  cases hg : liveGet G k with
  | none =>
    simp only [Option.map_none]
    have e := insertUser_files br s1 c.u c.io ⟨k, off, p.length, crc32 p, 0, ts⟩
    have e' := appendEntry_none s1 c.io (SetReq.entry ⟨k, off, p.length, crc32 p, 0, ts⟩ c.u) ha
    refine ⟨G, ?_, Or.inl rfl⟩
    have : ∀ x : Branches × Store × Bool, x.2.1.ifiles = s1.ifiles → x.2.1.dfiles = s1.dfiles →
        Recov c.u (if x.2.2 = true then (x.1, x.2.1, Reply.bulk k)
            else (x.1, x.2.1, Reply.err "Cannot write index right now")).2.1.ifiles
          (if x.2.2 = true then (x.1, x.2.1, Reply.bulk k)
            else (x.1, x.2.1, Reply.err "Cannot write index right now")).2.1.dfiles G := by
      intro x h2 h3
      split <;> simp only [h2, h3] <;> exact h1.recov
    exact this _ (e.1.trans e'.1) (e.2.trans e'.2)
  | some l =>
    simp only [Option.map_some]
    obtain ⟨hl, hlid⟩ := liveGet_some hg
    obtain ⟨f1, f2⟩ := h1.flagCut hl c.io
    have hfi : (updateUser br s1 c.u c.io ⟨k, off, p.length, crc32 p, 0, ts⟩ (l.entry c.u)).2.1.ifiles =
        (deleteDisk s1 c.io (l.entry c.u)).1.ifiles := by
      unfold updateUser
      simp only
      rw [(appendEntry_none _ c.io _ ha).1]
      rfl
    have hfd : (updateUser br s1 c.u c.io ⟨k, off, p.length, crc32 p, 0, ts⟩ (l.entry c.u)).2.1.dfiles =
        s1.dfiles := by
      unfold updateUser
      simp only
      rw [(appendEntry_none _ c.io _ ha).2]
      exact f1
    have this : ∀ (x : Branches × Store × Bool) G', Recov c.u x.2.1.ifiles x.2.1.dfiles G' →
        Recov c.u (if x.2.2 = true then (x.1, x.2.1, Reply.bulk k)
            else (x.1, x.2.1, Reply.err "Cannot write index right now")).2.1.ifiles
          (if x.2.2 = true then (x.1, x.2.1, Reply.bulk k)
            else (x.1, x.2.1, Reply.err "Cannot write index right now")).2.1.dfiles G' := by
      intro x G' h2
      split <;> exact h2
    rcases f2 with f2 | f2
    · refine ⟨G, this (updateUser br s1 c.u c.io ⟨k, off, p.length, crc32 p, 0, ts⟩ (l.entry c.u)) _ ?_,
        Or.inl rfl⟩
      rw [hfi, hfd, f2]; exact h1.recov
    · obtain ⟨G', i1, i2, i3, -⟩ := h1.delete { c.io with iflag := none } rfl hg
      refine ⟨G', this (updateUser br s1 c.u c.io ⟨k, off, p.length, crc32 p, 0, ts⟩ (l.entry c.u)) _ ?_,
        Or.inr i3⟩
      rw [hfi, hfd, f2]
      have j1 : (indexDelete br s1 c.u { c.io with iflag := none } (l.entry c.u)).2.1.ifiles =
          (deleteDisk s1 { c.io with iflag := none } (l.entry c.u)).1.ifiles := by
        unfold indexDelete
        simp only
        repeat' split
        all_goals rfl
      have j2 : (indexDelete br s1 c.u { c.io with iflag := none } (l.entry c.u)).2.1.dfiles = s1.dfiles := by
        rw [← (h1.flagCut hl { c.io with iflag := none }).1]
        unfold indexDelete
        simp only
        repeat' split
        all_goals rfl
      have := i2.recov
      rw [j1, j2] at this
      exact this

/-- The item is appended in full: the files are those of a completed command. -/
theorem setHandlerUser_whole {c : Ctx} {br : Branches} {s : Store} {k : Bytes} (p : Bytes) (ts : Nat)
    {ex : Option Entry} {n : Nat} (hn : c.io.iapp = some n) (hlen : 34 + k.length ≤ n)
    (hex : ∀ e, ex = some e → e.id.length ≤ k.length) :
    (setHandlerUser c br s k p ts ex).2.1.ifiles =
      (setHandlerUser { c with io := { c.io with iapp := none } } br s k p ts ex).2.1.ifiles ∧
    (setHandlerUser c br s k p ts ex).2.1.dfiles =
      (setHandlerUser { c with io := { c.io with iapp := none } } br s k p ts ex).2.1.dfiles := by
  unfold setHandlerUser
  split
  · exact ⟨rfl, rfl⟩
  split
  · exact ⟨rfl, rfl⟩
  have hdi : dataInsert s c.io k p 0 (crc32 p) ts =
      dataInsert s { c.io with iapp := none } k p 0 (crc32 p) ts := rfl
  simp only [hdi]
  generalize dataInsert s { c.io with iapp := none } k p 0 (crc32 p) ts = di
  obtain ⟨s1, off⟩ := di
  simp only
  split
  · exact ⟨rfl, rfl⟩
  have key : ∀ (x y : Branches × Store × Bool), x.2.1.ifiles = y.2.1.ifiles → x.2.1.dfiles = y.2.1.dfiles →
      (if x.2.2 = true then (x.1, x.2.1, Reply.bulk k)
        else (x.1, x.2.1, Reply.err "Cannot write index right now")).2.1.ifiles =
      (if y.2.2 = true then (y.1, y.2.1, Reply.bulk k)
        else (y.1, y.2.1, Reply.err "Cannot write index right now")).2.1.ifiles ∧
      (if x.2.2 = true then (x.1, x.2.1, Reply.bulk k)
        else (x.1, x.2.1, Reply.err "Cannot write index right now")).2.1.dfiles =
      (if y.2.2 = true then (y.1, y.2.1, Reply.bulk k)
        else (y.1, y.2.1, Reply.err "Cannot write index right now")).2.1.dfiles := by
    intro x y h h'
    split <;> split <;> exact ⟨h, h'⟩
  cases ex with
  | none =>
    have e := insertUser_files br s1 c.u c.io ⟨k, off, p.length, crc32 p, 0, ts⟩
    have e' := insertUser_files br s1 c.u { c.io with iapp := none } ⟨k, off, p.length, crc32 p, 0, ts⟩
    have a := appendEntry_whole s1 c.io (SetReq.entry ⟨k, off, p.length, crc32 p, 0, ts⟩ c.u) n hn hlen
    rw [a] at e
    exact key (insertUser br s1 c.u c.io ⟨k, off, p.length, crc32 p, 0, ts⟩)
      (insertUser br s1 c.u { c.io with iapp := none } ⟨k, off, p.length, crc32 p, 0, ts⟩)
      (e.1.trans e'.1.symm) (e.2.trans e'.2.symm)
  | some l =>
    have hl := hex l rfl
    have hu : (updateUser br s1 c.u c.io ⟨k, off, p.length, crc32 p, 0, ts⟩ l).2.1 =
        (updateUser br s1 c.u { c.io with iapp := none } ⟨k, off, p.length, crc32 p, 0, ts⟩ l).2.1 := by
      unfold updateUser
      simp only
      rw [appendEntry_whole _ c.io _ n hn (by simp only [updatedEntry]; omega)]
      rfl
    exact key (updateUser br s1 c.u c.io ⟨k, off, p.length, crc32 p, 0, ts⟩ l)
      (updateUser br s1 c.u { c.io with iapp := none } ⟨k, off, p.length, crc32 p, 0, ts⟩ l)
      (by rw [hu]) (by rw [hu])

/-! ### the commands -/

/-- SET either answers without touching anything, whatever the writes do, or reaches the handler. -/
theorem cmdSet_reach {c : Ctx} {br : Branches} {s : Store} {G : Log} (h : UInv br c.u s G)
    (argv : List Bytes) (k p : Bytes) :
    (∀ io, ∃ r, cmdSet.body { c with io := io } br s argv k p = (br, s, r)) ∨
    (k.length < 256 ∧ ∀ io, cmdSet.body { c with io := io } br s argv k p =
      setHandlerUser { c with io := io } br (jumpIfFull c.limit s p.length) k p
        (timestampFromSet c.now argv 3) ((liveGet G k).map (Loc.entry c.u))) := by
  unfold cmdSet.body
  have hentry : (if k.length ≠ 0 then indexGet br s c.u k else none) =
      (liveGet G k).map (Loc.entry c.u) := by
    by_cases h0 : k.length = 0
    · rw [List.length_eq_zero_iff.1 h0]; simp [liveGet_nil h]
    · rw [if_pos h0, h.indexGet]
  simp only [hentry, h.mode]
  by_cases hk : k.length > 255
  · left; intro io; rw [if_pos hk]; exact ⟨_, rfl⟩
  simp only [if_neg hk]
  by_cases h1 : (!c.writable) = true
  · left; intro io; rw [if_pos h1]; exact ⟨_, rfl⟩
  simp only [if_neg h1]
  by_cases h2 : c.conf.isFrozen = true
  · left; intro io; rw [if_pos h2]; exact ⟨_, rfl⟩
  simp only [if_neg h2]
  by_cases h3 : c.conf.isLocked = true
  · left; intro io; rw [if_pos h3]; exact ⟨_, rfl⟩
  simp only [if_neg h3]
  by_cases h4 : (((liveGet G k).map (Loc.entry c.u)).isSome && c.conf.worm) = true
  · left; intro io; rw [if_pos h4]; exact ⟨_, rfl⟩
  simp only [if_neg h4]
  by_cases h5 : overQuota c.conf s.datasize p.length (floatingOf ((liveGet G k).map (Loc.entry c.u))) = true
  · left; intro io; rw [if_pos h5]; exact ⟨_, rfl⟩
  simp only [if_neg h5]
  right
  exact ⟨by omega, fun _ => trivial⟩

/-- The same for DEL. -/
theorem cmdDel_reach {c : Ctx} {br : Branches} {s : Store} {G : Log} (h : UInv br c.u s G)
    (argv : List Bytes) (k : Bytes) :
    (∀ io, ∃ r, cmdDel.body { c with io := io } br s argv k = (br, s, r)) ∨
    (∃ l, liveGet G k = some l ∧ ∀ io,
      let x := dataInsert s io (l.entry c.u).id [] 1 0 (timestampFromSet c.now argv 2)
      (cmdDel.body { c with io := io } br s argv k).2.1 =
        if x.2 = 0 then x.1 else (indexDelete br x.1 c.u io (l.entry c.u)).2.1) := by
  unfold cmdDel.body
  simp only [h.indexGet]
  by_cases hk : k.length > 255
  · left; intro io; rw [if_pos hk]; exact ⟨_, rfl⟩
  simp only [if_neg hk]
  by_cases h1 : (!c.writable) = true
  · left; intro io; rw [if_pos h1]; exact ⟨_, rfl⟩
  simp only [if_neg h1]
  by_cases h2 : c.conf.isFrozen = true
  · left; intro io; rw [if_pos h2]; exact ⟨_, rfl⟩
  simp only [if_neg h2]
  by_cases h3 : c.conf.isLocked = true
  · left; intro io; rw [if_pos h3]; exact ⟨_, rfl⟩
  simp only [if_neg h3]
  cases hg : liveGet G k with
  | none => left; intro io; exact ⟨_, rfl⟩
  | some l =>
    simp only [Option.map_some]
    by_cases h4 : c.conf.worm = true
    · left; intro io; rw [if_pos h4]; exact ⟨_, rfl⟩
    simp only [if_neg h4]
    right
    refine ⟨l, rfl, ?_⟩
    intro io
    generalize dataInsert s io (l.entry c.u).id [] 1 0 (timestampFromSet c.now argv 2) = x
    obtain ⟨s1, off⟩ := x
    simp only
    by_cases h0 : off = 0
    · simp only [if_pos h0]
    · simp only [if_neg h0]
      split <;> rfl

/-- What a command during which the process died may have done to the map. -/
def Left (m : KV) : DsCmd → List Bytes → KV → Prop
  | .set, _ :: k :: p :: _, m' => m' = m ∨ m' = m.del k ∨ ∃ ts, m' = m.put k p ts
  | .del, _ :: k :: _, m' => m' = m ∨ m' = m.del k
  | _, _, m' => m' = m

theorem Left.same (m : KV) (d : DsCmd) (argv : List Bytes) : Left m d argv m := by
  unfold Left
  split
  · exact Or.inl rfl
  · exact Or.inl rfl
  · rfl

/-- How the writes to the index end: the item is not appended at all, or in full and the previous one
    rewritten. -/
def IoWhole (io : Io) (len : Nat) : Prop :=
  io.iapp = some 0 ∨ (io.iflag = none ∧ (io.iapp = none ∨ ∃ n, io.iapp = some n ∧ 34 + len ≤ n))

theorem set_left {c : Ctx} {br : Branches} {s : Store} {G : Log} (h : UInv br c.u s G)
    (hlim : c.limit ≤ 2 ^ 31) (hcap : s.ifiles.length < 2 ^ 32)
    (argv : List Bytes) (k p : Bytes) (hp : p.length < 2 ^ 32) (io : Io) (hio : IoWhole io k.length) :
    ∃ G', Recov c.u (cmdSet.body { c with io := io } br s argv k p).2.1.ifiles
        (cmdSet.body { c with io := io } br s argv k p).2.1.dfiles G' ∧
      (absKV G' = absKV G ∨ absKV G' = (absKV G).del k ∨ ∃ ts, absKV G' = (absKV G).put k p ts) := by
  rcases cmdSet_reach h argv k p with hr | ⟨hk, hr⟩
  · obtain ⟨r, hr⟩ := hr io
    rw [hr]
    exact ⟨G, h.recov, Or.inl rfl⟩
  rw [hr io]
  obtain ⟨G1, j1, j2, j3, j4, j5, j6⟩ := jumpIfFull_spec h hcap c.limit p.length hlim
  generalize jumpIfFull c.limit s p.length = t at *
  rw [← j3, ← j2]
  have hts := timestampFromSet_lt c.now argv 3
  generalize timestampFromSet c.now argv 3 = ts at *
  by_cases hd : (io.dhdr.ok && io.dpay.ok) = true
  · rcases hio with hio | ⟨hfl, hio⟩
    · obtain ⟨G', h1, h2⟩ := setHandlerUser_lost (c := { c with io := io }) j1 hd hio k p ts
      exact ⟨G', h1, h2.elim Or.inl (fun x => Or.inr (Or.inl x))⟩
    · obtain ⟨G', h1, h2, -⟩ := setHandlerUser_spec (c := { c with io := { io with iapp := none } }) j1 rfl hfl
        k p ts hk hp hts j4
      have h2' := (Prod.ext_iff.1 h2).1
      simp only at h2'
      refine ⟨G', ?_, ?_⟩
      · have h3 := h1.recov
        rcases hio with hio | ⟨n, hn, hlen⟩
        · have : ({ io with iapp := none } : Io) = io := by cases io; simp_all
          rw [this] at h3; exact h3
        · obtain ⟨a, b⟩ := setHandlerUser_whole (c := { c with io := io }) (br := br) (s := t) p ts
            (ex := (liveGet G1 k).map (Loc.entry c.u)) hn hlen (by
              intro e he
              cases hg : liveGet G1 k with
              | none => rw [hg] at he; simp at he
              | some l =>
                rw [hg] at he
                simp only [Option.map_some, Option.some.injEq] at he
                rw [← he]
                have := (liveGet_some hg).2
                rw [← this]
                exact Nat.le_refl _)
          rw [a, b]; exact h3
      · rw [h2']
        split
        · exact Or.inl rfl
        split
        · exact Or.inl rfl
        split
        · exact Or.inl rfl
        · exact Or.inr (Or.inr ⟨ts, rfl⟩)
  · have hd' : (io.dhdr.ok && io.dpay.ok) = false := by simpa using hd
    obtain ⟨d1, b, d2⟩ := dataInsert_fail (s := t) hd' k p 0 (crc32 p) ts
    have h1 : UInv br c.u (dataInsert t io k p 0 (crc32 p) ts).1 G1 := by
      rw [d2]; exact j1.appendData b t.dprev
    refine ⟨G1, ?_, Or.inl rfl⟩
    unfold setHandlerUser
    split
    · exact j1.recov
    split
    · exact j1.recov
    simp only [d1, if_true]
    exact h1.recov

theorem del_left {c : Ctx} {br : Branches} {s : Store} {G : Log} (h : UInv br c.u s G)
    (argv : List Bytes) (k : Bytes) (io : Io) :
    ∃ G', Recov c.u (cmdDel.body { c with io := io } br s argv k).2.1.ifiles
        (cmdDel.body { c with io := io } br s argv k).2.1.dfiles G' ∧
      (absKV G' = absKV G ∨ absKV G' = (absKV G).del k) := by
  rcases cmdDel_reach h argv k with hr | ⟨l, hg, hr⟩
  · obtain ⟨r, hr⟩ := hr io
    rw [hr]
    exact ⟨G, h.recov, Or.inl rfl⟩
  have hr := hr io
  simp only at hr
  rw [hr]
  have hex : ∃ b prev, (dataInsert s io (l.entry c.u).id [] 1 0 (timestampFromSet c.now argv 2)).1 =
      { s with dfiles := appendFile s.dfiles s.dataid b, dprev := prev } := by
    by_cases hd : (io.dhdr.ok && io.dpay.ok) = true
    · have hwr := dataInsert_ok (s := s) hd h.dataFile (l.entry c.u).id [] 1 0
        (timestampFromSet c.now argv 2) rfl
      obtain ⟨b, prev, -, hs1⟩ := hwr.eq
      exact ⟨b, prev, hs1⟩
    · have hd' : (io.dhdr.ok && io.dpay.ok) = false := by simpa using hd
      obtain ⟨-, b, d2⟩ := dataInsert_fail (s := s) hd' (l.entry c.u).id [] 1 0
        (timestampFromSet c.now argv 2)
      exact ⟨b, _, d2⟩
  generalize dataInsert s io (l.entry c.u).id [] 1 0 (timestampFromSet c.now argv 2) = x at hex ⊢
  obtain ⟨s1, off⟩ := x
  obtain ⟨b, prev, hs1⟩ := hex
  simp only at hs1 ⊢
  have h1 : UInv br c.u s1 G := by rw [hs1]; exact h.appendData b prev
  split
  · exact ⟨G, h1.recov, Or.inl rfl⟩
  obtain ⟨hl, hlid⟩ := liveGet_some hg
  have ji : ∀ io, (indexDelete br s1 c.u io (l.entry c.u)).2.1.ifiles =
      (deleteDisk s1 io (l.entry c.u)).1.ifiles := by
    intro io
    unfold indexDelete
    simp only
    repeat' split
    all_goals rfl
  have jd : ∀ io, (indexDelete br s1 c.u io (l.entry c.u)).2.1.dfiles = s1.dfiles := by
    intro io
    rw [← (h1.flagCut hl io).1]
    unfold indexDelete
    simp only
    repeat' split
    all_goals rfl
  rw [ji, jd]
  rcases (h1.flagCut hl io).2 with f2 | f2
  · rw [f2]; exact ⟨G, h1.recov, Or.inl rfl⟩
  · obtain ⟨G', i1, i2, i3, -⟩ := h1.delete { io with iflag := none } rfl hg
    refine ⟨G', ?_, Or.inr i3⟩
    have := i2.recov
    rw [ji, jd] at this
    rw [f2]; exact this

theorem deathIo_whole (p : Death) (argv : List Bytes) (n k : Bytes) (rest : List Bytes)
    (ha : argv = n :: k :: rest) (hw : p.whole argv) : IoWhole (deathIo p) k.length := by
  subst ha
  cases p with
  | itemApp m =>
    simp only [Death.whole] at hw
    rcases hw with rfl | hw
    · left; rfl
    · right; exact ⟨rfl, Or.inr ⟨m, rfl, hw⟩⟩
  | itemOver m => right; exact ⟨rfl, Or.inl rfl⟩
  | _ => left; rfl

/-- What a command with the writes of `deathIo` leaves. -/
theorem UInv.cut {c : Ctx} {br : Branches} {s : Store} {G : Log} (h : UInv br c.u s G) {d : DsCmd}
    {argv : List Bytes} {p : Death} (hok : DiedOK c argv p)
    (hroom : Room s.ifiles.length (totalData s) 1) :
    ∃ G', Recov c.u (dsCommand { c with io := deathIo p } br s d argv).2.1.ifiles
        (dsCommand { c with io := deathIo p } br s d argv).2.1.dfiles G' ∧
      Left (absKV G) d argv (absKV G') := by
  have hcap : s.ifiles.length < 2 ^ 32 := by have := hroom.1; omega
  have same : ∃ G', Recov c.u s.ifiles s.dfiles G' ∧ Left (absKV G) d argv (absKV G') :=
    ⟨G, h.recov, Left.same _ _ _⟩
  cases d with
  | set =>
    have key : ∀ n k v rest, argv = n :: k :: v :: rest →
        ∃ G', Recov c.u (cmdSet.body { c with io := deathIo p } br s argv k v).2.1.ifiles
          (cmdSet.body { c with io := deathIo p } br s argv k v).2.1.dfiles G' ∧
          Left (absKV G) .set argv (absKV G') := by
      intro n k v rest ha
      have hl := hok.args.size v (by rw [ha]; simp)
      obtain ⟨G', h1, h2⟩ := set_left h hok.limit hcap argv k v (by omega) (deathIo p)
        (deathIo_whole p argv n k _ ha hok.whole)
      exact ⟨G', h1, by rw [ha]; exact h2⟩
    match argv, key, same with
    | [n, k, v], key, _ => exact key n k v [] rfl
    | [n, k, v, t], key, same =>
      simp only [dsCommand, cmdSet]
      by_cases had : c.admin = true
      · simp only [had, if_true]; exact key n k v [t] rfl
      · simp only [had]; exact same
    | [], _, same => exact same
    | [_], _, same => exact same
    | [_, _], _, same => exact same
    | _ :: _ :: _ :: _ :: _ :: _, _, same => exact same
  | del =>
    have key : ∀ n k rest, argv = n :: k :: rest →
        ∃ G', Recov c.u (cmdDel.body { c with io := deathIo p } br s argv k).2.1.ifiles
          (cmdDel.body { c with io := deathIo p } br s argv k).2.1.dfiles G' ∧
          Left (absKV G) .del argv (absKV G') := by
      intro n k rest ha
      obtain ⟨G', h1, h2⟩ := del_left h argv k (deathIo p)
      exact ⟨G', h1, by rw [ha]; exact h2⟩
    match argv, key, same with
    | [n, k, t], key, same =>
      simp only [dsCommand, cmdDel]
      by_cases had : c.admin = true
      · simp only [had, if_true]; exact key n k [t] rfl
      · simp only [had]; exact same
    | [n, k], key, same =>
      simp only [dsCommand, cmdDel]
      split
      · exact same
      · exact key n k [] rfl
    | [], _, same => exact same
    | [_], _, same => exact same
    | n :: k :: t :: x :: xs, _, same =>
      have : argsValidate (n :: k :: t :: x :: xs) 2 = some errArgs := by simp [argsValidate]
      simp only [dsCommand, cmdDel, this]
      exact same
  | nsjump =>
    simp only [dsCommand, cmdNsjump]
    by_cases had : c.admin = true
    · simp only [had, if_true]
      have hlen := h.irep.length
      exact ⟨logJump G, (h.jump (by omega)).recov, absKV_jump G⟩
    · simp only [had]; exact same
  | index =>
    simp only [dsCommand]
    rcases cmdIndex_cases { c with io := deathIo p } s argv with h' | h' <;> rw [h'] <;> exact same
  | _ => exact same

theorem pwrite_take {b : Bytes} (n : Nat) : pwrite (b.take n) 0 b = b := by
  simp [pwrite]; omega

/-- The files left by a dead process are those of some log, and the map is one the command may leave. -/
theorem UInv.died {c : Ctx} {br : Branches} {s : Store} {G : Log} (h : UInv br c.u s G) {d : DsCmd}
    {argv : List Bytes} {p : Death} (hok : DiedOK c argv p)
    (hroom : Room s.ifiles.length (totalData s) 1) :
    ∃ G', Recov c.u (deathFiles c br s d argv p).1 (deathFiles c br s d argv p).2 G' ∧
      Left (absKV G) d argv (absKV G') := by
  have same : ∃ G', Recov c.u s.ifiles s.dfiles G' ∧ Left (absKV G) d argv (absKV G') :=
    ⟨G, h.recov, Left.same _ _ _⟩
  have hlen := h.irep.length
  have hcap : G.length < 2 ^ 32 := by have := hroom.1; omega
  have hid : (s.indexid + 1) % 2 ^ 32 = G.length := by rw [h.iid, Nat.mod_eq_of_lt hcap]
  obtain ⟨-, jd, ji, jx⟩ := h.toCore.jump (by rw [h.mode]; rfl) hcap
  have hm : s.mode.byte = 0 := by rw [h.mode]; rfl
  have jumped : ∀ fd, dataInitialize fd G.length = (Zdb.jump s).dfiles →
      ∃ G', Recov c.u (Zdb.jump s).ifiles fd G' ∧ Left (absKV G) d argv (absKV G') := by
    intro fd hfd
    refine ⟨logJump G, ⟨br, Zdb.jump s, h.jump hcap, rfl, by rw [jx]; exact hfd⟩, ?_⟩
    rw [absKV_jump]; exact Left.same _ _ _
  cases p with
  | start => exact same
  | jumpIndex n =>
    simp only [deathFiles]
    split
    · rw [hid, hm]
      have hc : indexCreateCut s.ifiles G.length 0 n = (Zdb.jump s).ifiles := by
        have hw := hok.whole
        simp only [Death.whole] at hw
        rw [ji, indexCreateCut]
        rw [if_neg (by omega), List.take_of_length_le (by simp; omega)]
      rw [hc]
      apply jumped
      rw [jd, dataInitialize]
      rw [if_neg (by rw [h.dlen]; omega)]
    · exact same
  | jumpData n =>
    simp only [deathFiles]
    split
    · rw [hid, hm]
      have hc : indexCreate s.ifiles G.length 0 = (Zdb.jump s).ifiles := by
        rw [ji, indexCreate]
        rw [if_neg (by omega)]
      rw [hc]
      apply jumped
      have hdl := h.dlen
      rw [jd, dataInitializeCut]
      rw [if_neg (by rw [h.dlen]; omega), dataInitialize]
      rw [if_pos (by simp; omega), writeFileAt]
      apply List.ext_getElem?
      intro j
      rw [List.getElem?_modify]
      rcases Nat.lt_trichotomy j s.dfiles.length with hj | hj | hj
      · have hne : ¬ G.length = j := by omega
        rw [List.getElem?_append_left hj, List.getElem?_append_left hj]; simp [hne]
      · subst hj
        have he : G.length = s.dfiles.length := by omega
        simp [pwrite_take, he]
      · rw [List.getElem?_eq_none (by simp; omega), List.getElem?_eq_none (by simp; omega)]; simp
    · exact same
  | dataHdr n => exact h.cut hok hroom
  | dataPay n => exact h.cut hok hroom
  | itemFlag n => exact h.cut hok hroom
  | itemApp n => exact h.cut hok hroom
  | itemOver n => exact h.cut hok hroom

/-! ### executions -/

theorem sum_dataInitializeCut (fs : List Bytes) (i n : Nat) :
    ((dataInitializeCut fs i n).map List.length).sum ≤ (fs.map List.length).sum + 28 := by
  unfold dataInitializeCut
  have hl : ((encDFHeader (freshDFHeader i)).take n).length ≤ 28 := by
    rw [List.length_take, freshDFHeader_length]; omega
  simp only
  split
  · exact sum_modify fs i 28 _ (fun b => by
      have := pwrite_length_le b ((encDFHeader (freshDFHeader i)).take n); omega)
  · simp only [List.map_append, List.map_cons, List.map_nil, List.sum_append, List.sum_cons, List.sum_nil]
    omega

theorem deathFiles_grows (c : Ctx) (br : Branches) (s : Store) (d : DsCmd) (argv : List Bytes) (p : Death)
    (n : Nat) (hn : ∀ b ∈ argv, b.length ≤ n) :
    (deathFiles c br s d argv p).1.length ≤ s.ifiles.length + 1 ∧
    ((deathFiles c br s d argv p).2.map List.length).sum ≤ totalData s + (309 + n) := by
  have same : s.ifiles.length ≤ s.ifiles.length + 1 ∧
      (s.dfiles.map List.length).sum ≤ totalData s + (309 + n) := ⟨by omega, by unfold totalData; omega⟩
  have key : ∀ io, (dsCommand { c with io := io } br s d argv).2.1.ifiles.length ≤ s.ifiles.length + 1 ∧
      ((dsCommand { c with io := io } br s d argv).2.1.dfiles.map List.length).sum ≤
        totalData s + (309 + n) := by
    intro io
    have := dsCommand_grows { c with io := io } br s d argv n hn
    exact ⟨this.2, this.1⟩
  cases p with
  | start => exact same
  | jumpIndex m =>
    simp only [deathFiles]
    split
    · refine ⟨?_, same.2⟩
      unfold indexCreateCut
      simp only
      split <;> simp [appendFile]
    · exact same
  | jumpData m =>
    simp only [deathFiles]
    split
    · refine ⟨?_, ?_⟩
      · unfold indexCreate
        simp only
        split <;> simp [appendFile]
      · have := sum_dataInitializeCut s.dfiles ((s.indexid + 1) % 2 ^ 32) m
        unfold totalData
        simp only
        omega
    · exact same
  | _ => exact key _

theorem Left.get {m m' : KV} {d : DsCmd} {argv : List Bytes} (h : Left m d argv m') (k : Bytes)
    (old : List (Option Bytes)) (ho : (m.get k).map (·.payload) ∈ old) (c : Ctx) (p : Death) (r : Reply) :
    (m'.get k).map (·.payload) ∈ mayBe k old (.died c d argv p, r) := by
  unfold Left at h
  split at h
  · rename_i n k' v rest
    simp only [mayBe]
    by_cases hk : k' = k
    · rw [if_pos hk]
      rcases h with rfl | rfl | ⟨ts, rfl⟩
      · exact List.mem_append_left _ ho
      · rw [KV.get_del, if_pos hk]; simp
      · rw [KV.get_put, if_pos hk]; simp
    · rw [if_neg hk]
      rcases h with rfl | rfl | ⟨ts, rfl⟩
      · exact ho
      · rw [KV.get_del, if_neg hk]; exact ho
      · rw [KV.get_put, if_neg hk]; exact ho
  · rename_i n k' rest
    simp only [mayBe]
    by_cases hk : k' = k
    · rw [if_pos hk]
      rcases h with rfl | rfl
      · exact List.mem_append_left _ ho
      · rw [KV.get_del, if_pos hk]; simp
    · rw [if_neg hk]
      rcases h with rfl | rfl
      · exact ho
      · rw [KV.get_del, if_neg hk]; exact ho
  · rename_i h1 h2
    subst h
    unfold mayBe
    split
    · simp_all
    · rename_i x heq
      simp only [Prod.mk.injEq, LifeEv.died.injEq] at heq
      obtain ⟨⟨-, rfl, rfl, -⟩, -⟩ := heq
      exact absurd rfl (h1 _ _ _ _ rfl)
    · rename_i x heq
      simp only [Prod.mk.injEq, LifeEv.died.injEq] at heq
      obtain ⟨⟨-, rfl, rfl, -⟩, -⟩ := heq
      exact absurd rfl (h2 _ _ _ rfl)
    · exact ho

theorem UInv.crashRun {cfg : Option Mode} (hcfg : cfg = none ∨ cfg = some .user) {u : Nat} {br br' : Branches}
    {s s' : Store} {tr : List (LifeEv × Reply)} (hr : CrashRun cfg u br s tr br' s') {G : Log}
    (h : UInv br u s G) (hev : ∀ x ∈ tr, LifeOK x.1)
    (hroom : Room s.ifiles.length (totalData s) tr.length) :
    ∃ G', UInv br' u s' G' ∧ s'.ifiles.length ≤ s.ifiles.length + tr.length ∧
      totalData s' ≤ totalData s + tr.length * 2 ^ 24 ∧
      ∀ k old, ((absKV G).get k).map (·.payload) ∈ old →
        ((absKV G').get k).map (·.payload) ∈ tr.foldl (mayBe k) old := by
  induction hr generalizing G with
  | nil br s => exact ⟨G, h, by simp, by simp, fun k old ho => ho⟩
  | @ev br br1 br2 s s1 s2 e r tr h1 h2 ih =>
    have hroom' := hroom
    simp only [List.length_cons] at hroom
    have hok := hev _ (List.mem_cons_self ..)
    simp only [LifeOK] at hok
    have hroom1 : Room s.ifiles.length (totalData s) 1 := hroom.mono (by omega)
    have step : ∃ G1, UInv br1 u s1 G1 ∧ s1.ifiles.length ≤ s.ifiles.length + 1 ∧
        totalData s1 ≤ totalData s + 2 ^ 24 ∧
        ∀ k old, ((absKV G).get k).map (·.payload) ∈ old →
          ((absKV G1).get k).map (·.payload) ∈ mayBe k old (.ev e, r) := by
      have hev1 : ∀ x ∈ [(e, r)], EvOK x.1 := by
        intro x hx; rw [List.mem_singleton.1 hx]; exact hok
      obtain ⟨G1, i1, i2, i3⟩ := UInv.run hcfg h1 h hev1 hroom1
      refine ⟨G1, i1, NsRun.files hcfg h1 h hev1 hroom1, ?_, ?_⟩
      · cases h1 with
        | @cmd c d argv _ br1' _ _ s1' _ _ _ hu hc hn =>
          cases hn
          have hg := dsCommand_grows c br s d argv (2 ^ 23) hok.2.size
          rw [hc] at hg
          have := hg.1
          simp only at this
          omega
        | foreign hb hn => cases hn; omega
        | reload hl hn =>
          cases hn
          have hlen := h.irep.length
          obtain ⟨b, t, k1, k2, k3, k4, -⟩ := h.reload cfg hcfg (by have := hroom1.1; omega)
          rw [hl] at k1
          injection k1 with k1 k1'
          subst k1'
          rw [totalData, k4]; unfold totalData; omega
      · intro k old ho
        have hg := specEvent_get (absKV G) e r k i3.1
        have : absKV G1 = (specEvent (absKV G) e).1 := i2
        rw [this, hg]
        simp only [mayBe]
        cases writeOf k (e, r) with
        | none => exact ho
        | some v => simp
    obtain ⟨G1, i1, i2, i3, i4⟩ := step
    obtain ⟨G', j1, j2, j3, j4⟩ := ih i1 (fun x hx => hev x (List.mem_cons_of_mem _ hx))
      ⟨by have := hroom.1; omega, by have := hroom.2; omega⟩
    refine ⟨G', j1, ?_, ?_, ?_⟩
    · simp only [List.length_cons]; omega
    · simp only [List.length_cons]; omega
    · intro k old ho
      exact j4 k _ (i4 k old ho)
  | @died c d argv p br br0 br1 br2 s s1 s2 tr hu h0 h1 h2 ih =>
    subst hu
    simp only [List.length_cons] at hroom
    have hok := hev _ (List.mem_cons_self ..)
    simp only [LifeOK] at hok
    obtain ⟨G1, i1, i2⟩ := h.died (d := d) hok (hroom.mono (by omega))
    obtain ⟨g1, g2⟩ := deathFiles_grows c br s d argv p (2 ^ 23) hok.args.size
    have hlen : G1.length < 2 ^ 32 := by
      obtain ⟨b, t, k1, k2, -⟩ := i1
      have := k1.irep.length
      rw [k2] at this
      have := hroom.1
      omega
    obtain ⟨b, t, k1, k2, k3, id, k4⟩ := i1.load (br0 := br0) cfg hcfg hlen h0
    rw [h1] at k1
    injection k1 with k1 k1'
    subst k1; subst k1'
    have hsum := sum_dataInitialize (deathFiles c br s d argv p).2 id
    have ht : totalData s1 ≤ totalData s + 2 ^ 24 := by
      rw [totalData, k4]; omega
    obtain ⟨G', j1, j2, j3, j4⟩ := ih k2 (fun x hx => hev x (List.mem_cons_of_mem _ hx))
      ⟨by have := hroom.1; rw [k3]; omega, by have := hroom.2; omega⟩
    refine ⟨G', j1, ?_, ?_, ?_⟩
    · simp only [List.length_cons]; rw [k3] at j2; omega
    · simp only [List.length_cons]; omega
    · intro k old ho
      exact j4 k _ (i2.get k old ho c p .nil)

/-- DEL starts no file. -/
theorem del_indexid (c : Ctx) (br : Branches) (s : Store) (argv : List Bytes) :
    (dsCommand c br s .del argv).2.1.indexid = s.indexid := by
  have hdi : ∀ io a b fl crc ts, (dataInsert s io a b fl crc ts).1.indexid = s.indexid := by
    intro io a b fl crc ts
    unfold dataInsert
    simp only
    split
    · rfl
    · split <;> rfl
  have hdd : ∀ s io e, (deleteDisk s io e).1.indexid = s.indexid := by
    intro s io e
    unfold deleteDisk
    simp only
    split
    · rfl
    · split
      · rfl
      · split <;> rfl
  have hde : ∀ br s u io e, (indexDelete br s u io e).2.1.indexid = s.indexid := by
    intro br s u io e
    unfold indexDelete
    rw [← hdd s io e]
    simp only
    repeat' split
    all_goals rfl
  have key : ∀ k, (cmdDel.body c br s argv k).2.1.indexid = s.indexid := by
    intro k
    unfold cmdDel.body
    split
    · rfl
    split
    · rfl
    split
    · rfl
    split
    · rfl
    split
    · rfl
    rename_i e he
    split
    · rfl
    have h1 := hdi c.io e.id [] 1 0 (timestampFromSet c.now argv 2)
    simp only
    generalize dataInsert s c.io e.id [] 1 0 (timestampFromSet c.now argv 2) = x at h1 ⊢
    obtain ⟨s1, off⟩ := x
    simp only at h1 ⊢
    split
    · exact h1
    · have h2 := hde br s1 c.u c.io e
      split <;> exact h2.trans h1
  unfold dsCommand cmdDel
  simp only
  split
  · split
    · exact key _
    · rfl
  · split
    · rfl
    · split
      · exact key _
      · rfl

/-- The files left by a process that died during DEL, wherever that was. -/
theorem UInv.diedDel {c : Ctx} {br : Branches} {s : Store} {G : Log} (h : UInv br c.u s G)
    (n k : Bytes) (p : Death) :
    ∃ G', Recov c.u (deathFiles c br s .del [n, k] p).1 (deathFiles c br s .del [n, k] p).2 G' ∧
      (absKV G' = absKV G ∨ absKV G' = (absKV G).del k) := by
  have same : ∃ G', Recov c.u s.ifiles s.dfiles G' ∧ (absKV G' = absKV G ∨ absKV G' = (absKV G).del k) :=
    ⟨G, h.recov, Or.inl rfl⟩
  have key : ∀ io, ∃ G', Recov c.u (dsCommand { c with io := io } br s .del [n, k]).2.1.ifiles
      (dsCommand { c with io := io } br s .del [n, k]).2.1.dfiles G' ∧
      (absKV G' = absKV G ∨ absKV G' = (absKV G).del k) := by
    intro io
    simp only [dsCommand, cmdDel]
    split
    · exact same
    · exact del_left h [n, k] k io
  have hj : ((dsCommand c br s .del [n, k]).2.1.indexid != s.indexid) = false := by
    rw [del_indexid]; simp
  cases p with
  | start => exact same
  | jumpIndex m => simp only [deathFiles, hj]; exact same
  | jumpData m => simp only [deathFiles, hj]; exact same
  | _ => exact key _

/-- Executions of a new user-key namespace in which the process may die during commands. -/
structure LifeRun (cfg : Option Mode) (u : Nat) (tr : List (LifeEv × Reply)) (br' : Branches)
    (s' : Store) : Prop where
  hcfg : cfg = none ∨ cfg = some .user
  run : ∃ br0 br s, (∀ h, nsBranch br0 u h = []) ∧ freshNs cfg br0 u = .ok br s ∧
    CrashRun cfg u br s tr br' s'
  ev : ∀ x ∈ tr, LifeOK x.1
  len : tr.length ≤ maxEvents

theorem LifeRun.inv {cfg : Option Mode} {u : Nat} {tr : List (LifeEv × Reply)} {br' : Branches}
    {s' : Store} (h : LifeRun cfg u tr br' s') :
    ∃ G, UInv br' u s' G ∧ s'.ifiles.length ≤ tr.length + 1 ∧ totalData s' ≤ 28 + tr.length * 2 ^ 24 ∧
      ∀ k, ((absKV G).get k).map (·.payload) ∈ possible k tr := by
  obtain ⟨br0, br, s, h0, h1, h2⟩ := h.run
  have hm : cfg.getD .user = .user := by rcases h.hcfg with rfl | rfl <;> rfl
  rw [freshNs_eq, hm] at h1
  injection h1 with h1 h1'
  subst h1; subst h1'
  obtain ⟨G, i1, i2, i3, i4⟩ := UInv.crashRun h.hcfg h2 (freshStore_uinv br0 u h0) h.ev
    (freshStore_room _ h.len)
  refine ⟨G, i1, ?_, ?_, ?_⟩
  · simp only [freshStore, List.length_cons, List.length_nil] at i2; omega
  · simp only [freshStore, totalData, List.map_cons, List.map_nil, List.sum_cons, List.sum_nil,
      freshDFHeader_length] at i3
    unfold totalData; omega
  · intro k
    exact i4 k [none] (by simp [absKV, live, locs, locsFrom, locsIn, KV.get])

end Zdb
