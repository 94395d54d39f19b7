/-
`--synctime` with `--secure` and no deletion, any number of files: what is on the disk is the state after an earlier
command, but for deleted flags in files left.
-/
import Verif.Lemmas.SyncTime
namespace Zdb

/-- The files that were synced once, as they were then. -/
def Disk.onDisk (D : Disk) : List Bytes × List Bytes := (D.i.filterMap DFile.safe, D.d.filterMap DFile.safe)

theorem filterMap_of_map {l m : List DFile} (h : l.map DFile.safe = m.map DFile.safe) :
    l.filterMap DFile.safe = m.filterMap DFile.safe := by
  have key : ∀ x : List DFile, x.filterMap DFile.safe = (x.map DFile.safe).filterMap id := by
    intro x; rw [List.filterMap_map]; rfl
  rw [key, key, h]

/-- The files left: all of the data files is on the disk, and all of the index files but deleted flags. -/
structure TInv (D : Disk) (s : Store) (G : Log) : Prop where
  left : ∀ (n : Nat) (x : DFile) (f : Bytes), n ≠ s.indexid → D.i[n]? = some x → s.ifiles[n]? = some f → IOk G n x f
  dleft : ∀ (n : Nat) (x : DFile) (f : Bytes), n ≠ s.indexid → D.d[n]? = some x → s.dfiles[n]? = some f →
    x = DFile.solid f

theorem TInv.mono {D : Disk} {s : Store} {G G' : Log} (h : TInv D s G)
    (hG : ∀ n p, FlagAt G n p → FlagAt G' n p) : TInv D s G' :=
  ⟨fun n x f h0 h1 h2 => (h.left n x f h0 h1 h2).mono (hG n), h.dleft⟩

theorem TInv.congr {D : Disk} {s t : Store} {G : Log} (h : TInv D s G) (h1 : t.files = s.files)
    (h2 : t.indexid = s.indexid) : TInv D t G := by
  have e1 : t.ifiles = s.ifiles := congrArg Prod.fst h1
  have e2 : t.dfiles = s.dfiles := congrArg Prod.snd h1
  exact ⟨by rw [e1, h2]; exact h.left, by rw [e2, h2]; exact h.dleft⟩

/-- Changes of the current files only. -/
theorem TInv.of {D D' : Disk} {s s' : Store} {G : Log} (h : TInv D s G) (hid : s'.indexid = s.indexid)
    (h1 : ∀ n, n ≠ s.indexid → D'.i[n]? = D.i[n]?) (h2 : ∀ n, n ≠ s.indexid → s'.ifiles[n]? = s.ifiles[n]?)
    (h3 : ∀ n, n ≠ s.indexid → D'.d[n]? = D.d[n]?) (h4 : ∀ n, n ≠ s.indexid → s'.dfiles[n]? = s.dfiles[n]?) :
    TInv D' s' G := by
  refine ⟨?_, ?_⟩
  · intro n x f h0 a b
    rw [hid] at h0
    rw [h1 n h0] at a
    rw [h2 n h0] at b
    exact h.left n x f h0 a b
  · intro n x f h0 a b
    rw [hid] at h0
    rw [h3 n h0] at a
    rw [h4 n h0] at b
    exact h.dleft n x f h0 a b

theorem modify_other {α : Type} (l : List α) {m n : Nat} (h : n ≠ m) (g : α → α) : (l.modify m g)[n]? = l[n]? := by
  rw [List.getElem?_modify]
  cases l[n]? with
  | none => rfl
  | some a => simp only [Option.map_eq_map, Option.map_some, if_neg (fun e : m = n => h e.symm)]

/-- All is on the disk, if the current files are. -/
theorem TInv.all {D : Disk} {s : Store} {G : Log} (h : TInv D s G) (hv : D.view = s.files)
    (h1 : ∀ x, D.i[s.indexid]? = some x → ∃ f, x = DFile.solid f)
    (h2 : ∀ x, D.d[s.indexid]? = some x → ∃ f, x = DFile.solid f) : DInv D s G := by
  have vi : D.i.map DFile.cur = s.ifiles := congrArg Prod.fst hv
  have vd : D.d.map DFile.cur = s.dfiles := congrArg Prod.snd hv
  refine ⟨?_, by rw [← vi]; simp, ?_⟩
  · rw [← vd, List.map_map]
    refine List.ext_getElem? (fun n => ?_)
    rw [List.getElem?_map]
    cases hx : D.d[n]? with
    | none => rfl
    | some x =>
      simp only [Option.map_some, Function.comp, Option.some.injEq]
      by_cases hn : n = s.indexid
      · subst hn
        obtain ⟨f, rfl⟩ := h2 x hx
        rfl
      · exact h.dleft n x x.cur hn hx (by rw [← vd, List.getElem?_map, hx]; rfl)
  · intro n x f hx hf
    by_cases hn : n = s.indexid
    · subst hn
      obtain ⟨g, rfl⟩ := h1 x hx
      rw [← vi, List.getElem?_map, hx] at hf
      cases hf
      exact IOk.synced G _ _
    · exact h.left n x f hn hx hf

theorem DInv.tinv {D : Disk} {s : Store} {G : Log} (h : DInv D s G) : TInv D s G := by
  refine ⟨fun n x f _ => h.idx n x f, ?_⟩
  intro n x f _ hx hf
  rw [h.d, List.getElem?_map, hf] at hx
  simpa using hx.symm

/-! ### what a SET does -/

theorem TInv.dataInsert {D : Disk} {s : Store} {G : Log} (h : TInv D s G) (hid : s.dataid = s.indexid) (cf : SyncConf)
    (now : Nat) (io : Io) (k p : Bytes) (fl crc ts : Nat) {A : List Op} (hA : QuietOps .data A)
    (ho : dataInsertOps s io k p fl crc ts = A ++ [.check .data s.dataid])
    (hAn : ∀ o ∈ A, ∃ b, o = .append .data s.dataid b) {b : Bytes} {prev : Nat}
    (hw : (dataInsert s io k p fl crc ts).1 = { s with dfiles := appendFile s.dfiles s.dataid b, dprev := prev }) :
    TInv (runOps cf now D (dataInsertOps s io k p fl crc ts)) (dataInsert s io k p fl crc ts).1 G := by
  rw [hw, ho]
  have key : ∀ (l : List Op) (E : Disk), (∀ o ∈ l, (∃ b, o = .append .data s.dataid b) ∨ o = .check .data s.dataid) →
      (runOps cf now E l).i = E.i ∧ ∀ n, n ≠ s.indexid → (runOps cf now E l).d[n]? = E.d[n]? := by
    intro l
    induction l with
    | nil => intro E _; exact ⟨rfl, fun _ _ => rfl⟩
    | cons o l ih =>
      intro E hl
      obtain ⟨a1, a2⟩ := ih (Op.run cf now E o) (fun x hx => hl x (List.mem_cons_of_mem _ hx))
      have : (Op.run cf now E o).i = E.i ∧ ∀ n, n ≠ s.indexid → (Op.run cf now E o).d[n]? = E.d[n]? := by
        rcases hl o (List.mem_cons_self ..) with ⟨b, rfl⟩ | rfl
        · exact ⟨rfl, fun n hn => modify_other _ (by rw [hid]; exact hn) _⟩
        · simp only [Op.run]
          split
          · exact ⟨rfl, fun n hn => modify_other _ (by rw [hid]; exact hn) _⟩
          · exact ⟨rfl, fun _ _ => rfl⟩
      exact ⟨a1.trans this.1, fun n hn => (a2 n hn).trans (this.2 n hn)⟩
  obtain ⟨k1, k2⟩ := key (A ++ [.check .data s.dataid]) D (by
    intro o h
    rcases List.mem_append.1 h with h | h
    · exact Or.inl (hAn o h)
    · exact Or.inr (by simpa using h))
  exact h.of rfl (fun n _ => by rw [k1]) (fun _ _ => rfl) k2
    (fun n hn => modify_other _ (by rw [hid]; exact hn) _)

theorem TInv.appendEntry {D : Disk} {s : Store} {G : Log} (h : TInv D s G) (cf : SyncConf)
    (now : Nat) {io : Io} (hio : io.iapp = none) (e : Entry) :
    TInv (runOps cf now D (appendEntryOps s io e)) (appendEntry s io e).1 G := by
  unfold appendEntryOps Zdb.appendEntry
  simp only [hio, WriteFault.ok, Option.isNone_none, if_true, cut_none]
  simp only [runOps, List.foldl_cons, List.foldl_nil, Op.run, Disk.on]
  generalize encItem _ = b
  split
  · refine h.of rfl (fun n hn => ?_) (fun n hn => modify_other _ hn _) (fun _ _ => rfl) (fun _ _ => rfl)
    exact (modify_other _ hn _).trans (modify_other _ hn _)
  · refine h.of rfl (fun n hn => modify_other _ hn _) (fun n hn => modify_other _ hn _) (fun _ _ => rfl) (fun _ _ => rfl)

theorem TInv.deleteDisk {D : Disk} {br : Branches} {u : Nat} {s : Store} {G : Log} (h : TInv D s G)
    (hu : UInv br u s G) {l : Loc} (hl : l ∈ live G) {io : Io} (hio : io.iflag = none) (cf : SyncConf) (now : Nat) :
    TInv (runOps cf now D (deleteDiskOps s io (l.entry u))) (deleteDisk s io (l.entry u)).1 G := by
  obtain ⟨pre, post, f1, f2⟩ := hu.irep.at (live_mem hl)
  have hfl := live_flag hu hl
  have hset : setItemFlags (encItem l.r.item) (setDeleted l.r.item.flags) = encItem l.r.kill.item := by
    rw [setItemFlags_encItem, hfl]; rfl
  have hrd : readExact (pre ++ (encItem l.r.item ++ post)) l.off (itemHdr + l.r.item.id.length) =
      some (encItem l.r.item) := readExact_at rfl f2.symm (by simp [itemHdr])
  obtain ⟨A, B, G1, g1, g2, G2, hs, k1, ⟨d, k2⟩, -⟩ := hu.killItem hl io hio
  have hops : deleteDiskOps s io (l.entry u) = [.write .index l.file l.off (encItem l.r.kill.item)] := by
    simp only [deleteDiskOps, Loc.entry, f1, hrd, hio, cut_none, hset]
  rw [hops, k2]
  simp only [runOps, List.foldl_cons, List.foldl_nil, Op.run, Disk.on]
  obtain ⟨a, c, a1, a2, a3⟩ := encItem_kill hfl
  refine ⟨?_, h.dleft⟩
  intro n x f h0 hx hf
  have h0 : n ≠ s.indexid := h0
  have hx : (D.i.modify l.file (fun x => x.put l.off (encItem l.r.kill.item)))[n]? = some x := hx
  have hf : (s.ifiles.modify l.file (fun f => pwrite f l.off (encItem l.r.kill.item)))[n]? = some f := hf
  by_cases hn : n = l.file
  · subst hn
    simp only [List.getElem?_modify, if_true, Option.map_eq_map] at hx hf
    cases hx0 : D.i[l.file]? with
    | none => rw [hx0] at hx; cases hx
    | some x0 =>
      rw [hx0] at hx
      rw [f1] at hf
      cases hx
      cases hf
      refine (h.left l.file x0 _ h0 hx0 f1).flag (a := pre ++ a) (c := c ++ post) (by rw [a2]; simp) ?_ ?_ ?_
      · rw [pwrite_at' rfl f2.symm (by simp [Rec.kill]), a3]; simp
      · simp [Rec.kill]; omega
      · refine ⟨l, live_mem hl, rfl, ?_⟩
        rw [List.length_append, f2, a1]
  · rw [modify_other _ hn] at hx hf
    exact h.left n x f h0 hx hf

/-- The system calls of a SET that writes to the files `n`. -/
def SetFormAt (n : Nat) (ops : List Op) : Prop :=
  ∃ A B, QuietOps .data A ∧ QuietOps .index B ∧ ops = A ++ ([.check .data n] ++ (B ++ [.check .index n]))

theorem modify_sync_is_solid (l : List DFile) (n : Nat) (x : DFile) (h : (l.modify n DFile.sync)[n]? = some x) :
    ∃ f, x = DFile.solid f := by
  simp only [List.getElem?_modify, if_true, Option.map_eq_map] at h
  cases hx : l[n]? with
  | none => rw [hx] at h; cases h
  | some y => rw [hx] at h; cases h; exact ⟨_, rfl⟩

/-- A SET that writes: both files are synced, or neither. -/
theorem SetFormAt.run {n : Nat} {ops : List Op} (h : SetFormAt n ops) (cf : SyncConf) (now : Nat) (D : Disk)
    (hl : D.ilast = D.dlast) :
    (cf.due D.ilast now = true ∧ (runOps cf now D ops).ilast = now ∧ (runOps cf now D ops).dlast = now ∧
      (∀ x, (runOps cf now D ops).i[n]? = some x → ∃ f, x = DFile.solid f) ∧
      (∀ x, (runOps cf now D ops).d[n]? = some x → ∃ f, x = DFile.solid f)) ∨
    (cf.due D.ilast now = false ∧ (runOps cf now D ops).onDisk = D.onDisk ∧
      (runOps cf now D ops).ilast = D.ilast ∧ (runOps cf now D ops).dlast = D.dlast) := by
  obtain ⟨A, B, hA, hB, rfl⟩ := h
  obtain ⟨d1, e1, e2⟩ := hA.data cf now D
  rw [runOps_append, e1, runOps_append]
  cases hdue : cf.due D.ilast now with
  | true =>
    left
    have e3 : runOps cf now { D with d := d1 } [.check .data n] =
        { D with d := d1.modify n DFile.sync, dlast := now } := by
      simp only [runOps, List.foldl_cons, List.foldl_nil, Op.run, Disk.last, ← hl, hdue, if_true, Disk.fsync]
    rw [e3, runOps_append]
    obtain ⟨i1, e4, -⟩ := hB.index cf now { D with d := d1.modify n DFile.sync, dlast := now }
    rw [e4]
    have e6 : runOps cf now { D with d := d1.modify n DFile.sync, dlast := now, i := i1 } [.check .index n] =
        { i := i1.modify n DFile.sync, d := d1.modify n DFile.sync, ilast := now, dlast := now } := by
      simp only [runOps, List.foldl_cons, List.foldl_nil, Op.run, Disk.last, hdue, if_true, Disk.fsync]
    rw [e6]
    exact ⟨rfl, rfl, rfl, fun x hx => modify_sync_is_solid _ _ x hx, fun x hx => modify_sync_is_solid _ _ x hx⟩
  | false =>
    right
    have e3 : runOps cf now { D with d := d1 } [.check .data n] = { D with d := d1 } := by
      simp only [runOps, List.foldl_cons, List.foldl_nil, Op.run, Disk.last, ← hl, hdue]
      rfl
    rw [e3, runOps_append]
    obtain ⟨i1, e4, e5⟩ := hB.index cf now { D with d := d1 }
    rw [e4]
    have e6 : runOps cf now { D with d := d1, i := i1 } [.check .index n] = { D with d := d1, i := i1 } := by
      simp only [runOps, List.foldl_cons, List.foldl_nil, Op.run, Disk.last, hdue]
      rfl
    rw [e6]
    refine ⟨rfl, ?_, rfl, rfl⟩
    simp only [Disk.onDisk, filterMap_of_map e2, filterMap_of_map e5]

theorem dataInsertOps_form' (s : Store) {io : Io} (h : (io.dhdr.ok && io.dpay.ok) = true) (k p : Bytes)
    (fl crc ts : Nat) : ∃ A, QuietOps .data A ∧ (∀ o ∈ A, ∃ b, o = Op.append .data s.dataid b) ∧
      dataInsertOps s io k p fl crc ts = A ++ [.check .data s.dataid] := by
  rw [Bool.and_eq_true] at h
  unfold dataInsertOps
  simp only [h.1, h.2, Bool.not_true, Bool.false_eq_true, if_false]
  refine ⟨[_, _], ?_, ?_, rfl⟩
  · intro o ho
    simp only [List.mem_cons, List.not_mem_nil, or_false] at ho
    rcases ho with rfl | rfl <;> rfl
  · intro o ho
    simp only [List.mem_cons, List.not_mem_nil, or_false] at ho
    rcases ho with rfl | rfl <;> exact ⟨_, rfl⟩

theorem appendEntry_indexid (s : Store) (io : Io) (e : Entry) : (appendEntry s io e).1.indexid = s.indexid := by
  unfold appendEntry
  simp only
  split <;> rfl

theorem insertUser_indexid (br : Branches) (s : Store) (u : Nat) (io : Io) (r : SetReq) :
    (insertUser br s u io r).2.1.indexid = s.indexid := by
  rw [← appendEntry_indexid s io (r.entry u)]
  unfold insertUser
  generalize appendEntry s io (r.entry u) = t
  obtain ⟨t, e, ok⟩ := t
  cases ok <;> rfl

theorem updateUser_indexid (br : Branches) (s : Store) (u : Nat) (io : Io) (r : SetReq) (ex : Entry) :
    (updateUser br s u io r ex).2.1.indexid = s.indexid := by
  unfold updateUser
  refine (appendEntry_indexid _ _ _).trans ?_
  exact deleteDisk_indexid s io ex

/-- The handler of SET: nothing is written and the reply is no key, or both files are written. -/
theorem TInv.setHandler {D : Disk} {c : Ctx} {br : Branches} {s : Store} {G : Log} (h : TInv D s G)
    (hu : UInv br c.u s G) (cf : SyncConf) (now : Nat) (hio : GoodIo c) (k p : Bytes) (ts : Nat) :
    TInv (runOps cf now D (setHandlerUserOps c s k p ts ((liveGet G k).map (Loc.entry c.u))))
      (setHandlerUser c br s k p ts ((liveGet G k).map (Loc.entry c.u))).2.1 G ∧
    (setHandlerUser c br s k p ts ((liveGet G k).map (Loc.entry c.u))).2.1.indexid = s.indexid ∧
    ((setHandlerUserOps c s k p ts ((liveGet G k).map (Loc.entry c.u)) = [] ∧
        ∀ b, (setHandlerUser c br s k p ts ((liveGet G k).map (Loc.entry c.u))).2.2 ≠ .bulk b) ∨
      SetFormAt s.indexid (setHandlerUserOps c s k p ts ((liveGet G k).map (Loc.entry c.u)))) := by
  unfold setHandlerUserOps
  unfold setHandlerUser
  by_cases hk : k.length = 0
  · simp only [if_pos hk]; exact ⟨h, trivial, Or.inl ⟨trivial, fun b => by simp⟩⟩
  simp only [if_neg hk]
  by_cases hup : upToDate s ((liveGet G k).map (Loc.entry c.u)) p = true
  · simp only [if_pos hup]; exact ⟨h, trivial, Or.inl ⟨trivial, fun b => by simp⟩⟩
  simp only [if_neg hup]
  obtain ⟨A, hA, hAn, hAe⟩ := dataInsertOps_form' s hio.data k p 0 (crc32 p) ts
  have hwo := dataInsert_ok (s := s) hio.data hu.dataFile k p 0 (crc32 p) ts rfl
  obtain ⟨b, prev, -, hw⟩ := hwo.eq
  have hdid : s.dataid = s.indexid := hu.did
  have h1 := h.dataInsert hdid cf now c.io k p 0 (crc32 p) ts hA hAe hAn hw
  have hu1 : UInv br c.u (Zdb.dataInsert s c.io k p 0 (crc32 p) ts).1 G := by
    rw [hw]; exact hu.appendData b prev
  have hoff : (Zdb.dataInsert s c.io k p 0 (crc32 p) ts).2 ≠ 0 := by
    rw [hwo.pos]
    obtain ⟨f, hf⟩ := hu.dataFile
    obtain ⟨t, ht⟩ := hu.dhead _ _ hf
    simp only [fileLen, hf, Option.getD_some, ht]
    simp
  have hid : (Zdb.dataInsert s c.io k p 0 (crc32 p) ts).1.indexid = s.indexid := by rw [hw]
  clear hw hwo
  rw [runOps_append]
  simp only [if_neg hoff]
  rw [hAe] at h1 ⊢
  rw [hdid] at h1 ⊢
  generalize Zdb.dataInsert s c.io k p 0 (crc32 p) ts = t at h1 hu1 hid ⊢
  obtain ⟨t, off⟩ := t
  simp only at h1 hu1 hid ⊢
  cases hg : liveGet G k with
  | none =>
    simp only [Option.map_none]
    have h2 := h1.appendEntry cf now hio.iapp (SetReq.entry ⟨k, off, p.length, crc32 p, 0, ts⟩ c.u)
    obtain ⟨B, hB, hBe⟩ := appendEntryOps_form t hio.iapp (SetReq.entry ⟨k, off, p.length, crc32 p, 0, ts⟩ c.u)
    have e1 := insertUser_indexid br t c.u c.io ⟨k, off, p.length, crc32 p, 0, ts⟩
    have e2 := appendEntry_indexid t c.io (SetReq.entry ⟨k, off, p.length, crc32 p, 0, ts⟩ c.u)
    have e3 := insertUser_sync br t c.u c.io ⟨k, off, p.length, crc32 p, 0, ts⟩
    have e4 := appendEntry_files t c.io (SetReq.entry ⟨k, off, p.length, crc32 p, 0, ts⟩ c.u)
    rw [e4] at e3
    refine ⟨h2.congr ?_ ?_, ?_, Or.inr ⟨A, B, hA, hB, ?_⟩⟩
    · rw [e3]
      generalize insertUser br t c.u c.io _ = x
      obtain ⟨_, _, ok⟩ := x
      cases ok <;> rfl
    · rw [e2, ← e1]
      generalize insertUser br t c.u c.io _ = x
      obtain ⟨_, _, ok⟩ := x
      cases ok <;> rfl
    · rw [← hid, ← e1]
      generalize insertUser br t c.u c.io _ = x
      obtain ⟨_, _, ok⟩ := x
      cases ok <;> rfl
    · simp only [hBe, hid, List.append_assoc]
  | some l =>
    simp only [Option.map_some, updateUserOps]
    have h2 := h1.deleteDisk hu1 (liveGet_some hg).1 hio.iflag cf now
    have h3 := (h2.congr (t := updateStats (Zdb.deleteDisk t c.io (l.entry c.u)).1 (l.entry c.u)
      (SetReq.entry ⟨k, off, p.length, crc32 p, 0, ts⟩ c.u)) rfl rfl).appendEntry cf now hio.iapp
      (updatedEntry (Zdb.deleteDisk t c.io (l.entry c.u)).1 (l.entry c.u)
        (SetReq.entry ⟨k, off, p.length, crc32 p, 0, ts⟩ c.u))
    obtain ⟨B, hB, hBe⟩ := appendEntryOps_form
      (updateStats (Zdb.deleteDisk t c.io (l.entry c.u)).1 (l.entry c.u)
        (SetReq.entry ⟨k, off, p.length, crc32 p, 0, ts⟩ c.u)) hio.iapp
      (updatedEntry (Zdb.deleteDisk t c.io (l.entry c.u)).1 (l.entry c.u)
        (SetReq.entry ⟨k, off, p.length, crc32 p, 0, ts⟩ c.u))
    have e0 : (updateStats (Zdb.deleteDisk t c.io (l.entry c.u)).1 (l.entry c.u)
        (SetReq.entry ⟨k, off, p.length, crc32 p, 0, ts⟩ c.u)).indexid = t.indexid :=
      deleteDisk_indexid t c.io (l.entry c.u)
    have e1 := updateUser_indexid br t c.u c.io ⟨k, off, p.length, crc32 p, 0, ts⟩ (l.entry c.u)
    have e2 := appendEntry_indexid (updateStats (Zdb.deleteDisk t c.io (l.entry c.u)).1 (l.entry c.u)
      (SetReq.entry ⟨k, off, p.length, crc32 p, 0, ts⟩ c.u)) c.io
      (updatedEntry (Zdb.deleteDisk t c.io (l.entry c.u)).1 (l.entry c.u)
        (SetReq.entry ⟨k, off, p.length, crc32 p, 0, ts⟩ c.u))
    have e3 := updateUser_files br t c.u c.io ⟨k, off, p.length, crc32 p, 0, ts⟩ (l.entry c.u)
    rw [updateUserOps, opsFiles_append, deleteDisk_files] at e3
    have e4 := appendEntry_files (updateStats (Zdb.deleteDisk t c.io (l.entry c.u)).1 (l.entry c.u)
      (SetReq.entry ⟨k, off, p.length, crc32 p, 0, ts⟩ c.u)) c.io
      (updatedEntry (Zdb.deleteDisk t c.io (l.entry c.u)).1 (l.entry c.u)
        (SetReq.entry ⟨k, off, p.length, crc32 p, 0, ts⟩ c.u))
    have e3 := e4.symm.trans e3
    rw [runOps_append]
    refine ⟨h3.congr ?_ ?_, ?_, Or.inr ⟨A, deleteDiskOps t c.io (l.entry c.u) ++ B, hA, ?_, ?_⟩⟩
    · rw [e3]
      generalize updateUser br t c.u c.io _ _ = x
      obtain ⟨_, _, ok⟩ := x
      cases ok <;> rfl
    · rw [e2, e0, ← e1]
      generalize updateUser br t c.u c.io _ _ = x
      obtain ⟨_, _, ok⟩ := x
      cases ok <;> rfl
    · rw [← hid, ← e1]
      generalize updateUser br t c.u c.io _ _ = x
      obtain ⟨_, _, ok⟩ := x
      cases ok <;> rfl
    · intro o ho
      rcases List.mem_append.1 ho with ho | ho
      · exact deleteDiskOps_quiet t c.io _ o ho
      · exact hB o ho
    · rw [hBe, e0, hid]
      simp only [List.append_assoc]

/-! ### leaving files -/

/-- All that the log `G` says is on the disk, whatever the files that were never synced. -/
def AllOn (u : Nat) (D : Disk) (G : Log) : Prop :=
  ∃ D0 br s0 G0, UInv br u s0 G0 ∧ DInv D0 s0 G0 ∧ locs G0 = locs G ∧ G0.length ≤ G.length + 1 ∧
    D.onDisk = D0.onDisk

theorem AllOn.congr {u : Nat} {D D' : Disk} {G : Log} (h : AllOn u D G) (he : D'.onDisk = D.onDisk) : AllOn u D' G := by
  obtain ⟨D0, br, s0, G0, h1, h2, h3, h4, h5⟩ := h
  exact ⟨D0, br, s0, G0, h1, h2, h3, h4, he.trans h5⟩

theorem due_now {cf : SyncConf} (hcf : cf.sync = false) (now : Nat) : cf.due now now = false := by
  simp [SyncConf.due, hcf]

/-- Leaving the files with `--secure`. -/
theorem TInv.jump {D : Disk} {br : Branches} {u : Nat} {s : Store} {G : Log} (h : TInv D s G) (hu : UInv br u s G)
    (hv : D.view = s.files) (hcap : G.length < 2 ^ 32) {cf : SyncConf} (hcf : cf.sync = false) (hsec : cf.secure = true)
    (now : Nat) (hl : D.ilast = D.dlast) :
    TInv (runOps cf now D (jumpOps s)) (Zdb.jump s) G ∧
    (runOps cf now D (jumpOps s)).ilast = (runOps cf now D (jumpOps s)).dlast ∧
    ((runOps cf now D (jumpOps s)).ilast = D.ilast ∨ (runOps cf now D (jumpOps s)).ilast = now) ∧
    cf.due (runOps cf now D (jumpOps s)).ilast now = false ∧ AllOn u (runOps cf now D (jumpOps s)) G := by
  have hid : (s.indexid + 1) % 2 ^ 32 = G.length := by rw [hu.iid, Nat.mod_eq_of_lt hcap]
  have hil := hu.irep.length
  have hm : s.mode.byte = Mode.user.byte := by rw [hu.mode]
  have hju := hu.jump hcap
  have hjv : (runOps cf now D (jumpOps s)).view = (Zdb.jump s).files := by rw [view_runOps, hv, jump_files]
  obtain ⟨-, j1, j2, j3⟩ := hu.toCore.jump (by rw [hu.mode]; rfl) hcap
  have vi : D.i.map DFile.cur = s.ifiles := congrArg Prod.fst hv
  have vd : D.d.map DFile.cur = s.dfiles := congrArg Prod.snd hv
  have li : D.i.length = G.length := by rw [← hil, ← vi, List.length_map]
  have ld : D.d.length = G.length := by rw [← hu.dlen, ← vd, List.length_map]
  have hdid : s.dataid = s.indexid := hu.did
  have hlt : s.indexid < G.length := by have := hu.iid; omega
  -- the files left
  have h0 : DInv { D with i := D.i.modify s.indexid DFile.sync, d := D.d.modify s.indexid DFile.sync } s G := by
    refine TInv.all (h.of (D' := { D with i := D.i.modify s.indexid DFile.sync, d := D.d.modify s.indexid DFile.sync })
      (s' := s) rfl (fun n hn => modify_other _ hn _) (fun _ _ => rfl)
      (fun n hn => modify_other _ hn _) (fun _ _ => rfl)) ?_ (fun x hx => modify_sync_is_solid _ _ x hx)
      (fun x hx => modify_sync_is_solid _ _ x hx)
    rw [← hv]
    simp only [Disk.view, map_modify_sync]
  generalize hE : ({ D with i := D.i.modify s.indexid DFile.sync, d := D.d.modify s.indexid DFile.sync } : Disk) = E at h0
  have hEi : E.i = D.i.modify s.indexid DFile.sync := by rw [← hE]
  have hEd : E.d = D.d.modify s.indexid DFile.sync := by rw [← hE]
  have hEli : E.i.length = G.length := by rw [hEi, List.length_modify, li]
  have hEld : E.d.length = G.length := by rw [hEd, List.length_modify, ld]
  have key : (cf.due D.ilast now = true ∧ runOps cf now D (jumpOps s) =
        ⟨E.i ++ [DFile.solid (encIHeader (freshIHeader G.length s.mode.byte))],
          E.d ++ [DFile.solid (encDFHeader (freshDFHeader G.length))], now, now⟩) ∨
      (cf.due D.ilast now = false ∧ runOps cf now D (jumpOps s) =
        ⟨E.i ++ [⟨none, [(0, encIHeader (freshIHeader G.length s.mode.byte))]⟩],
          E.d ++ [⟨none, [(0, encDFHeader (freshDFHeader G.length))]⟩], D.ilast, D.ilast⟩) := by
    have hmod : ∀ (l : List DFile) (b : Bytes) (n : Nat), l.length = n →
        (l ++ [({ safe := none, pend := [(0, b)] } : DFile)]).modify n DFile.sync = l ++ [DFile.solid b] := by
      intro l b n hn
      subst hn
      induction l with
      | nil => simp [DFile.sync, DFile.cur, pwrite, DFile.solid]
      | cons x l ih => simp [ih]
    unfold jumpOps indexCreateOps dataInitializeOps
    simp only [hid, hil, hu.dlen, Nat.lt_irrefl, if_false, hdid]
    cases hdue : cf.due D.ilast now with
    | true =>
      left
      refine ⟨rfl, ?_⟩
      simp only [runOps, List.cons_append, List.nil_append, List.foldl_cons, List.foldl_nil, Op.run, Disk.on, hsec,
        Disk.last, if_true, hdue, Disk.fsync, ← hl, ← hEi, ← hEd]
      rw [hmod _ _ _ hEli, hmod _ _ _ hEld]
    | false =>
      right
      refine ⟨rfl, ?_⟩
      simp only [runOps, List.cons_append, List.nil_append, List.foldl_cons, List.foldl_nil, Op.run, Disk.on, hsec,
        Disk.last, if_true, hdue, Disk.fsync, ← hl, ← hEi, ← hEd, Bool.false_eq_true, if_false]
  have ht : ∀ (x y : DFile) (a b : Nat), TInv ⟨E.i ++ [x], E.d ++ [y], a, b⟩ (Zdb.jump s) G := by
    intro x y a b
    refine ⟨?_, ?_⟩
    · intro n z f hn hz hf
      rw [j3] at hn
      rw [j2] at hf
      have : n < G.length := by
        have := (List.getElem?_eq_some_iff.1 hz).1
        simp only [List.length_append, List.length_singleton, hEli] at this
        omega
      simp only at hz
      rw [List.getElem?_append_left (by omega)] at hz hf
      exact h0.idx n z f hz hf
    · intro n z f hn hz hf
      rw [j3] at hn
      rw [j1] at hf
      have : n < G.length := by
        have := (List.getElem?_eq_some_iff.1 hz).1
        simp only [List.length_append, List.length_singleton, hEld] at this
        omega
      simp only at hz
      rw [List.getElem?_append_left (by omega)] at hz
      rw [List.getElem?_append_left (by rw [hu.dlen]; omega)] at hf
      rw [h0.d, List.getElem?_map, hf] at hz
      simpa using hz.symm
  rcases key with ⟨k1, k2⟩ | ⟨k1, k2⟩
  · rw [k2]
    refine ⟨ht _ _ _ _, rfl, Or.inr rfl, due_now hcf now, ?_⟩
    refine ⟨_, br, Zdb.jump s, logJump G, hju, ?_, locs_jump G, by simp [logJump], rfl⟩
    refine DInv.mono (G := G) ?_ (fun n p hp => by simpa only [FlagAt, locs_jump] using hp)
    rw [k2] at hjv
    refine (ht _ _ _ _).all hjv ?_ ?_
    · intro x hx
      rw [j3] at hx
      simp only at hx
      rw [List.getElem?_append_right (by omega)] at hx
      simp [hEli] at hx
      exact ⟨_, hx.symm⟩
    · intro x hx
      rw [j3] at hx
      simp only at hx
      rw [List.getElem?_append_right (by omega)] at hx
      simp [hEld] at hx
      exact ⟨_, hx.symm⟩
  · rw [k2]
    refine ⟨ht _ _ _ _, rfl, Or.inl rfl, k1, ?_⟩
    refine ⟨E, br, s, G, hu, h0, rfl, by omega, ?_⟩
    simp [Disk.onDisk]

/-! ### commands -/

/-- What a command without deletion does to the disk: nothing new is synced, and no SET is acknowledged or the last
    sync is recent; or all is synced; or the files were left, and all that was there before the command is synced. -/
def SyncEff (cf : SyncConf) (now u : Nat) (D : Disk) (G : Log) (D' : Disk) (s' : Store) (acked : Prop) : Prop :=
  TInv D' s' G ∧ D'.ilast = D'.dlast ∧
    ((D'.onDisk = D.onDisk ∧ D'.ilast = D.ilast ∧ (acked → cf.due D.ilast now = false)) ∨
     (D'.ilast = now ∧ ∀ G', (∀ n p, FlagAt G n p → FlagAt G' n p) → DInv D' s' G') ∨
     ((D'.ilast = D.ilast ∨ D'.ilast = now) ∧ cf.due D'.ilast now = false ∧ AllOn u D' G))

theorem SyncEff.none {cf : SyncConf} {now u : Nat} {D : Disk} {G : Log} {s : Store} {a : Prop} (h : TInv D s G)
    (hl : D.ilast = D.dlast) (ha : ¬a) : SyncEff cf now u D G D s a :=
  ⟨h, hl, Or.inl ⟨rfl, rfl, fun h => absurd h ha⟩⟩

theorem TInv.setBody {D : Disk} {c : Ctx} {br : Branches} {s : Store} {G : Log} (h : TInv D s G)
    (hu : UInv br c.u s G) (hv : D.view = s.files) {cf : SyncConf} (hcf : cf.sync = false) (hsec : cf.secure = true)
    (hio : GoodIo c) (hcap : G.length < 2 ^ 32) (hl : D.ilast = D.dlast) (argv : List Bytes) (k p : Bytes) :
    SyncEff cf c.now c.u D G (runOps cf c.now D (cmdSetOps.body c br s argv k p)) (cmdSet.body c br s argv k p).2.1
      (∃ b, (cmdSet.body c br s argv k p).2.2 = .bulk b) := by
  have hview : (runOps cf c.now D (cmdSetOps.body c br s argv k p)).view = (cmdSet.body c br s argv k p).2.1.files := by
    rw [view_runOps, hv, cmdSet_body_files]
  unfold cmdSetOps.body at hview ⊢
  unfold cmdSet.body at hview ⊢
  split
  · exact SyncEff.none h hl (by simp)
  split
  · exact SyncEff.none h hl (by simp [errReadOnly])
  split
  · exact SyncEff.none h hl (by simp [errFrozen])
  split
  · exact SyncEff.none h hl (by simp [errLocked])
  rename_i a1 a2 a3 a4
  simp only [if_neg a1, if_neg a2, if_neg a3, if_neg a4] at hview
  simp only at hview ⊢
  have hentry : (if k.length ≠ 0 then indexGet br s c.u k else none) =
      (liveGet G k).map (Loc.entry c.u) := by
    by_cases h0 : k.length = 0
    · rw [List.length_eq_zero_iff.1 h0]; simp [liveGet_nil hu]
    · rw [if_pos h0, hu.indexGet]
  rw [hentry] at hview ⊢
  split
  · exact SyncEff.none h hl (by simp)
  split
  · exact SyncEff.none h hl (by simp)
  rename_i a5 a6
  simp only [if_neg a5, if_neg a6] at hview
  simp only [hu.mode] at hview ⊢
  unfold jumpIfFullOps jumpIfFull at hview ⊢
  by_cases hj : fileLen s.dfiles s.dataid + p.length > c.limit
  · simp only [if_pos hj] at hview ⊢
    clear hview
    rw [runOps_append]
    obtain ⟨t1, t2, t3, t4, t5⟩ := h.jump hu hv hcap hcf hsec c.now hl
    generalize runOps cf c.now D (jumpOps s) = D1 at t1 t2 t3 t4 t5 ⊢
    have hu1 := hu.jump hcap
    have e : liveGet (logJump G) k = liveGet G k := by rw [liveGet, live_jump]; rfl
    have t6 := (t1.mono (G' := logJump G) (fun n p hp => by simpa only [FlagAt, locs_jump] using hp)).setHandler
      hu1 cf c.now hio k p (timestampFromSet c.now argv 3)
    rw [e] at t6
    obtain ⟨t6, -, t7⟩ := t6
    rcases t7 with ⟨t7, -⟩ | t7
    · rw [t7] at t6 ⊢
      exact ⟨t6.mono (fun n p hp => hp.jump), t2, Or.inr (Or.inr ⟨t3, t4, t5⟩)⟩
    · rcases t7.run cf c.now D1 t2 with ⟨b1, -⟩ | ⟨b1, b2, b3, b4⟩
      · rw [t4] at b1; cases b1
      · refine ⟨t6.mono (fun n p hp => hp.jump), by rw [b3, b4, t2], Or.inr (Or.inr ⟨?_, by rw [b3]; exact t4, t5.congr b2⟩)⟩
        rw [b3]; exact t3
  · simp only [if_neg hj, List.nil_append] at hview ⊢
    obtain ⟨t6, t8, t7⟩ := h.setHandler hu cf c.now hio k p (timestampFromSet c.now argv 3)
    rcases t7 with ⟨t7, t9⟩ | t7
    · rw [t7] at t6 ⊢
      exact ⟨t6, hl, Or.inl ⟨rfl, rfl, fun ⟨b, hb⟩ => absurd hb (t9 b)⟩⟩
    · rcases t7.run cf c.now D hl with ⟨b1, b2, b3, b4, b5⟩ | ⟨b1, b2, b3, b4⟩
      · refine ⟨t6, by rw [b2, b3], Or.inr (Or.inl ⟨b2, fun G' hG' => ?_⟩)⟩
        refine (t6.all hview ?_ ?_).mono hG'
        · rw [t8]; exact b4
        · rw [t8]; exact b5
      · exact ⟨t6, by rw [b3, b4, hl], Or.inl ⟨b2, b3, fun _ => b1⟩⟩

theorem TInv.command {D : Disk} {c : Ctx} {br : Branches} {s : Store} {G : Log} (h : TInv D s G)
    (hu : UInv br c.u s G) (hv : D.view = s.files) {cf : SyncConf} (hcf : cf.sync = false) (hsec : cf.secure = true)
    (hio : GoodIo c) (hcap : G.length < 2 ^ 32) (hl : D.ilast = D.dlast) (d : DsCmd) (hd : d ≠ .del)
    (argv : List Bytes) :
    SyncEff cf c.now c.u D G (runOps cf c.now D (dsOps c br s d argv)) (dsCommand c br s d argv).2.1
      (Acked (.cmd c d argv, (dsCommand c br s d argv).2.2)) := by
  cases d with
  | set =>
    have key : ∀ r : Reply, Acked (.cmd c .set argv, r) → ∃ b, r = .bulk b := by
      rintro r ⟨k, p, hk⟩
      unfold writeOf at hk
      split at hk
      · rename_i h; simp only [Prod.mk.injEq] at h; exact ⟨_, h.2⟩
      · split at hk <;> simp at hk
      · simp at hk
    have lift : ∀ x : Branches × Store × Reply, ∀ ops : List Op,
        SyncEff cf c.now c.u D G (runOps cf c.now D ops) x.2.1 (∃ b, x.2.2 = .bulk b) →
        SyncEff cf c.now c.u D G (runOps cf c.now D ops) x.2.1 (Acked (.cmd c .set argv, x.2.2)) := by
      rintro x ops ⟨e1, e2, e3⟩
      refine ⟨e1, e2, ?_⟩
      rcases e3 with ⟨f1, f2, f3⟩ | e3
      · exact Or.inl ⟨f1, f2, fun hk => f3 (key _ hk)⟩
      · exact Or.inr e3
    simp only [dsOps, dsCommand]
    apply lift (cmdSet c br s argv)
    unfold cmdSetOps cmdSet
    match argv with
    | [] => exact SyncEff.none h hl (by simp [errArgs])
    | [_] => exact SyncEff.none h hl (by simp [errArgs])
    | [_, _] => exact SyncEff.none h hl (by simp [errArgs])
    | [_, k, p] => exact h.setBody hu hv hcf hsec hio hcap hl ..
    | [_, k, p, _] =>
      simp only
      by_cases ha : c.admin = true
      · simp only [if_pos ha]
        exact h.setBody hu hv hcf hsec hio hcap hl ..
      · simp only [if_neg ha]
        exact SyncEff.none h hl (by simp [errDenied])
    | _ :: _ :: _ :: _ :: _ :: _ => exact SyncEff.none h hl (by simp [errArgs])
  | del => exact absurd rfl hd
  | nsjump =>
    simp only [dsOps, dsCommand, cmdNsjump]
    by_cases ha : c.admin = true
    · simp only [if_pos ha]
      obtain ⟨t1, t2, t3, t4, t5⟩ := h.jump hu hv hcap hcf hsec c.now hl
      exact ⟨t1, t2, Or.inr (Or.inr ⟨t3, t4, t5⟩)⟩
    · simp only [if_neg ha]
      exact SyncEff.none h hl (by rintro ⟨k, p, hk⟩; simp [writeOf] at hk)
  | index =>
    simp only [dsOps, dsCommand]
    rcases cmdIndex_cases c s argv with hx | hx <;> rw [hx] <;>
      exact SyncEff.none (h.congr rfl rfl) hl (by rintro ⟨k, p, hk⟩; simp [writeOf] at hk)
  | _ => exact SyncEff.none h hl (by rintro ⟨k, p, hk⟩; simp [writeOf] at hk)

/-! ### executions -/

/-- The log says what the trace says. -/
def Says (G : Log) (tr : List (NsEvent × Reply)) : Prop :=
  ∀ k, (liveGet G k).map (fun l => l.r.payload) = lastWrite k tr ∧
    (lastOf (locs G) k).map (fun l => l.r.payload) = lastSet k tr

theorem Says.congr {G G' : Log} {tr : List (NsEvent × Reply)} (h : Says G tr) (hl : locs G' = locs G) : Says G' tr := by
  intro k
  have e : liveGet G' k = liveGet G k := by rw [liveGet, live, hl]; rfl
  rw [e, hl]
  exact h k

/-- The disk holds the state after `tr1`; the SETs acknowledged since, `tr2`, are at most `T` seconds after `L`. -/
structure SnapS (T : Nat) (u : Nat) (D : Disk) (L : Nat) (tr1 tr2 : List (NsEvent × Reply)) : Prop where
  il : D.ilast = L
  recent : ∀ x ∈ tr2, Acked x → ∃ t, evTime x.1 = some t ∧ L ≤ t ∧ t ≤ L + T
  state : ∃ G, AllOn u D G ∧ Says G tr1 ∧ G.length ≤ tr1.length + 1

theorem lastSet_snoc (k : Bytes) (tr : List (NsEvent × Reply)) (x : NsEvent × Reply) :
    lastSet k (tr ++ [x]) = setStep k (lastSet k tr) x := by
  simp only [lastSet, List.foldl_append, List.foldl_cons, List.foldl_nil]
  rfl

theorem SnapS.run {cfg : Option Mode} {cf : SyncConf} (hcf : cf.sync = false) (hsec : cf.secure = true) {T : Nat}
    (hT : cf.synctime = T) (hT0 : 0 < T) {u : Nat} {br br' : Branches} {s s' : Store} {D D' : Disk}
    {tr : List (NsEvent × Reply)} (hr : DiskRun cfg cf u br s D tr br' s' D') {G : Log} (hu : UInv br u s G)
    (hv : D.view = s.files) (ht : TInv D s G) (hl : D.ilast = D.dlast)
    (hev : ∀ x ∈ tr, (EvOK x.1 ∧ NoFault x.1) ∧ NoDel x.1)
    (hroom : Room s.ifiles.length (totalData s) tr.length)
    (hclock : Clock tr) {L : Nat} {tr1 tr2 : List (NsEvent × Reply)} (hS : SnapS T u D L tr1 tr2)
    (hL : ∀ x ∈ tr, ∀ t, evTime x.1 = some t → L ≤ t)
    (hG : Says G (tr1 ++ tr2)) (hGl : G.length ≤ (tr1 ++ tr2).length + 1) :
    ∃ L' tr1' tr2', tr1 ++ tr2 ++ tr = tr1' ++ tr2' ∧ SnapS T u D' L' tr1' tr2' ∧
      ∃ G', TInv D' s' G' ∧ UInv br' u s' G' ∧ D'.view = s'.files := by
  induction hr generalizing G L tr1 tr2 with
  | nil br s D => exact ⟨L, tr1, tr2, by simp, hS, G, ht, hu, hv⟩
  | @cmd c d argv br br1 br2 s s1 s2 D D2 r tr hcu e1 e2 ih =>
    subst hcu
    obtain ⟨⟨⟨hc, ha⟩, hio⟩, hnd⟩ := hev _ (List.mem_cons_self ..)
    have hev' := fun x hx => hev x (List.mem_cons_of_mem (NsEvent.cmd c d argv, r) hx)
    obtain ⟨G1, i1, i2, i3, i4⟩ := hu.command hc d argv ha (hroom.mono (by simp))
    have hg := dsCommand_grows c br s d argv (2 ^ 23) ha.size
    have hlive : ∀ k, (liveGet G1 k).map (fun l => l.r.payload) =
        (writeOf k (.cmd c d argv, (dsCommand c br s d argv).2.2)).getD
          ((liveGet G k).map (fun l => l.r.payload)) := by
      intro k
      have := agrees_get (absKV G) [(.cmd c d argv, (dsCommand c br s d argv).2.2)] ⟨i3, trivial⟩ k
      simp only [List.map_cons, List.map_nil, specRun, specEvent, List.foldl_cons, List.foldl_nil, ← i2, absKV_get,
        Option.map_map] at this
      exact this
    have hil := hu.irep.length
    have hcap : G.length < 2 ^ 32 := by have := hroom.1; omega
    have heff := ht.command hu hv hcf hsec ⟨hio.1, hio.2.1, hio.2.2.1, hio.2.2.2.1⟩ hcap hl d hnd argv
    have hview : (runOps cf c.now D (dsOps c br s d argv)).view = (dsCommand c br s d argv).2.1.files := by
      rw [view_runOps, hv, dsOps_files]
    have hnow := hL _ (List.mem_cons_self ..) c.now rfl
    rw [e1] at i1 i4 hg hlive heff hview
    simp only at i1 hg hlive heff hview
    have hflag : ∀ n p, FlagAt G n p → FlagAt G1 n p := fun n p hp => i4.flagAt hp
    have hclock' : Clock tr := (List.pairwise_cons.1 hclock).2
    have hlater : ∀ x ∈ tr, ∀ t, evTime x.1 = some t → c.now ≤ t := fun x hx t ht =>
      (List.pairwise_cons.1 hclock).1 x hx _ _ rfl ht
    have hG1 : Says G1 (tr1 ++ tr2 ++ [(.cmd c d argv, r)]) := by
      intro k
      refine ⟨?_, ?_⟩
      · rw [hlive k, lastWrite_snoc, (hG k).1]
      · rw [i4.lastOf (br := br) (s := s) i1 k (hlive k), lastSet_snoc, ← (hG k).2]; rfl
    have hil1 := i1.irep.length
    have hG1l : G1.length ≤ (tr1 ++ tr2 ++ [(NsEvent.cmd c d argv, r)]).length + 1 := by
      have := hg.2
      simp only [List.length_append, List.length_singleton] at *
      omega
    obtain ⟨f1, f2, f3⟩ := heff
    have finish : ∀ (L1 : Nat) (t1 t2 : List (NsEvent × Reply)), t1 ++ t2 = tr1 ++ tr2 ++ [(NsEvent.cmd c d argv, r)] →
        SnapS T c.u (runOps cf c.now D (dsOps c br s d argv)) L1 t1 t2 → L1 ≤ c.now →
        ∃ L' tr1' tr2', tr1 ++ tr2 ++ (.cmd c d argv, r) :: tr = tr1' ++ tr2' ∧ SnapS T c.u D2 L' tr1' tr2' ∧
          ∃ G', TInv D2 s2 G' ∧ UInv br2 c.u s2 G' ∧ D2.view = s2.files := by
      intro L1 t1 t2 et hS' hL1
      obtain ⟨L', a1, a2, b1, b2⟩ := ih i1 hview (f1.mono hflag) f2 hev' (hroom.step hg (by omega)) hclock' hS'
        (fun x hx t ht => Nat.le_trans hL1 (hlater x hx t ht)) (by rw [et]; exact hG1) (by rw [et]; exact hG1l)
      refine ⟨L', a1, a2, ?_, b2⟩
      rw [← b1, et]; simp
    have hdue : ∀ a b, cf.due a b = false → b ≤ a + T := by
      intro a b h
      unfold SyncConf.due at h
      rw [hcf, hT] at h
      simp at h
      omega
    rcases f3 with ⟨g1, g2, g3⟩ | ⟨g1, g2⟩ | ⟨g1, g2, g3⟩
    · refine finish L tr1 (tr2 ++ [(.cmd c d argv, r)]) (by simp) ⟨g2.trans hS.il, ?_, ?_⟩ hnow
      · intro x hx hk
        rcases List.mem_append.1 hx with hx | hx
        · exact hS.recent x hx hk
        · simp only [List.mem_singleton] at hx
          subst hx
          refine ⟨c.now, rfl, hnow, ?_⟩
          rw [← hS.il]
          exact hdue _ _ (g3 hk)
      · obtain ⟨G0, s1', s2', s3'⟩ := hS.state
        exact ⟨G0, s1'.congr g1, s2', s3'⟩
    · refine finish c.now (tr1 ++ tr2 ++ [(.cmd c d argv, r)]) [] (by simp) ⟨g1, by simp, ?_⟩ (Nat.le_refl _)
      exact ⟨G1, ⟨_, br1, s1, G1, i1, g2 G1 hflag, rfl, by omega, rfl⟩, hG1, hG1l⟩
    · refine finish (runOps cf c.now D (dsOps c br s d argv)).ilast (tr1 ++ tr2) [(.cmd c d argv, r)] rfl
        ⟨rfl, ?_, ?_⟩ ?_
      · intro x hx hk
        simp only [List.mem_singleton] at hx
        subst hx
        refine ⟨c.now, rfl, ?_, hdue _ _ g2⟩
        rcases g1 with g1 | g1
        · rw [g1, hS.il]; exact hnow
        · rw [g1]; exact Nat.le_refl _
      · exact ⟨G, g3, hG, hGl⟩
      · rcases g1 with g1 | g1
        · rw [g1, hS.il]; exact hnow
        · rw [g1]; exact Nat.le_refl _
  | @foreign br br1 br2 s s2 D D2 tr e1 e2 ih =>
    have hS' : SnapS T u D L tr1 (tr2 ++ [(.foreign, .nil)]) := by
      refine ⟨hS.il, ?_, hS.state⟩
      intro x hx hk
      rcases List.mem_append.1 hx with hx | hx
      · exact hS.recent x hx hk
      · simp only [List.mem_singleton] at hx
        subst hx
        obtain ⟨k, p, h⟩ := hk
        cases h
    obtain ⟨L', t1, t2, b1, b2⟩ := ih (hu.foreign e1) hv ht hl (fun x hx => hev x (List.mem_cons_of_mem _ hx))
      (hroom.mono (by simp)) (List.pairwise_cons.1 hclock).2 hS'
      (fun x hx t ht => hL x (List.mem_cons_of_mem _ hx) t ht)
      (fun k => by
        rw [← List.append_assoc, lastWrite_snoc, lastSet_snoc]
        exact hG k)
      (by simp only [List.length_append, List.length_singleton] at *; omega)
    refine ⟨L', t1, t2, ?_, b2⟩
    rw [← b1]; simp
  | reload t e1 e2 ih => exact (hev _ (List.mem_cons_self ..)).2.elim

/-- What was synced, at the end of an execution from a new namespace. -/
theorem SyncRun.snapS {cfg : Option Mode} {cf : SyncConf} (hcf : cf.sync = false) (hsec : cf.secure = true) {T : Nat}
    (hT : cf.synctime = T) (hT0 : 0 < T) {u t : Nat} {tr : List (NsEvent × Reply)} {br : Branches} {s : Store}
    {D : Disk} (h : SyncRun cfg cf u t tr br s D) (hnd : ∀ x ∈ tr, NoDel x.1) (hclock : Clock tr)
    (ht : T < t) (hlater : ∀ x ∈ tr, ∀ a, evTime x.1 = some a → t ≤ a) :
    ∃ L tr1 tr2, tr = tr1 ++ tr2 ∧ SnapS T u D L tr1 tr2 ∧ ∃ G', TInv D s G' ∧ UInv br u s G' ∧ D.view = s.files := by
  subst hT
  obtain ⟨b0, b, s0, h0, e1, e2⟩ := h.run
  have hm : cfg.getD .user = .user := by rcases h.hcfg with rfl | rfl <;> rfl
  rw [freshNs_eq, hm] at e1
  injection e1 with e1 e1'
  subst e1; subst e1'
  have hlen := h.len
  have hlw : Says [[]] [] := by
    intro k; simp [lastWrite, lastSet, liveGet, live, locs, locsFrom, locsIn, lastOf]
  obtain ⟨f1, f2, f3, f4⟩ := fresh_time hcf hT0 ht
  have hon : (Disk.fresh cf t .user).onDisk =
      (Disk.onDisk ⟨(freshStore .user).ifiles.map DFile.solid, (freshStore .user).dfiles.map DFile.solid, t, t⟩) := by
    have g1 : (Disk.fresh cf t .user).i.map DFile.safe = ((freshStore .user).ifiles.map DFile.solid).map DFile.safe := by
      rw [show (Disk.fresh cf t .user).i.map DFile.safe = _ from congrArg Prod.fst f1, List.map_map]; rfl
    have g2 : (Disk.fresh cf t .user).d.map DFile.safe = ((freshStore .user).dfiles.map DFile.solid).map DFile.safe := by
      rw [show (Disk.fresh cf t .user).d.map DFile.safe = _ from congrArg Prod.snd f1, List.map_map]; rfl
    simp only [Disk.onDisk, filterMap_of_map g1, filterMap_of_map g2]
  have hD0 : DInv ⟨(freshStore .user).ifiles.map DFile.solid, (freshStore .user).dfiles.map DFile.solid, t, t⟩
      (freshStore .user) [[]] := by
    refine ⟨rfl, by simp, ?_⟩
    intro n x f h1 h2
    simp only [List.getElem?_map, h2, Option.map_some, Option.some.injEq] at h1
    rw [← h1]; exact IOk.synced _ n f
  have hS : SnapS cf.synctime u (Disk.fresh cf t .user) t [] [] :=
    ⟨f3, by simp, [[]], ⟨_, b0, _, _, freshStore_uinv b0 u h0, hD0, rfl, by simp, hon⟩, hlw, by simp⟩
  have hti : TInv (Disk.fresh cf t .user) (freshStore .user) [[]] := by
    have li : (freshStore .user).ifiles.length = 1 := rfl
    have ld : (freshStore .user).dfiles.length = 1 := rfl
    refine ⟨?_, ?_⟩
    · intro n x f hn _ hf
      have := (List.getElem?_eq_some_iff.1 hf).1
      exact absurd (show n = 0 by omega) hn
    · intro n x f hn _ hf
      have := (List.getElem?_eq_some_iff.1 hf).1
      exact absurd (show n = 0 by omega) hn
  obtain ⟨L, tr1, tr2, a, b⟩ := SnapS.run hcf hsec rfl hT0 e2 (freshStore_uinv b0 u h0) f2 hti (f3.trans f4.symm)
    (fun x hx => ⟨h.ev x hx, hnd x hx⟩) (freshStore_room _ (by omega)) hclock hS hlater hlw (by simp)
  exact ⟨L, tr1, tr2, by simpa using a, b⟩

/-- Without deletions the last SET is the last write. -/
theorem lastSet_noDel {k : Bytes} {tr : List (NsEvent × Reply)} (h : ∀ x ∈ tr, NoDel x.1) :
    lastSet k tr = lastWrite k tr := by
  suffices key : ∀ a, tr.foldl (setStep k) a = tr.foldl (fun a x => (writeOf k x).getD a) a from key none
  intro a
  induction tr generalizing a with
  | nil => rfl
  | cons x tr ih =>
    simp only [List.foldl_cons]
    have hx := h x (List.mem_cons_self ..)
    have e : setStep k a x = (writeOf k x).getD a := by
      have hne : writeOf k x ≠ some none := by
        intro e
        unfold writeOf at e
        split at e
        · split at e <;> simp at e
        · rename_i y _ ; simp [NoDel] at hx
        · cases e
      unfold setStep
      cases hw : writeOf k x with
      | none => rfl
      | some w =>
        cases w with
        | none => exact absurd hw hne
        | some p => rfl
    rw [e]
    exact ih (fun y hy => h y (List.mem_cons_of_mem _ hy)) _

/-- The files synced once are what may be found after a power loss. -/
theorem TInv.powerLoss {D : Disk} {br : Branches} {u : Nat} {s : Store} {G : Log} (h : TInv D s G) (hu : UInv br u s G)
    (hv : D.view = s.files) : PowerLoss D D.onDisk.1 D.onDisk.2 := by
  have vi : D.i.map DFile.cur = s.ifiles := congrArg Prod.fst hv
  have vd : D.d.map DFile.cur = s.dfiles := congrArg Prod.snd hv
  have hil := hu.irep.length
  have hid := hu.iid
  have hdl := hu.dlen
  have li : D.i.length = G.length := by rw [← hil, ← vi, List.length_map]
  have ld : D.d.length = G.length := by rw [← hdl, ← vd, List.length_map]
  have key : ∀ l : List DFile, (∀ (n : Nat) (x : DFile), n + 1 < l.length → l[n]? = some x → ∃ f, x.safe = some f) →
      ∀ (n : Nat) (x : DFile), l[n]? = some x → Survives x (l.filterMap DFile.safe)[n]? := by
    intro l
    induction l with
    | nil => intro _ n x hx; simp at hx
    | cons y l ih =>
      intro hl n x hx
      cases hy : y.safe with
      | none =>
        have hnil : l = [] := by
          cases l with
          | nil => rfl
          | cons z l =>
            obtain ⟨f, hf⟩ := hl 0 y (by simp) rfl
            rw [hy] at hf; cases hf
        subst hnil
        cases n with
        | zero =>
          cases hx
          simp only [List.filterMap_cons, hy, List.filterMap_nil, List.getElem?_nil]
          exact .gone hy
        | succ n => simp at hx
      | some f =>
        simp only [List.filterMap_cons, hy]
        cases n with
        | zero =>
          cases hx
          simp only [List.getElem?_cons_zero]
          refine .kept ?_
          rw [hy]
          exact (by
            generalize y.pend = ws
            show Partly f ws f
            induction ws with
            | nil => exact .nil f
            | cons w ws ih => exact .cons [] (List.nil_sublist _) ih)
        | succ n =>
          simp only [List.getElem?_cons_succ] at hx ⊢
          exact ih (fun m z hm hz => hl (m + 1) z (by simp only [List.length_cons]; omega) hz) n x hx
  refine ⟨List.length_filterMap_le _ _, List.length_filterMap_le _ _, key _ ?_, key _ ?_⟩
  · intro n x hn hx
    obtain ⟨-, f, hf, -⟩ := h.left n x x.cur (by omega) hx (by rw [← vi, List.getElem?_map, hx]; rfl)
    exact ⟨f, hf⟩
  · intro n x hn hx
    rw [h.dleft n x x.cur (by omega) hx (by rw [← vd, List.getElem?_map, hx]; rfl)]
    exact ⟨_, rfl⟩

/-- What is loaded from the files synced once. -/
theorem SnapS.loaded {cfg : Option Mode} (hcfg : cfg = none ∨ cfg = some .user) {T u : Nat} {D : Disk} {L : Nat}
    {tr1 tr2 : List (NsEvent × Reply)} (h : SnapS T u D L tr1 tr2) (hnd : ∀ x ∈ tr1, NoDel x.1)
    (hlen : tr1.length + 2 < maxEvents) {br0 : Branches} {v : Nat} (hbr : ∀ h, nsBranch br0 v h = []) :
    ∃ br' s', loadNs cfg br0 v D.onDisk.1 D.onDisk.2 = .ok br' s' ∧ s'.mode = .user ∧ InStep s' ∧
      ∀ k, HasVal br' v s'.dfiles k (lastWrite k tr1) := by
  obtain ⟨G, ⟨D0, br, s0, G0, h1, h2, h3, h4, h5⟩, hs, hl⟩ := h.state
  have hs0 := hs.congr h3
  have hsafe : PowerLoss D0 D0.onDisk.1 D0.onDisk.2 := by
    refine h2.tinv.powerLoss h1 ?_
    have e1 : D0.i.map DFile.cur = s0.ifiles := by
      refine List.ext_getElem? (fun n => ?_)
      rw [List.getElem?_map]
      cases hx : D0.i[n]? with
      | none =>
        have : s0.ifiles[n]? = none := by
          rw [List.getElem?_eq_none_iff] at hx ⊢
          rw [← h2.ilen]; exact hx
        rw [this]; rfl
      | some x =>
        have hlt := (List.getElem?_eq_some_iff.1 hx).1
        rw [h2.ilen] at hlt
        rw [List.getElem?_eq_getElem hlt]
        have := (h2.idx n x _ hx (List.getElem?_eq_getElem hlt)).cur
        rw [Option.map_some, this]
    have e2 : D0.d.map DFile.cur = s0.dfiles := by
      rw [h2.d, List.map_map]
      exact List.map_id _
    simp only [Disk.view, Store.files, e1, e2]
  rw [h5]
  -- a longer trace that says the same
  have hlw : ∀ k, lastWrite k (tr1 ++ [(.foreign, .nil)]) = lastWrite k tr1 := by
    intro k; rw [lastWrite_snoc]; rfl
  have hls : ∀ k, lastSet k (tr1 ++ [(.foreign, .nil)]) = lastSet k tr1 := by
    intro k; rw [lastSet_snoc]; rfl
  obtain ⟨br', s', k1, k2, k3, -, k4⟩ := h2.loaded hcfg (tr := tr1 ++ [(.foreign, .nil)]) h1 (by simp; omega)
    (by simp only [List.length_append, List.length_singleton]; omega)
    (fun k => by rw [hlw, (hs0 k).1]) (fun k => by rw [hls, (hs0 k).2]) hsafe hbr
  refine ⟨br', s', k1, k2, k3, fun k => ?_⟩
  obtain ⟨w, hw, hv⟩ := k4 k
  have : w = lastWrite k tr1 := by
    rcases hw with rfl | ⟨-, rfl⟩
    · exact hlw k
    · rw [hls, lastSet_noDel hnd]
  rw [← this]
  exact hv

end Zdb
