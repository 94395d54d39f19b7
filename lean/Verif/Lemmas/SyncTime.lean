/-
`--synctime` with a single pair of files and no deletion: what is on the disk is the state after an earlier command.
-/
import Verif.Lemmas.SyncRun
namespace Zdb

/-- Writes on files of one kind, without a sync or a new file. -/
def QuietOps (k : Kind) (ops : List Op) : Prop := ∀ o ∈ ops, match o with
  | .append k' _ _ => k' = k
  | .write k' _ _ _ => k' = k
  | _ => False

theorem map_safe_modify (l : List DFile) (n : Nat) (g : DFile → DFile) (hg : ∀ f, (g f).safe = f.safe) :
    (l.modify n g).map DFile.safe = l.map DFile.safe := by
  induction l generalizing n with
  | nil => simp
  | cons a l ih => cases n <;> simp [hg, ih]

theorem QuietOps.data {ops : List Op} (h : QuietOps .data ops) (cf : SyncConf) (now : Nat) (D : Disk) :
    ∃ l, runOps cf now D ops = { D with d := l } ∧ l.map DFile.safe = D.d.map DFile.safe := by
  induction ops generalizing D with
  | nil => exact ⟨D.d, rfl, rfl⟩
  | cons o ops ih =>
    have ho := h o (by simp)
    obtain ⟨l, h1, h2⟩ : ∃ l, Op.run cf now D o = { D with d := l } ∧ l.map DFile.safe = D.d.map DFile.safe := by
      cases o with
      | append k n b =>
        simp only at ho; subst ho
        exact ⟨_, rfl, map_safe_modify _ _ _ (fun _ => rfl)⟩
      | write k n off b =>
        simp only at ho; subst ho
        exact ⟨_, rfl, map_safe_modify _ _ _ (fun _ => rfl)⟩
      | create k b => exact ho.elim
      | check k n => exact ho.elim
      | secure k n => exact ho.elim
    obtain ⟨l', h3, h4⟩ := ih (fun x hx => h x (by simp [hx])) (Op.run cf now D o)
    refine ⟨l', ?_, ?_⟩
    · show runOps cf now (Op.run cf now D o) ops = _
      rw [h3, h1]
    · rw [h4, h1]; exact h2

theorem QuietOps.index {ops : List Op} (h : QuietOps .index ops) (cf : SyncConf) (now : Nat) (D : Disk) :
    ∃ l, runOps cf now D ops = { D with i := l } ∧ l.map DFile.safe = D.i.map DFile.safe := by
  induction ops generalizing D with
  | nil => exact ⟨D.i, rfl, rfl⟩
  | cons o ops ih =>
    have ho := h o (by simp)
    obtain ⟨l, h1, h2⟩ : ∃ l, Op.run cf now D o = { D with i := l } ∧ l.map DFile.safe = D.i.map DFile.safe := by
      cases o with
      | append k n b =>
        simp only at ho; subst ho
        exact ⟨_, rfl, map_safe_modify _ _ _ (fun _ => rfl)⟩
      | write k n off b =>
        simp only at ho; subst ho
        exact ⟨_, rfl, map_safe_modify _ _ _ (fun _ => rfl)⟩
      | create k b => exact ho.elim
      | check k n => exact ho.elim
      | secure k n => exact ho.elim
    obtain ⟨l', h3, h4⟩ := ih (fun x hx => h x (by simp [hx])) (Op.run cf now D o)
    refine ⟨l', ?_, ?_⟩
    · show runOps cf now (Op.run cf now D o) ops = _
      rw [h3, h1]
    · rw [h4, h1]; exact h2

/-- The system calls of a SET that writes to the first files. -/
def SetForm (ops : List Op) : Prop :=
  ∃ A B, QuietOps .data A ∧ QuietOps .index B ∧ ops = A ++ ([.check .data 0] ++ (B ++ [.check .index 0]))

/-- What was synced. -/
def Disk.safe (D : Disk) : List (Option Bytes) × List (Option Bytes) := (D.i.map DFile.safe, D.d.map DFile.safe)

theorem one_of_safe {l : List DFile} {o : Option Bytes} (h : l.map DFile.safe = [o]) :
    ∃ x : DFile, l = [x] ∧ x.safe = o := by
  match l, h with
  | [x], h => exact ⟨x, rfl, by simpa using h⟩

/-- A SET that writes: both files are synced, or neither. -/
theorem SetForm.run {ops : List Op} (h : SetForm ops) (cf : SyncConf) (now : Nat) (D : Disk) {a b : Option Bytes}
    (hs : D.safe = ([a], [b])) (hl : D.ilast = D.dlast) :
    (cf.due D.ilast now = true ∧
      (runOps cf now D ops).safe = ((runOps cf now D ops).view.1.map some, (runOps cf now D ops).view.2.map some) ∧
      (∃ f g, (runOps cf now D ops).safe = ([f], [g])) ∧
      (runOps cf now D ops).ilast = now ∧ (runOps cf now D ops).dlast = now) ∨
    (cf.due D.ilast now = false ∧ (runOps cf now D ops).safe = D.safe ∧
      (runOps cf now D ops).ilast = D.ilast ∧ (runOps cf now D ops).dlast = D.dlast) := by
  obtain ⟨A, B, hA, hB, rfl⟩ := h
  obtain ⟨d1, e1, e2⟩ := hA.data cf now D
  have hd : D.d.map DFile.safe = [b] := congrArg Prod.snd hs
  have hi : D.i.map DFile.safe = [a] := congrArg Prod.fst hs
  obtain ⟨y, rfl, hy⟩ := one_of_safe (e2.trans hd)
  rw [runOps_append, e1, runOps_append]
  cases hdue : cf.due D.ilast now with
  | true =>
    left
    have e3 : runOps cf now { D with d := [y] } [.check .data 0] = { D with d := [y.sync], dlast := now } := by
      simp only [runOps, List.foldl_cons, List.foldl_nil, Op.run, Disk.last, ← hl, hdue, if_true, Disk.fsync]
      rfl
    rw [e3, runOps_append]
    obtain ⟨i1, e4, e5⟩ := hB.index cf now { D with d := [y.sync], dlast := now }
    obtain ⟨x, rfl, hx⟩ := one_of_safe (e5.trans hi)
    rw [e4]
    have e6 : runOps cf now { D with d := [y.sync], dlast := now, i := [x] } [.check .index 0] =
        { i := [x.sync], d := [y.sync], ilast := now, dlast := now } := by
      simp only [runOps, List.foldl_cons, List.foldl_nil, Op.run, Disk.last, hdue, if_true, Disk.fsync]
      rfl
    rw [e6]
    exact ⟨rfl, rfl, ⟨_, _, rfl⟩, rfl, rfl⟩
  | false =>
    right
    have e3 : runOps cf now { D with d := [y] } [.check .data 0] = { D with d := [y] } := by
      simp only [runOps, List.foldl_cons, List.foldl_nil, Op.run, Disk.last, ← hl, hdue]
      rfl
    rw [e3, runOps_append]
    obtain ⟨i1, e4, e5⟩ := hB.index cf now { D with d := [y] }
    obtain ⟨x, rfl, hx⟩ := one_of_safe (e5.trans hi)
    rw [e4]
    have e6 : runOps cf now { D with d := [y], i := [x] } [.check .index 0] = { D with d := [y], i := [x] } := by
      simp only [runOps, List.foldl_cons, List.foldl_nil, Op.run, Disk.last, hdue]
      rfl
    rw [e6]
    refine ⟨rfl, ?_, rfl, rfl⟩
    rw [hs]
    simp [Disk.safe, hx, hy]

/-! ### the system calls of a SET -/

theorem dataInsertOps_form (s : Store) {io : Io} (h : (io.dhdr.ok && io.dpay.ok) = true) (k p : Bytes)
    (fl crc ts : Nat) : ∃ A, QuietOps .data A ∧ dataInsertOps s io k p fl crc ts = A ++ [.check .data s.dataid] := by
  rw [Bool.and_eq_true] at h
  unfold dataInsertOps
  simp only [h.1, h.2, Bool.not_true, Bool.false_eq_true, if_false]
  refine ⟨[_, _], ?_, rfl⟩
  intro o ho
  simp only [List.mem_cons, List.not_mem_nil, or_false] at ho
  rcases ho with rfl | rfl <;> rfl

theorem appendEntryOps_form (s : Store) {io : Io} (h : io.iapp = none) (e : Entry) :
    ∃ B, QuietOps .index B ∧ appendEntryOps s io e = B ++ [.check .index s.indexid] := by
  unfold appendEntryOps
  simp only [h, WriteFault.ok, Option.isNone_none, if_true]
  refine ⟨[_], ?_, rfl⟩
  intro o ho
  simp only [List.mem_cons, List.not_mem_nil, or_false] at ho
  rcases ho with rfl; rfl

theorem deleteDiskOps_quiet (s : Store) (io : Io) (e : Entry) : QuietOps .index (deleteDiskOps s io e) := by
  unfold deleteDiskOps
  simp only
  split
  · intro o ho; cases ho
  · split
    · intro o ho; cases ho
    · intro o ho
      simp only [List.mem_cons, List.not_mem_nil, or_false] at ho
      rcases ho with rfl; rfl

theorem deleteDisk_indexid (s : Store) (io : Io) (e : Entry) : (deleteDisk s io e).1.indexid = s.indexid := by
  unfold deleteDisk
  simp only
  repeat' split
  all_goals rfl

theorem setHandlerUserOps_form {c : Ctx} {br : Branches} {s : Store} {G : Log} (hu : UInv br c.u s G)
    (hio : GoodIo c) (h0 : s.indexid = 0) (k p : Bytes) (ts : Nat) (e : Option Entry) :
    (setHandlerUserOps c s k p ts e = [] ∧ ∀ b, (setHandlerUser c br s k p ts e).2.2 ≠ .bulk b) ∨
      SetForm (setHandlerUserOps c s k p ts e) := by
  unfold setHandlerUserOps setHandlerUser
  by_cases hk : k.length = 0
  · left; simp only [if_pos hk]; exact ⟨trivial, fun b => by simp⟩
  simp only [if_neg hk]
  by_cases hup : upToDate s e p = true
  · left; simp only [if_pos hup]; exact ⟨trivial, fun b => by simp⟩
  simp only [if_neg hup]
  right
  obtain ⟨A, hA, hAe⟩ := dataInsertOps_form s hio.data k p 0 (crc32 p) ts
  have hw := dataInsert_ok (s := s) hio.data hu.dataFile k p 0 (crc32 p) ts rfl
  obtain ⟨b, prev, -, hst⟩ := hw.eq
  have hoff : (dataInsert s c.io k p 0 (crc32 p) ts).2 ≠ 0 := by
    rw [hw.pos]
    obtain ⟨f, hf⟩ := hu.dataFile
    obtain ⟨t, ht⟩ := hu.dhead _ _ hf
    simp only [fileLen, hf, Option.getD_some, ht]
    simp
  have hid : (dataInsert s c.io k p 0 (crc32 p) ts).1.indexid = 0 := by rw [hst]; exact h0
  have hdid : s.dataid = 0 := by rw [hu.did, h0]
  rw [hAe, hdid]
  simp only [if_neg hoff]
  generalize dataInsert s c.io k p 0 (crc32 p) ts = t at hid
  obtain ⟨t, off⟩ := t
  simp only at hid ⊢
  cases e with
  | none =>
    obtain ⟨B, hB, hBe⟩ := appendEntryOps_form t hio.iapp (SetReq.entry ⟨k, off, p.length, crc32 p, 0, ts⟩ c.u)
    refine ⟨A, B, hA, hB, ?_⟩
    simp only [hBe, hid, List.append_assoc]
  | some ex =>
    simp only [updateUserOps]
    obtain ⟨B, hB, hBe⟩ := appendEntryOps_form
      (updateStats (deleteDisk t c.io ex).1 ex (SetReq.entry ⟨k, off, p.length, crc32 p, 0, ts⟩ c.u)) hio.iapp
      (updatedEntry (deleteDisk t c.io ex).1 ex (SetReq.entry ⟨k, off, p.length, crc32 p, 0, ts⟩ c.u))
    refine ⟨A, deleteDiskOps t c.io ex ++ B, hA, ?_, ?_⟩
    · intro o ho
      rcases List.mem_append.1 ho with ho | ho
      · exact deleteDiskOps_quiet t c.io ex o ho
      · exact hB o ho
    · have e1 : (updateStats (deleteDisk t c.io ex).1 ex
          (SetReq.entry ⟨k, off, p.length, crc32 p, 0, ts⟩ c.u)).indexid = 0 := by
        show (deleteDisk t c.io ex).1.indexid = 0
        rw [deleteDisk_indexid, hid]
      simp only [hBe, e1, List.append_assoc]

theorem opsFiles_len (fs : List Bytes × List Bytes) (ops : List Op) :
    fs.1.length ≤ (opsFiles fs ops).1.length := by
  induction ops generalizing fs with
  | nil => exact Nat.le_refl _
  | cons o ops ih =>
    refine Nat.le_trans ?_ (ih (o.files fs))
    cases o with
    | create k b => cases k <;> simp [Op.files]
    | append k n b => cases k <;> simp [Op.files, appendFile]
    | write k n off b => cases k <;> simp [Op.files, writeFileAt]
    | check k n => exact Nat.le_refl _
    | secure k n => exact Nat.le_refl _

theorem dsCommand_len (c : Ctx) (br : Branches) (s : Store) (d : DsCmd) (argv : List Bytes) :
    s.ifiles.length ≤ (dsCommand c br s d argv).2.1.ifiles.length := by
  have := opsFiles_len s.files (dsOps c br s d argv)
  rw [dsOps_files] at this
  exact this

theorem jump_len {s : Store} (h0 : s.indexid = 0) (h1 : s.ifiles.length = 1) : (jump s).ifiles.length = 2 := by
  unfold jump
  simp only [indexSetId, dataOpen, indexCreate, h0, h1]
  simp [h1]

theorem setBody_form {c : Ctx} {br : Branches} {s : Store} {G : Log} (hu : UInv br c.u s G) (hio : GoodIo c)
    (h1 : s.ifiles.length = 1) (argv : List Bytes) (k p : Bytes)
    (hlen : (cmdSet.body c br s argv k p).2.1.ifiles.length = 1) :
    (cmdSetOps.body c br s argv k p = [] ∧ ∀ b, (cmdSet.body c br s argv k p).2.2 ≠ .bulk b) ∨
      SetForm (cmdSetOps.body c br s argv k p) := by
  have hil := hu.irep.length
  have h0 : s.indexid = 0 := by have := hu.iid; omega
  have hfiles := cmdSet_body_files c br s argv k p
  have hl2 := congrArg (fun x => x.1.length) hfiles
  simp only [Store.files] at hl2
  rw [hlen] at hl2
  clear hfiles hlen
  unfold cmdSetOps.body at hl2 ⊢
  unfold cmdSet.body
  split
  · left; exact ⟨rfl, fun b => by simp⟩
  split
  · left; exact ⟨rfl, fun b => by simp [errReadOnly]⟩
  split
  · left; exact ⟨rfl, fun b => by simp [errFrozen]⟩
  split
  · left; exact ⟨rfl, fun b => by simp [errLocked]⟩
  rename_i a1 a2 a3 a4
  rw [if_neg a1, if_neg a2, if_neg a3, if_neg a4] at hl2
  simp only at hl2 ⊢
  generalize (if k.length ≠ 0 then indexGet br s c.u k else none) = ex at hl2 ⊢
  split
  · left; exact ⟨rfl, fun b => by simp⟩
  split
  · left; exact ⟨rfl, fun b => by simp⟩
  rename_i a5 a6
  rw [if_neg a5, if_neg a6] at hl2
  simp only [hu.mode] at hl2 ⊢
  unfold jumpIfFullOps at hl2 ⊢
  unfold jumpIfFull at hl2 ⊢
  by_cases hj : fileLen s.dfiles s.dataid + p.length > c.limit
  · exfalso
    rw [if_pos hj, opsFiles_append] at hl2
    have e := jump_files s
    rw [Store.files] at e
    rw [e] at hl2
    have := opsFiles_len (jump s).files
      (setHandlerUserOps c (if fileLen s.dfiles s.dataid + p.length > c.limit then jump s else s) k p
        (timestampFromSet c.now argv 3) ex)
    rw [hl2] at this
    have hj2 := jump_len h0 h1
    simp only [Store.files] at this
    omega
  · simp only [if_neg hj, List.nil_append]
    exact setHandlerUserOps_form hu hio h0 k p _ _

/-- The system calls of a command that is not a DEL and changes no file number. -/
theorem dsOps_form {c : Ctx} {br : Branches} {s : Store} {G : Log} (hu : UInv br c.u s G) (hio : GoodIo c)
    (h1 : s.ifiles.length = 1) (d : DsCmd) (hd : d ≠ .del) (argv : List Bytes)
    (hlen : (dsCommand c br s d argv).2.1.ifiles.length = 1) :
    (dsOps c br s d argv = [] ∧ ∀ k p, writeOf k (.cmd c d argv, (dsCommand c br s d argv).2.2) ≠ some (some p)) ∨
      SetForm (dsOps c br s d argv) := by
  have hil := hu.irep.length
  have h0 : s.indexid = 0 := by have := hu.iid; omega
  cases d with
  | set =>
    have key : ∀ r : Reply, (∀ b, r ≠ .bulk b) → ∀ k p, writeOf k (.cmd c .set argv, r) ≠ some (some p) := by
      intro r hr k p
      unfold writeOf
      split
      · rename_i h; simp only [Prod.mk.injEq] at h; exact absurd h.2 (hr _)
      · split <;> simp
      · simp
    have lift : ∀ x : Branches × Store × Reply, ∀ ops : List Op,
        ((ops = [] ∧ ∀ b, x.2.2 ≠ .bulk b) ∨ SetForm ops) →
        ((ops = [] ∧ ∀ k p, writeOf k (.cmd c .set argv, x.2.2) ≠ some (some p)) ∨ SetForm ops) := by
      intro x ops h
      rcases h with ⟨a, b⟩ | h
      · exact Or.inl ⟨a, key _ b⟩
      · exact Or.inr h
    simp only [dsOps, dsCommand] at hlen ⊢
    apply lift (cmdSet c br s argv)
    unfold cmdSetOps
    unfold cmdSet at hlen ⊢
    match argv with
    | [] => left; exact ⟨rfl, fun b => by simp [errArgs]⟩
    | [_] => left; exact ⟨rfl, fun b => by simp [errArgs]⟩
    | [_, _] => left; exact ⟨rfl, fun b => by simp [errArgs]⟩
    | [_, k, p] => exact setBody_form hu hio h1 _ k p hlen
    | [_, k, p, _] =>
      simp only at hlen ⊢
      by_cases ha : c.admin = true
      · simp only [if_pos ha] at hlen ⊢
        exact setBody_form hu hio h1 _ k p hlen
      · simp only [if_neg ha]
        left; exact ⟨trivial, fun b => by simp [errDenied]⟩
    | _ :: _ :: _ :: _ :: _ :: _ => left; exact ⟨rfl, fun b => by simp [errArgs]⟩
  | del => exact absurd rfl hd
  | nsjump =>
    left
    simp only [dsOps, dsCommand, cmdNsjump] at hlen ⊢
    by_cases ha : c.admin = true
    · simp only [if_pos ha] at hlen
      rw [jump_len h0 h1] at hlen
      cases hlen
    · simp only [if_neg ha]
      exact ⟨trivial, fun k p => by simp [writeOf]⟩
  | _ => left; exact ⟨rfl, fun k p => by simp [writeOf]⟩

/-! ### executions -/

theorem view_length (D : Disk) : D.view.1.length = D.i.length ∧ D.view.2.length = D.d.length := by
  simp [Disk.view]

theorem DiskRun.len {cfg : Option Mode} {cf : SyncConf} {u : Nat} {br br' : Branches} {s s' : Store} {D D' : Disk}
    {tr : List (NsEvent × Reply)} (h : DiskRun cfg cf u br s D tr br' s' D') (hev : ∀ x ∈ tr, NoDel x.1) :
    s.ifiles.length ≤ s'.ifiles.length := by
  induction h with
  | nil => exact Nat.le_refl _
  | @cmd c d argv br br1 br2 s s1 s2 D D2 r tr hu h1 h2 ih =>
    have := dsCommand_len c br s d argv
    rw [h1] at this
    exact Nat.le_trans this (ih (fun x hx => hev x (List.mem_cons_of_mem _ hx)))
  | foreign h1 h2 ih => exact ih (fun x hx => hev x (List.mem_cons_of_mem _ hx))
  | reload t h1 h2 ih => exact (hev _ (List.mem_cons_self ..)).elim

/-- The disk holds the state after `tr1`; the SETs acknowledged since, `tr2`, are at most `T` seconds after `L`. -/
structure Snap (T : Nat) (u : Nat) (D : Disk) (L : Nat) (tr1 tr2 : List (NsEvent × Reply)) : Prop where
  il : D.ilast = L
  dl : D.dlast = L
  one : ∃ f g, D.safe = ([f], [g])
  recent : ∀ x ∈ tr2, Acked x → ∃ t, evTime x.1 = some t ∧ L ≤ t ∧ t ≤ L + T
  state : ∃ br s G, UInv br u s G ∧ s.ifiles.length = 1 ∧ D.safe = (s.ifiles.map some, s.dfiles.map some) ∧
    ∀ k, (liveGet G k).map (fun l => l.r.payload) = lastWrite k tr1

theorem lastWrite_snoc (k : Bytes) (tr : List (NsEvent × Reply)) (x : NsEvent × Reply) :
    lastWrite k (tr ++ [x]) = (writeOf k x).getD (lastWrite k tr) := by
  simp [lastWrite, List.foldl_append]

theorem Snap.run {cfg : Option Mode} {cf : SyncConf} (hcf : cf.sync = false) {T : Nat} (hT : cf.synctime = T)
    (hT0 : 0 < T) {u : Nat} {br br' : Branches} {s s' : Store} {D D' : Disk} {tr : List (NsEvent × Reply)}
    (hr : DiskRun cfg cf u br s D tr br' s' D') {G : Log} (hu : UInv br u s G) (hv : D.view = s.files)
    (hev : ∀ x ∈ tr, (EvOK x.1 ∧ NoFault x.1) ∧ NoDel x.1)
    (hroom : Room s.ifiles.length (totalData s) tr.length) (h1 : s.ifiles.length = 1) (h1' : s'.ifiles.length = 1)
    (hclock : Clock tr) {L : Nat} {tr1 tr2 : List (NsEvent × Reply)} (hS : Snap T u D L tr1 tr2)
    (hL : ∀ x ∈ tr, ∀ t, evTime x.1 = some t → L ≤ t)
    (hG : ∀ k, (liveGet G k).map (fun l => l.r.payload) = lastWrite k (tr1 ++ tr2)) :
    ∃ L' tr1' tr2', tr1 ++ tr2 ++ tr = tr1' ++ tr2' ∧ Snap T u D' L' tr1' tr2' ∧ tr1 <+: tr1' := by
  induction hr generalizing G L tr1 tr2 with
  | nil br s D => exact ⟨L, tr1, tr2, by simp, hS, List.prefix_rfl⟩
  | @cmd c d argv br br1 br2 s s1 s2 D D2 r tr hcu e1 e2 ih =>
    subst hcu
    obtain ⟨⟨⟨hc, ha⟩, hio⟩, hnd⟩ := hev _ (List.mem_cons_self ..)
    have hev' := fun x hx => hev x (List.mem_cons_of_mem (NsEvent.cmd c d argv, r) hx)
    obtain ⟨G1, i1, i2, i3, i4⟩ := hu.command hc d argv ha (hroom.mono (by simp))
    have hg := dsCommand_grows c br s d argv (2 ^ 23) ha.size
    have hlive : ∀ k, (liveGet G1 k).map (fun l => l.r.payload) =
        (writeOf k (.cmd c d argv, (dsCommand c br s d argv).2.2)).getD
          ((liveGet G k).map (fun l => l.r.payload)) := by
      intro k
      have := agrees_get (absKV G) [(.cmd c d argv, (dsCommand c br s d argv).2.2)] ⟨i3, trivial⟩ k
      simp only [List.map_cons, List.map_nil, specRun, specEvent, List.foldl_cons, List.foldl_nil, ← i2, absKV_get,
        Option.map_map] at this
      exact this
    have hle := e2.len (fun x hx => (hev' x hx).2)
    have hge := dsCommand_len c br s d argv
    have hone : (dsCommand c br s d argv).2.1.ifiles.length = 1 := by
      rw [e1] at hge ⊢; simp only at hge ⊢; omega
    have hform := dsOps_form hu ⟨hio.1, hio.2.1, hio.2.2.1, hio.2.2.2.1⟩ h1 d hnd argv hone
    have hview : (runOps cf c.now D (dsOps c br s d argv)).view = (dsCommand c br s d argv).2.1.files := by
      rw [view_runOps, hv, dsOps_files]
    have hnow := hL _ (List.mem_cons_self ..) c.now rfl
    rw [e1] at i1 hg hlive hone hform hview
    simp only at i1 hg hlive hone hform hview
    have hclock' : Clock tr := (List.pairwise_cons.1 hclock).2
    have hlater : ∀ x ∈ tr, ∀ t, evTime x.1 = some t → c.now ≤ t := fun x hx t ht =>
      (List.pairwise_cons.1 hclock).1 x hx _ _ rfl ht
    have hLive' : ∀ k, (liveGet G1 k).map (fun l => l.r.payload) =
        lastWrite k (tr1 ++ tr2 ++ [(.cmd c d argv, r)]) := by
      intro k
      rw [hlive k, lastWrite_snoc, hG k]
    -- the snapshot stays
    have stay : (runOps cf c.now D (dsOps c br s d argv)).safe = D.safe →
        (runOps cf c.now D (dsOps c br s d argv)).ilast = D.ilast →
        (runOps cf c.now D (dsOps c br s d argv)).dlast = D.dlast →
        (Acked (.cmd c d argv, r) → c.now ≤ L + T) →
        ∃ L' tr1' tr2', tr1 ++ tr2 ++ (.cmd c d argv, r) :: tr = tr1' ++ tr2' ∧ Snap T c.u D2 L' tr1' tr2' ∧
          tr1 <+: tr1' := by
      intro a1 a2 a3 a4
      have hS' : Snap T c.u (runOps cf c.now D (dsOps c br s d argv)) L tr1 (tr2 ++ [(.cmd c d argv, r)]) := by
        refine ⟨a2.trans hS.il, a3.trans hS.dl, by rw [a1]; exact hS.one, ?_, by rw [a1]; exact hS.state⟩
        intro x hx hk
        rcases List.mem_append.1 hx with hx | hx
        · exact hS.recent x hx hk
        · simp only [List.mem_singleton] at hx
          subst hx
          exact ⟨c.now, rfl, hnow, a4 hk⟩
      obtain ⟨L', t1, t2, b1, b2, b3⟩ := ih i1 hview hev' (hroom.step hg (by omega)) hone h1' hclock' hS'
        (fun x hx t ht => hL x (List.mem_cons_of_mem _ hx) t ht)
        (fun k => by rw [hLive' k, List.append_assoc])
      refine ⟨L', t1, t2, ?_, b2, b3⟩
      rw [← b1]; simp
    rcases hform with ⟨f1, f2⟩ | hform
    · rw [f1] at stay
      exact stay rfl rfl rfl (fun ⟨k, p, hk⟩ => absurd hk (f2 k p))
    · obtain ⟨f, g, hfg⟩ := hS.one
      rcases hform.run cf c.now D hfg (hS.il.trans hS.dl.symm) with ⟨d1, d2, d3, d4, d5⟩ | ⟨d1, d2, d3, d4⟩
      · have hS' : Snap T c.u (runOps cf c.now D (dsOps c br s d argv)) c.now
            (tr1 ++ tr2 ++ [(.cmd c d argv, r)]) [] := by
          refine ⟨d4, d5, d3, (by simp), br1, s1, G1, i1, hone, ?_, hLive'⟩
          rw [d2, hview]; rfl
        obtain ⟨L', t1, t2, b1, b2, b3⟩ := ih i1 hview hev' (hroom.step hg (by omega)) hone h1' hclock' hS' hlater
          (fun k => by rw [hLive' k, List.append_nil])
        refine ⟨L', t1, t2, ?_, b2,
          ((List.prefix_append ..).trans (List.prefix_append ..)).trans b3⟩
        rw [← b1]; simp
      · refine stay d2 d3 d4 (fun _ => ?_)
        rw [hS.il] at d1
        unfold SyncConf.due at d1
        rw [hcf, hT] at d1
        simp at d1
        omega
  | @foreign br br1 br2 s s2 D D2 tr e1 e2 ih =>
    have hS' : Snap T u D L tr1 (tr2 ++ [(.foreign, .nil)]) := by
      refine ⟨hS.il, hS.dl, hS.one, ?_, hS.state⟩
      intro x hx hk
      rcases List.mem_append.1 hx with hx | hx
      · exact hS.recent x hx hk
      · simp only [List.mem_singleton] at hx
        subst hx
        obtain ⟨k, p, h⟩ := hk
        cases h
    obtain ⟨L', t1, t2, b1, b2, b3⟩ := ih (hu.foreign e1) hv (fun x hx => hev x (List.mem_cons_of_mem _ hx))
      (hroom.mono (by simp)) h1 h1' (List.pairwise_cons.1 hclock).2 hS'
      (fun x hx t ht => hL x (List.mem_cons_of_mem _ hx) t ht)
      (fun k => by rw [hG k, ← List.append_assoc, lastWrite_snoc]; rfl)
    refine ⟨L', t1, t2, ?_, b2, b3⟩
    rw [← b1]; simp
  | reload t e1 e2 ih => exact (hev _ (List.mem_cons_self ..)).2.elim

theorem fresh_time {cf : SyncConf} (hcf : cf.sync = false) (hT0 : 0 < cf.synctime) {t : Nat} (ht : cf.synctime < t) :
    (Disk.fresh cf t .user).safe = ((freshStore .user).ifiles.map some, (freshStore .user).dfiles.map some) ∧
      (Disk.fresh cf t .user).view = (freshStore .user).files ∧ (Disk.fresh cf t .user).ilast = t ∧
      (Disk.fresh cf t .user).dlast = t := by
  have h1 : cf.due 0 t = true := by
    simp only [SyncConf.due, hcf, Bool.false_or, Bool.and_eq_true, decide_eq_true_eq]; omega
  have h2 : cf.due t t = false := by
    simp [SyncConf.due, hcf]
  have e : Disk.fresh cf t .user =
      ⟨[⟨some (encIHeader (freshIHeader 0 Mode.user.byte)), [(0, encIHeader (freshIHeader 0 Mode.user.byte))]⟩],
        [⟨some (encDFHeader (freshDFHeader 0)), []⟩], t, t⟩ := by
    simp only [Disk.fresh, createOps, dataInitializeOps, List.length_nil, Nat.lt_irrefl, if_false, runOps,
      List.foldl_append, List.foldl_cons, List.foldl_nil, Op.run, Disk.last, Disk.on, Disk.fsync, h1, h2, if_true,
      Bool.false_eq_true]
    rfl
  rw [e]
  exact ⟨rfl, rfl, rfl, rfl⟩

/-- What was synced, at the end of an execution from a new namespace. -/
theorem SyncRun.snap {cfg : Option Mode} {cf : SyncConf} (hcf : cf.sync = false) {T : Nat} (hT : cf.synctime = T)
    (hT0 : 0 < T) {u t : Nat} {tr : List (NsEvent × Reply)} {br : Branches} {s : Store} {D : Disk}
    (h : SyncRun cfg cf u t tr br s D) (hnd : ∀ x ∈ tr, NoDel x.1) (h1 : s.ifiles.length = 1) (hclock : Clock tr)
    (ht : T < t) (hlater : ∀ x ∈ tr, ∀ a, evTime x.1 = some a → t ≤ a) :
    ∃ L tr1 tr2, tr = tr1 ++ tr2 ∧ Snap T u D L tr1 tr2 := by
  subst hT
  obtain ⟨b0, b, s0, h0, e1, e2⟩ := h.run
  have hm : cfg.getD .user = .user := by rcases h.hcfg with rfl | rfl <;> rfl
  rw [freshNs_eq, hm] at e1
  injection e1 with e1 e1'
  subst e1; subst e1'
  have hlen := h.len
  have hlw : ∀ k, (liveGet [[]] k).map (fun l => l.r.payload) = lastWrite k [] := by
    intro k; simp [lastWrite, liveGet, live, locs, locsFrom, locsIn]
  obtain ⟨f1, f2, f3, f4⟩ := fresh_time hcf hT0 ht
  have hS : Snap cf.synctime u (Disk.fresh cf t .user) t [] [] :=
    ⟨f3, f4, ⟨_, _, f1⟩, by simp, b0, _, _, freshStore_uinv b0 u h0, rfl, f1, hlw⟩
  obtain ⟨L, tr1, tr2, a, b, -⟩ := Snap.run hcf rfl hT0 e2 (freshStore_uinv b0 u h0) f2
    (fun x hx => ⟨h.ev x hx, hnd x hx⟩) (freshStore_room _ (by omega)) rfl h1 hclock hS hlater hlw
  exact ⟨L, tr1, tr2, by simpa using a, b⟩

end Zdb
