/-
`--synctime` with `--secure` in sequential mode, ids only added: what is on the disk is the state after an earlier command.
-/
import Verif.Lemmas.SyncSeq
import Verif.Lemmas.SecureTime
import Verif.Lemmas.SeqSpec
namespace Zdb

/-- The event is a SET that was acknowledged with an id. -/
def SeqAcked (x : NsEvent × Reply) : Prop := ∃ k p, seqWriteOf k x = some (some p)

/-- All files but the number `id` are on the disk. -/
def LeftSolid (D : Disk) (id : Nat) : Prop :=
  (∀ (n : Nat) (x : DFile), n ≠ id → D.i[n]? = some x → x = DFile.solid x.cur) ∧
  (∀ (n : Nat) (x : DFile), n ≠ id → D.d[n]? = some x → x = DFile.solid x.cur)

/-- The files synced once are those of a state with the slots `m`, from which `n` more events are possible. -/
def SlotsOn (D : Disk) (m : Slots) (n : Nat) : Prop :=
  ∃ s0 G0, SInv s0 G0 ∧ D.onDisk = s0.files ∧ absSlots G0 = m ∧ Room s0.ifiles.length (totalData s0) n

theorem SlotsOn.congr {D D' : Disk} {m : Slots} {n : Nat} (h : SlotsOn D m n) (he : D'.onDisk = D.onDisk) :
    SlotsOn D' m n := by
  obtain ⟨s0, G0, h1, h2, h3⟩ := h
  exact ⟨s0, G0, h1, he.trans h2, h3⟩

theorem SlotsOn.mono {D : Disk} {m : Slots} {n k : Nat} (h : SlotsOn D m n) (hk : k ≤ n) : SlotsOn D m k := by
  obtain ⟨s0, G0, h1, h2, h3, h4⟩ := h
  exact ⟨s0, G0, h1, h2, h3, h4.mono hk⟩

theorem AllSolid.onDisk {D : Disk} (h : AllSolid D) {s : Store} (hv : D.view = s.files) : D.onDisk = s.files := by
  have key : ∀ l : List DFile, (∀ x ∈ l, x = DFile.solid x.cur) → l.filterMap DFile.safe = l.map DFile.cur := by
    intro l
    induction l with
    | nil => intro _; rfl
    | cons x l ih =>
      intro hl
      have hx : x.safe = some x.cur := by
        have := congrArg DFile.safe (hl x (by simp))
        exact this
      rw [List.filterMap_cons, hx, List.map_cons, ih (fun y hy => hl y (by simp [hy]))]
  rw [← hv]
  simp only [Disk.onDisk, Disk.view, key _ h.1, key _ h.2]

theorem LeftSolid.all {D : Disk} {id : Nat} (h : LeftSolid D id) (h1 : ∀ x, D.i[id]? = some x → ∃ f, x = DFile.solid f)
    (h2 : ∀ x, D.d[id]? = some x → ∃ f, x = DFile.solid f) : AllSolid D := by
  constructor
  · intro x hx
    obtain ⟨n, hn⟩ := List.getElem?_of_mem hx
    by_cases e : n = id
    · subst e; obtain ⟨f, rfl⟩ := h1 x hn; rfl
    · exact h.1 n x e hn
  · intro x hx
    obtain ⟨n, hn⟩ := List.getElem?_of_mem hx
    by_cases e : n = id
    · subst e; obtain ⟨f, rfl⟩ := h2 x hn; rfl
    · exact h.2 n x e hn

/-- The call is about the files `n`. -/
def OpAt (n : Nat) : Op → Prop
  | .append _ m _ => m = n
  | .check _ m => m = n
  | _ => False

theorem runOps_other (cf : SyncConf) (now id : Nat) (l : List Op) (hl : ∀ o ∈ l, OpAt id o) (D : Disk) :
    ∀ n, n ≠ id → (runOps cf now D l).i[n]? = D.i[n]? ∧ (runOps cf now D l).d[n]? = D.d[n]? := by
  induction l generalizing D with
  | nil => intro n _; exact ⟨rfl, rfl⟩
  | cons o l ih =>
    intro n hn
    obtain ⟨a1, a2⟩ := ih (fun x hx => hl x (List.mem_cons_of_mem _ hx)) (Op.run cf now D o) n hn
    have ho := hl o (List.mem_cons_self ..)
    have : (Op.run cf now D o).i[n]? = D.i[n]? ∧ (Op.run cf now D o).d[n]? = D.d[n]? := by
      cases o with
      | append k m b =>
        have : m = id := ho
        subst this
        cases k
        · exact ⟨modify_other _ hn _, rfl⟩
        · exact ⟨rfl, modify_other _ hn _⟩
      | check k m =>
        have : m = id := ho
        subst this
        simp only [Op.run]
        split
        · cases k
          · exact ⟨modify_other _ hn _, rfl⟩
          · exact ⟨rfl, modify_other _ hn _⟩
        · exact ⟨rfl, rfl⟩
      | _ => exact ho.elim
    exact ⟨a1.trans this.1, a2.trans this.2⟩

theorem LeftSolid.ops {D : Disk} {id : Nat} (h : LeftSolid D id) (cf : SyncConf) (now : Nat) {l : List Op}
    (hl : ∀ o ∈ l, OpAt id o) : LeftSolid (runOps cf now D l) id := by
  have key := runOps_other cf now id l hl D
  constructor
  · intro n x hn hx
    rw [(key n hn).1] at hx
    exact h.1 n x hn hx
  · intro n x hn hx
    rw [(key n hn).2] at hx
    exact h.2 n x hn hx

/-- Leaving the files with `--secure`. -/
theorem LeftSolid.jump {D : Disk} {s : Store} {G : Log} (h : LeftSolid D s.indexid) (hs : SInv s G)
    (hv : D.view = s.files) (hitems : 29 < logEnd G) {n : Nat} (hroom : Room s.ifiles.length (totalData s) (n + 1))
    {cf : SyncConf} (hcf : cf.sync = false) (hsec : cf.secure = true) (now : Nat) (hl : D.ilast = D.dlast) :
    LeftSolid (runOps cf now D (jumpOps s)) (Zdb.jump s).indexid ∧
    (runOps cf now D (jumpOps s)).ilast = (runOps cf now D (jumpOps s)).dlast ∧
    ((runOps cf now D (jumpOps s)).ilast = D.ilast ∨ (runOps cf now D (jumpOps s)).ilast = now) ∧
    cf.due (runOps cf now D (jumpOps s)).ilast now = false ∧
    SlotsOn (runOps cf now D (jumpOps s)) (absSlots G) n := by
  have hil := hs.irep.length
  have hcap : G.length < 2 ^ 32 := by have := hroom.1; omega
  have hid : (s.indexid + 1) % 2 ^ 32 = G.length := by rw [hs.iid, Nat.mod_eq_of_lt hcap]
  have hju := hs.jump hcap hitems
  have hjv : (runOps cf now D (jumpOps s)).view = (Zdb.jump s).files := by rw [view_runOps, hv, jump_files]
  obtain ⟨-, j1, j2, j3⟩ := hs.toCore.jump (by rw [hs.mode]; rfl) hcap
  have vi : D.i.map DFile.cur = s.ifiles := congrArg Prod.fst hv
  have vd : D.d.map DFile.cur = s.dfiles := congrArg Prod.snd hv
  have li : D.i.length = G.length := by rw [← hil, ← vi, List.length_map]
  have ld : D.d.length = G.length := by rw [← hs.dlen, ← vd, List.length_map]
  have hdid : s.dataid = s.indexid := hs.did
  -- the files left
  have h0 : AllSolid { D with i := D.i.modify s.indexid DFile.sync, d := D.d.modify s.indexid DFile.sync } := by
    refine LeftSolid.all (id := s.indexid) ⟨?_, ?_⟩ (fun x hx => modify_sync_is_solid _ _ x hx)
      (fun x hx => modify_sync_is_solid _ _ x hx)
    · intro m x hm hx
      rw [modify_other _ hm] at hx
      exact h.1 m x hm hx
    · intro m x hm hx
      rw [modify_other _ hm] at hx
      exact h.2 m x hm hx
  have hEv : ({ D with i := D.i.modify s.indexid DFile.sync, d := D.d.modify s.indexid DFile.sync } : Disk).view = s.files := by
    rw [← hv]
    simp only [Disk.view, map_modify_sync]
  generalize hE : ({ D with i := D.i.modify s.indexid DFile.sync, d := D.d.modify s.indexid DFile.sync } : Disk) = E at h0 hEv
  have hEi : E.i = D.i.modify s.indexid DFile.sync := by rw [← hE]
  have hEd : E.d = D.d.modify s.indexid DFile.sync := by rw [← hE]
  have hEli : E.i.length = G.length := by rw [hEi, List.length_modify, li]
  have hEld : E.d.length = G.length := by rw [hEd, List.length_modify, ld]
  have key : (cf.due D.ilast now = true ∧ runOps cf now D (jumpOps s) =
        ⟨E.i ++ [DFile.solid (encIHeader (freshIHeader G.length s.mode.byte))],
          E.d ++ [DFile.solid (encDFHeader (freshDFHeader G.length))], now, now⟩) ∨
      (cf.due D.ilast now = false ∧ runOps cf now D (jumpOps s) =
        ⟨E.i ++ [⟨none, [(0, encIHeader (freshIHeader G.length s.mode.byte))]⟩],
          E.d ++ [⟨none, [(0, encDFHeader (freshDFHeader G.length))]⟩], D.ilast, D.ilast⟩) := by
    have hmod : ∀ (l : List DFile) (b : Bytes) (n : Nat), l.length = n →
        (l ++ [({ safe := none, pend := [(0, b)] } : DFile)]).modify n DFile.sync = l ++ [DFile.solid b] := by
      intro l b n hn
      subst hn
      induction l with
      | nil => simp [DFile.sync, DFile.cur, pwrite, DFile.solid]
      | cons x l ih => simp [ih]
    unfold jumpOps indexCreateOps dataInitializeOps
    simp only [hid, hil, hs.dlen, Nat.lt_irrefl, if_false, hdid]
    cases hdue : cf.due D.ilast now with
    | true =>
      left
      refine ⟨rfl, ?_⟩
      simp only [runOps, List.cons_append, List.nil_append, List.foldl_cons, List.foldl_nil, Op.run, Disk.on, hsec,
        Disk.last, if_true, hdue, Disk.fsync, ← hl, ← hEi, ← hEd]
      rw [hmod _ _ _ hEli, hmod _ _ _ hEld]
    | false =>
      right
      refine ⟨rfl, ?_⟩
      simp only [runOps, List.cons_append, List.nil_append, List.foldl_cons, List.foldl_nil, Op.run, Disk.on, hsec,
        Disk.last, if_true, hdue, Disk.fsync, ← hl, ← hEi, ← hEd, Bool.false_eq_true, if_false]
  have ht : ∀ (x y : DFile) (a b : Nat), LeftSolid ⟨E.i ++ [x], E.d ++ [y], a, b⟩ (Zdb.jump s).indexid := by
    intro x y a b
    rw [j3]
    constructor
    · intro m z hm hz
      have : m < G.length := by
        have := (List.getElem?_eq_some_iff.1 hz).1
        simp only [List.length_append, List.length_singleton, hEli] at this
        omega
      simp only at hz
      rw [List.getElem?_append_left (by omega)] at hz
      exact h0.1 z (List.mem_of_getElem? hz)
    · intro m z hm hz
      have : m < G.length := by
        have := (List.getElem?_eq_some_iff.1 hz).1
        simp only [List.length_append, List.length_singleton, hEld] at this
        omega
      simp only at hz
      rw [List.getElem?_append_left (by omega)] at hz
      exact h0.2 z (List.mem_of_getElem? hz)
  rcases key with ⟨k1, k2⟩ | ⟨k1, k2⟩
  · rw [k2] at hjv ⊢
    refine ⟨ht _ _ _ _, rfl, Or.inr rfl, due_now hcf now, ?_⟩
    refine ⟨Zdb.jump s, logJump G, hju, ?_, absSlots_jump G, hroom.step (jump_grows s) (by decide)⟩
    refine AllSolid.onDisk ?_ hjv
    constructor
    · intro x hx
      rcases List.mem_append.1 hx with hx | hx
      · exact h0.1 x hx
      · simp only [List.mem_singleton] at hx; subst hx; rfl
    · intro x hx
      rcases List.mem_append.1 hx with hx | hx
      · exact h0.2 x hx
      · simp only [List.mem_singleton] at hx; subst hx; rfl
  · rw [k2]
    refine ⟨ht _ _ _ _, rfl, Or.inl rfl, k1, ?_⟩
    refine ⟨s, G, hs, ?_, rfl, hroom.mono (by omega)⟩
    rw [← h0.onDisk hEv]
    simp [Disk.onDisk]

/-! ### commands -/

/-- What a command that only adds ids does to the disk: nothing new is synced, and no SET is acknowledged or the last
    sync is recent; or all is synced; or the files were left, and all that was there before the command is synced. -/
def SeqEff (cf : SyncConf) (now : Nat) (D : Disk) (m : Slots) (n : Nat) (D' : Disk) (s' : Store) (acked : Prop) : Prop :=
  LeftSolid D' s'.indexid ∧ D'.ilast = D'.dlast ∧
    ((D'.onDisk = D.onDisk ∧ D'.ilast = D.ilast ∧ (acked → cf.due D.ilast now = false)) ∨
     (D'.ilast = now ∧ AllSolid D') ∨
     ((D'.ilast = D.ilast ∨ D'.ilast = now) ∧ cf.due D'.ilast now = false ∧ SlotsOn D' m n))

theorem SeqEff.none {cf : SyncConf} {now n : Nat} {D : Disk} {m : Slots} {s : Store} {a : Prop} (h : LeftSolid D s.indexid)
    (hl : D.ilast = D.dlast) (ha : ¬a) : SeqEff cf now D m n D s a :=
  ⟨h, hl, Or.inl ⟨rfl, rfl, fun h => absurd h ha⟩⟩

/-- The handler of SET, for a new id: both files are written. -/
theorem setSeq_form {c : Ctx} {br : Branches} {mode : Nat} {df : Loc → Nat} {s : Store} {G : Log} (hs : Core mode df s G) (hio : GoodIo c) (p : Bytes) (ts : Nat) :
    (setHandlerSeq c br s [] p ts none).2.1.indexid = s.indexid ∧
    SetFormAt s.indexid (setHandlerSeqOps c s [] p ts none) ∧
    ∀ o ∈ setHandlerSeqOps c s [] p ts none, OpAt s.indexid o := by
  unfold setHandlerSeqOps setHandlerSeq
  have hup : upToDate s none p = false := rfl
  simp only [List.length_nil, ne_eq, not_true_eq_false, false_and, if_false, hup, Bool.false_eq_true]
  obtain ⟨A, hA, hAn, hAe⟩ := dataInsertOps_form' s hio.data (seqIdOf s none) p 0 (crc32 p) ts
  have hwo := dataInsert_ok (s := s) hio.data hs.dataFile (seqIdOf s none) p 0 (crc32 p) ts rfl
  obtain ⟨b, prev, -, hw⟩ := hwo.eq
  have hdid : s.dataid = s.indexid := hs.did
  have hoff : (Zdb.dataInsert s c.io (seqIdOf s none) p 0 (crc32 p) ts).2 ≠ 0 := by
    rw [hwo.pos]
    obtain ⟨f, hf⟩ := hs.dataFile
    obtain ⟨t, ht⟩ := hs.dhead _ _ hf
    simp only [fileLen, hf, Option.getD_some, ht]
    simp
  have hid : (Zdb.dataInsert s c.io (seqIdOf s none) p 0 (crc32 p) ts).1.indexid = s.indexid := by rw [hw]
  clear hw hwo
  simp only [if_neg hoff]
  rw [hAe, hdid]
  rw [hdid] at hAn
  generalize Zdb.dataInsert s c.io (seqIdOf s none) p 0 (crc32 p) ts = t at hid ⊢
  obtain ⟨t, off⟩ := t
  simp only at hid ⊢
  refine ⟨?_, ?_, ?_⟩
  · rw [← hid, ← insertSeq_indexid t c.u c.io ⟨seqIdOf s none, off, p.length, crc32 p, t.dataid, ts⟩]
    split <;> rfl
  · obtain ⟨B, hB, hBe⟩ := appendEntryOps_form t hio.iapp
      (SetReq.entry ⟨seqIdOf s none, off, p.length, crc32 p, t.dataid, ts⟩ c.u)
    exact ⟨A, B, hA, hB, by rw [hBe, hid]; simp only [List.append_assoc]⟩
  · intro o ho
    simp only [List.mem_append, List.mem_singleton] at ho
    rcases ho with (ho | rfl) | ho
    · obtain ⟨b, rfl⟩ := hAn o ho; rfl
    · rfl
    · unfold appendEntryOps at ho
      simp only [hio.iapp, WriteFault.ok, Option.isNone_none, if_true, List.cons_append, List.nil_append, List.mem_cons,
        List.not_mem_nil, or_false] at ho
      rcases ho with rfl | rfl <;> exact hid

theorem LeftSolid.setBody {D : Disk} {c : Ctx} {br : Branches} {s : Store} {G : Log} (h : LeftSolid D s.indexid)
    (hs : SInv s G) (hv : D.view = s.files) {cf : SyncConf} (hcf : cf.sync = false)
    (hio : GoodIo c) {n : Nat} (hroom : Room s.ifiles.length (totalData s) (n + 1)) (hl : D.ilast = D.dlast)
    (argv : List Bytes) (p : Bytes) (hclean : CleanStep s (cmdSet.body c br s argv [] p).2.1)
    (hsec : cf.secure = true ∨ (cmdSet.body c br s argv [] p).2.1.indexid = s.indexid) :
    SeqEff cf c.now D (absSlots G) n (runOps cf c.now D (cmdSetOps.body c br s argv [] p)) (cmdSet.body c br s argv [] p).2.1
      (∃ b, (cmdSet.body c br s argv [] p).2.2 = .bulk b) := by
  unfold cmdSetOps.body
  unfold cmdSet.body at hclean hsec ⊢
  split
  · exact SeqEff.none h hl (by simp)
  split
  · exact SeqEff.none h hl (by simp [errReadOnly])
  split
  · exact SeqEff.none h hl (by simp [errFrozen])
  split
  · exact SeqEff.none h hl (by simp [errLocked])
  rename_i a1 a2 a3 a4
  simp only [if_neg a1, if_neg a2, if_neg a3, if_neg a4] at hclean hsec
  simp only [List.length_nil, ne_eq, not_true_eq_false, if_false, Option.isSome_none, Bool.false_and,
    Bool.false_eq_true] at hclean hsec ⊢
  split
  · exact SeqEff.none h hl (by simp)
  rename_i a5
  simp only [if_neg a5] at hclean hsec
  simp only [hs.mode] at hclean hsec ⊢
  unfold jumpIfFullOps
  unfold jumpIfFull at hclean hsec ⊢
  have hil := hs.irep.length
  have hcap : G.length < 2 ^ 32 := by have := hroom.1; omega
  by_cases hj : fileLen s.dfiles s.dataid + p.length > c.limit
  · simp only [if_pos hj] at hclean hsec ⊢
    obtain ⟨j0, -, -, j3⟩ := hs.toCore.jump (by rw [hs.mode]; rfl) hcap
    rw [(setSeq_form (br := br) j0 hio p (timestampFromSet c.now argv 3)).1, j3] at hsec
    have hsec : cf.secure = true := hsec.resolve_right (by have := hs.iid; omega)
    have hitems : 29 < logEnd G := by
      rw [← hs.fileLen]
      rcases hclean with hcl | hcl
      · exfalso
        rw [(setSeq_form (br := br) j0 hio p (timestampFromSet c.now argv 3)).1, j3] at hcl
        have := hs.iid; omega
      · exact hcl
    rw [runOps_append]
    obtain ⟨t1, t2, t3, t4, t5⟩ := h.jump hs hv hitems hroom hcf hsec c.now hl
    generalize runOps cf c.now D (jumpOps s) = D1 at t1 t2 t3 t4 t5 ⊢
    obtain ⟨e1, e2, e3⟩ := setSeq_form (br := br) (hs.jump hcap hitems).toCore hio p (timestampFromSet c.now argv 3)
    have t6 := t1.ops cf c.now e3
    rw [← e1] at t6
    rcases e2.run cf c.now D1 t2 with ⟨b1, -⟩ | ⟨b1, b2, b3, b4⟩
    · rw [t4] at b1; cases b1
    · refine ⟨t6, by rw [b3, b4, t2], Or.inr (Or.inr ⟨?_, by rw [b3]; exact t4, t5.congr b2⟩)⟩
      rw [b3]; exact t3
  · simp only [if_neg hj, List.nil_append] at hclean ⊢
    obtain ⟨e1, e2, e3⟩ := setSeq_form (br := br) hs.toCore hio p (timestampFromSet c.now argv 3)
    have t6 := h.ops cf c.now e3
    rcases e2.run cf c.now D hl with ⟨b1, b2, b3, b4, b5⟩ | ⟨b1, b2, b3, b4⟩
    · refine ⟨by rw [e1]; exact t6, by rw [b2, b3], Or.inr (Or.inl ⟨b2, t6.all b4 b5⟩)⟩
    · exact ⟨by rw [e1]; exact t6, by rw [b3, b4, hl], Or.inl ⟨b2, b3, fun _ => b1⟩⟩

theorem LeftSolid.command {D : Disk} {c : Ctx} {br : Branches} {s : Store} {G : Log} (h : LeftSolid D s.indexid)
    (hs : SInv s G) (hv : D.view = s.files) {cf : SyncConf} (hcf : cf.sync = false)
    (hio : GoodIo c) {n : Nat} (hroom : Room s.ifiles.length (totalData s) (n + 1)) (hl : D.ilast = D.dlast)
    {d : DsCmd} {argv : List Bytes} (hn : OnlyNew (.cmd c d argv)) (hclean : CleanStep s (dsCommand c br s d argv).2.1)
    (hsec : cf.secure = true ∨ (dsCommand c br s d argv).2.1.indexid = s.indexid) :
    SeqEff cf c.now D (absSlots G) n (runOps cf c.now D (dsOps c br s d argv)) (dsCommand c br s d argv).2.1
      (SeqAcked (.cmd c d argv, (dsCommand c br s d argv).2.2)) := by
  cases d with
  | set =>
    have key : ∀ r : Reply, SeqAcked (.cmd c .set argv, r) → ∃ b, r = .bulk b := by
      rintro r ⟨k, p, hk⟩
      unfold seqWriteOf at hk
      split at hk
      · rename_i h; simp only [Prod.mk.injEq] at h; exact ⟨_, h.2⟩
      · split at hk <;> simp at hk
      · simp at hk
    have lift : ∀ x : Branches × Store × Reply, ∀ ops : List Op,
        SeqEff cf c.now D (absSlots G) n (runOps cf c.now D ops) x.2.1 (∃ b, x.2.2 = .bulk b) →
        SeqEff cf c.now D (absSlots G) n (runOps cf c.now D ops) x.2.1 (SeqAcked (.cmd c .set argv, x.2.2)) := by
      rintro x ops ⟨e1, e2, e3⟩
      refine ⟨e1, e2, ?_⟩
      rcases e3 with ⟨f1, f2, f3⟩ | e3
      · exact Or.inl ⟨f1, f2, fun hk => f3 (key _ hk)⟩
      · exact Or.inr e3
    have hk := hn.2 rfl
    simp only [dsOps, dsCommand] at hclean hsec ⊢
    apply lift (cmdSet c br s argv)
    unfold cmdSetOps
    unfold cmdSet at hclean hsec ⊢
    match argv with
    | [] => exact SeqEff.none h hl (by simp [errArgs])
    | [_] => exact SeqEff.none h hl (by simp [errArgs])
    | [_, _] => exact SeqEff.none h hl (by simp [errArgs])
    | [_, k, p] =>
      have := hk _ rfl
      subst this
      exact h.setBody hs hv hcf hio hroom hl _ _ hclean hsec
    | [_, k, p, _] =>
      have := hk _ rfl
      subst this
      simp only at hclean hsec ⊢
      by_cases ha : c.admin = true
      · simp only [if_pos ha] at hclean hsec ⊢
        exact h.setBody hs hv hcf hio hroom hl _ _ hclean hsec
      · simp only [if_neg ha]
        exact SeqEff.none h hl (by simp [errDenied])
    | _ :: _ :: _ :: _ :: _ :: _ => exact SeqEff.none h hl (by simp [errArgs])
  | del => exact absurd rfl hn.1
  | nsjump =>
    simp only [dsOps, dsCommand, cmdNsjump] at hclean hsec ⊢
    by_cases ha : c.admin = true
    · simp only [if_pos ha] at hclean hsec ⊢
      have hil := hs.irep.length
      have hcap : G.length < 2 ^ 32 := by have := hroom.1; omega
      obtain ⟨-, -, -, j3⟩ := hs.toCore.jump (by rw [hs.mode]; rfl) hcap
      rw [j3] at hsec
      have hsec : cf.secure = true := hsec.resolve_right (by have := hs.iid; omega)
      have hitems : 29 < logEnd G := by
        rw [← hs.fileLen]
        rcases hclean with hcl | hcl
        · exfalso
          rw [j3] at hcl
          have := hs.iid; omega
        · exact hcl
      obtain ⟨t1, t2, t3, t4, t5⟩ := h.jump hs hv hitems hroom hcf hsec c.now hl
      exact ⟨t1, t2, Or.inr (Or.inr ⟨t3, t4, t5⟩)⟩
    · simp only [if_neg ha]
      exact SeqEff.none h hl (by rintro ⟨k, p, hk⟩; simp [seqWriteOf] at hk)
  | index =>
    simp only [dsOps, dsCommand]
    rcases cmdIndex_cases c s argv with hx | hx <;> rw [hx] <;>
      exact SeqEff.none h hl (by rintro ⟨k, p, hk⟩; simp [seqWriteOf] at hk)
  | _ => exact SeqEff.none h hl (by rintro ⟨k, p, hk⟩; simp [seqWriteOf] at hk)

/-! ### executions -/

/-- No restart. -/
def NoReload : NsEvent → Prop
  | .reload => False
  | _ => True

/-- The disk holds the state after `tr1`; the SETs acknowledged since, `tr2`, are at most `T` seconds after `L`. -/
structure SnapQ (T n : Nat) (D : Disk) (L : Nat) (tr1 tr2 : List (NsEvent × Reply)) : Prop where
  il : D.ilast = L
  recent : ∀ x ∈ tr2, SeqAcked x → ∃ t, evTime x.1 = some t ∧ L ≤ t ∧ t ≤ L + T
  state : SlotsOn D (specSeqRun [] (tr1.map (·.1))) n

theorem specSeqRun_append (m : Slots) (a b : List NsEvent) : specSeqRun m (a ++ b) = specSeqRun (specSeqRun m a) b := by
  induction a generalizing m with
  | nil => rfl
  | cons e a ih => simp only [List.cons_append, specSeqRun, ih]

theorem CleanDisk.ifiles_le {cf : SyncConf} {u : Nat} {br br' : Branches} {s s' : Store} {D D' : Disk}
    {tr : List (NsEvent × Reply)} (h : CleanDisk (some .seq) cf u br s D tr br' s' D') (hn : ∀ x ∈ tr, NoReload x.1) :
    s.ifiles.length ≤ s'.ifiles.length := by
  induction h with
  | nil => exact Nat.le_refl _
  | @cmd c d argv br br1 br2 s s1 s2 D D2 r tr hu h1 hc h2 ih =>
    have := dsCommand_len c br s d argv
    rw [h1] at this
    exact Nat.le_trans this (ih (fun x hx => hn x (List.mem_cons_of_mem _ hx)))
  | foreign h1 h2 ih => exact ih (fun x hx => hn x (List.mem_cons_of_mem _ hx))
  | reload t h1 hc h2 ih => exact (hn _ (List.mem_cons_self ..)).elim

theorem SnapQ.run {cf : SyncConf} (hcf : cf.sync = false) {T n : Nat}
    (hT : cf.synctime = T) (hT0 : 0 < T) {u : Nat} {br br' : Branches} {s s' : Store} {D D' : Disk}
    {tr : List (NsEvent × Reply)} (hr : CleanDisk (some .seq) cf u br s D tr br' s' D')
    (hsec : cf.secure = true ∨ s'.ifiles.length = 1) {G : Log} (hs : SInv s G)
    (hv : D.view = s.files) (ht : LeftSolid D s.indexid) (hl : D.ilast = D.dlast)
    (hev : ∀ x ∈ tr, (EvOK x.1 ∧ NoFault x.1 ∧ OnlyNew x.1) ∧ NoReload x.1)
    (hroom : Room s.ifiles.length (totalData s) (tr.length + n))
    (hclock : Clock tr) {L : Nat} {tr1 tr2 : List (NsEvent × Reply)} (hS : SnapQ T n D L tr1 tr2)
    (hL : ∀ x ∈ tr, ∀ t, evTime x.1 = some t → L ≤ t)
    (hG : absSlots G = specSeqRun [] ((tr1 ++ tr2).map (·.1))) (hnear : NearRun (absSlots G) (tr.map (·.1))) :
    ∃ L' tr1' tr2', tr1 ++ tr2 ++ tr = tr1' ++ tr2' ∧ SnapQ T n D' L' tr1' tr2' ∧
      SeqAgrees (absSlots G) tr ∧ (∃ G', LeftSolid D' s'.indexid ∧ SInv s' G' ∧ D'.view = s'.files) ∧ tr1 <+: tr1' := by
  induction hr generalizing G L tr1 tr2 with
  | nil br s D => exact ⟨L, tr1, tr2, by simp, hS, trivial, ⟨G, ht, hs, hv⟩, List.prefix_rfl⟩
  | @cmd c d argv br br1 br2 s s1 s2 D D2 r tr hcu e1 hcl e2 ih =>
    subst hcu
    obtain ⟨⟨⟨hc, ha⟩, hio, hon⟩, -⟩ := hev _ (List.mem_cons_self ..)
    have hev' := fun x hx => hev x (List.mem_cons_of_mem (NsEvent.cmd c d argv, r) hx)
    obtain ⟨G1, i0, i1, i2, i3⟩ := hs.command (br := br) hc d argv ha (hroom.mono (by simp; omega)) hnear.1
      (by rw [e1]; exact hcl)
    have hg := dsCommand_grows c br s d argv (2 ^ 23) ha.size
    have hroom' : Room s.ifiles.length (totalData s) (tr.length + n + 1) := hroom.mono (by simp; omega)
    have heff := ht.command (br := br) (argv := argv) hs hv hcf ⟨hio.1, hio.2.1, hio.2.2.1, hio.2.2.2.1⟩ hroom' hl hon
      (by rw [e1]; exact hcl) (by
        rcases hsec with hsec | hsec
        · exact Or.inl hsec
        · right
          have l1 := e2.ifiles_le (fun x hx => (hev' x hx).2)
          have l2 := dsCommand_len c br s d argv
          have l3 := i1.irep.length
          have l4 := i1.iid
          have l5 := hs.irep.length
          have l6 := hs.iid
          rw [e1] at l2 l3 l4
          simp only at l2 l3 l4
          rw [e1]
          show s1.indexid = s.indexid
          omega)
    have hview : (runOps cf c.now D (dsOps c br s d argv)).view = (dsCommand c br s d argv).2.1.files := by
      rw [view_runOps, hv, dsOps_files]
    have hnow := hL _ (List.mem_cons_self ..) c.now rfl
    have hnear2 := hnear.2
    simp only [specSeqEvent] at hnear2
    rw [← i2] at hnear2
    rw [e1] at i1 i3 hg heff hview
    simp only at i1 i3 hg heff hview
    have hroom1 := hroom'.step hg (by omega)
    have hclock' : Clock tr := (List.pairwise_cons.1 hclock).2
    have hlater : ∀ x ∈ tr, ∀ t, evTime x.1 = some t → c.now ≤ t := fun x hx t ht =>
      (List.pairwise_cons.1 hclock).1 x hx _ _ rfl ht
    have hG1 : absSlots G1 = specSeqRun [] ((tr1 ++ tr2 ++ [(NsEvent.cmd c d argv, r)]).map (·.1)) := by
      rw [List.map_append, specSeqRun_append, ← hG, i2]; rfl
    obtain ⟨f1, f2, f3⟩ := heff
    have finish : ∀ (L1 : Nat) (t1 t2 : List (NsEvent × Reply)), t1 ++ t2 = tr1 ++ tr2 ++ [(NsEvent.cmd c d argv, r)] →
        SnapQ T n (runOps cf c.now D (dsOps c br s d argv)) L1 t1 t2 → L1 ≤ c.now → tr1 <+: t1 →
        ∃ L' tr1' tr2', tr1 ++ tr2 ++ (.cmd c d argv, r) :: tr = tr1' ++ tr2' ∧ SnapQ T n D2 L' tr1' tr2' ∧
          SeqAgrees (absSlots G) ((.cmd c d argv, r) :: tr) ∧
          (∃ G', LeftSolid D2 s2.indexid ∧ SInv s2 G' ∧ D2.view = s2.files) ∧ tr1 <+: tr1' := by
      intro L1 t1 t2 et hS' hL1 hpre
      obtain ⟨L', a1, a2, b1, b2, b3, b4, b5⟩ := ih hsec i1 hview f1 f2 hev' hroom1 hclock' hS'
        (fun x hx t ht => Nat.le_trans hL1 (hlater x hx t ht)) (by rw [et]; exact hG1) hnear2
      refine ⟨L', a1, a2, ?_, b2, ⟨i3, ?_⟩, b4, hpre.trans b5⟩
      · rw [← b1, et]; simp
      · rw [i2] at b3; exact b3
    have hdue : ∀ a b, cf.due a b = false → b ≤ a + T := by
      intro a b h
      unfold SyncConf.due at h
      rw [hcf, hT] at h
      simp at h
      omega
    rcases f3 with ⟨g1, g2, g3⟩ | ⟨g1, g2⟩ | ⟨g1, g2, g3⟩
    · refine finish L tr1 (tr2 ++ [(.cmd c d argv, r)]) (by simp) ⟨g2.trans hS.il, ?_, hS.state.congr g1⟩ hnow
        List.prefix_rfl
      intro x hx hk
      rcases List.mem_append.1 hx with hx | hx
      · exact hS.recent x hx hk
      · simp only [List.mem_singleton] at hx
        subst hx
        refine ⟨c.now, rfl, hnow, ?_⟩
        rw [← hS.il]
        exact hdue _ _ (g3 hk)
    · refine finish c.now (tr1 ++ tr2 ++ [(.cmd c d argv, r)]) [] (by simp) ⟨g1, by simp, ?_⟩ (Nat.le_refl _)
        ((List.prefix_append ..).trans (List.prefix_append ..))
      exact ⟨s1, G1, i1, g2.onDisk hview, hG1, hroom1.mono (by omega)⟩
    · refine finish (runOps cf c.now D (dsOps c br s d argv)).ilast (tr1 ++ tr2) [(.cmd c d argv, r)] rfl
        ⟨rfl, ?_, ?_⟩ ?_ (List.prefix_append ..)
      · intro x hx hk
        simp only [List.mem_singleton] at hx
        subst hx
        refine ⟨c.now, rfl, ?_, hdue _ _ g2⟩
        rcases g1 with g1 | g1
        · rw [g1, hS.il]; exact hnow
        · rw [g1]; exact Nat.le_refl _
      · rw [← hG]; exact g3.mono (by omega)
      · rcases g1 with g1 | g1
        · rw [g1, hS.il]; exact hnow
        · rw [g1]; exact Nat.le_refl _
  | @foreign br br1 br2 s s2 D D2 tr e1 e2 ih =>
    have hS' : SnapQ T n D L tr1 (tr2 ++ [(.foreign, .nil)]) := by
      refine ⟨hS.il, ?_, hS.state⟩
      intro x hx hk
      rcases List.mem_append.1 hx with hx | hx
      · exact hS.recent x hx hk
      · simp only [List.mem_singleton] at hx
        subst hx
        obtain ⟨k, p, h⟩ := hk
        cases h
    obtain ⟨L', t1, t2, b1, b2, b3, b4, b5⟩ := ih hsec hs hv ht hl (fun x hx => hev x (List.mem_cons_of_mem _ hx))
      (hroom.mono (by simp)) (List.pairwise_cons.1 hclock).2 hS'
      (fun x hx t ht => hL x (List.mem_cons_of_mem _ hx) t ht)
      (by
        rw [← List.append_assoc, List.map_append, specSeqRun_append, ← hG]; rfl) hnear.2
    refine ⟨L', t1, t2, ?_, b2, ⟨fun r' hr => by simp [specSeqEvent] at hr, b3⟩, b4, b5⟩
    rw [← b1]; simp
  | reload t e1 hcl e2 ih => exact (hev _ (List.mem_cons_self ..)).2.elim

theorem fresh_time_seq {cf : SyncConf} (hcf : cf.sync = false) (hT0 : 0 < cf.synctime) {t : Nat} (ht : cf.synctime < t) :
    (Disk.fresh cf t .seq).onDisk = (freshStore .seq).files ∧
      (Disk.fresh cf t .seq).view = (freshStore .seq).files ∧ (Disk.fresh cf t .seq).ilast = t ∧
      (Disk.fresh cf t .seq).dlast = t ∧ LeftSolid (Disk.fresh cf t .seq) (freshStore .seq).indexid := by
  have h1 : cf.due 0 t = true := by
    simp only [SyncConf.due, hcf, Bool.false_or, Bool.and_eq_true, decide_eq_true_eq]; omega
  have h2 : cf.due t t = false := by
    simp [SyncConf.due, hcf]
  have e : Disk.fresh cf t .seq =
      ⟨[⟨some (encIHeader (freshIHeader 0 Mode.seq.byte)), [(0, encIHeader (freshIHeader 0 Mode.seq.byte))]⟩],
        [⟨some (encDFHeader (freshDFHeader 0)), []⟩], t, t⟩ := by
    simp only [Disk.fresh, createOps, dataInitializeOps, List.length_nil, Nat.lt_irrefl, if_false, runOps,
      List.foldl_append, List.foldl_cons, List.foldl_nil, Op.run, Disk.last, Disk.on, Disk.fsync, h1, h2, if_true,
      Bool.false_eq_true]
    rfl
  rw [e]
  refine ⟨rfl, rfl, rfl, rfl, ?_, ?_⟩
  · intro n x hn hx
    have := (List.getElem?_eq_some_iff.1 hx).1
    exact absurd (show n = 0 by simp at this; omega) hn
  · intro n x hn hx
    have := (List.getElem?_eq_some_iff.1 hx).1
    exact absurd (show n = 0 by simp at this; omega) hn

/-- What was synced, at the end of an execution from a new namespace. -/
theorem SeqSyncRun.snapQ {cf : SyncConf} (hcf : cf.sync = false) {T : Nat}
    (hT : cf.synctime = T) (hT0 : 0 < T) {u t : Nat} {tr : List (NsEvent × Reply)} {br : Branches} {s : Store}
    {D : Disk} (h : SeqSyncRun cf u t tr br s D) (hsec : cf.secure = true ∨ s.ifiles.length = 1) (hnr : ∀ x ∈ tr, NoReload x.1) (hclock : Clock tr)
    (ht : T < t) (hlater : ∀ x ∈ tr, ∀ a, evTime x.1 = some a → t ≤ a) {n : Nat} (hn : tr.length + n < maxEvents) :
    ∃ L tr1 tr2, tr = tr1 ++ tr2 ∧ SnapQ T n D L tr1 tr2 ∧ SeqAgrees [] tr ∧
      ∃ G', LeftSolid D s.indexid ∧ SInv s G' ∧ D.view = s.files := by
  subst hT
  obtain ⟨br0, b, s0, e1, e2⟩ := h.run
  rw [freshNs_eq] at e1
  injection e1 with e1 e1'
  subst e1'
  have hf : absSlots [[]] = [] := rfl
  obtain ⟨f1, f2, f3, f4, f5⟩ := fresh_time_seq hcf hT0 ht
  have hroom : Room (freshStore .seq).ifiles.length (totalData (freshStore .seq)) (tr.length + n) := by
    unfold maxEvents at hn
    constructor
    · simp [freshStore]; omega
    · simp [freshStore, totalData]; omega
  have hS : SnapQ cf.synctime n (Disk.fresh cf t .seq) t [] [] :=
    ⟨f3, by simp, _, _, freshStore_sinv, f1, rfl, hroom.mono (by omega)⟩
  obtain ⟨L, tr1, tr2, a, b, c, d, -⟩ := SnapQ.run hcf rfl hT0 e2 hsec freshStore_sinv f2 f5 (f3.trans f4.symm)
    (fun x hx => ⟨h.ev x hx, hnr x hx⟩) hroom hclock hS hlater rfl (by rw [hf]; exact h.near)
  exact ⟨L, tr1, tr2, by simpa using a, b, by rw [hf] at c; exact c, d⟩

/-- The files synced once are what may be found after a power loss. -/
theorem survives_filterMap : ∀ l : List DFile,
    (∀ (n : Nat) (x : DFile), n + 1 < l.length → l[n]? = some x → ∃ f, x.safe = some f) →
      ∀ (n : Nat) (x : DFile), l[n]? = some x → Survives x (l.filterMap DFile.safe)[n]? := by
  intro l
  induction l with
  | nil => intro _ n x hx; simp at hx
  | cons y l ih =>
    intro hl n x hx
    cases hy : y.safe with
    | none =>
      have hnil : l = [] := by
        cases l with
        | nil => rfl
        | cons z l =>
          obtain ⟨f, hf⟩ := hl 0 y (by simp) rfl
          rw [hy] at hf; cases hf
      subst hnil
      cases n with
      | zero =>
        cases hx
        simp only [List.filterMap_cons, hy, List.filterMap_nil, List.getElem?_nil]
        exact .gone hy
      | succ n => simp at hx
    | some f =>
      simp only [List.filterMap_cons, hy]
      cases n with
      | zero =>
        cases hx
        simp only [List.getElem?_cons_zero]
        refine .kept ?_
        rw [hy]
        exact (by
          generalize y.pend = ws
          show Partly f ws f
          induction ws with
          | nil => exact .nil f
          | cons w ws ih => exact .cons [] (List.nil_sublist _) ih)
      | succ n =>
        simp only [List.getElem?_cons_succ] at hx ⊢
        exact ih (fun m z hm hz => hl (m + 1) z (by simp only [List.length_cons]; omega) hz) n x hx

theorem LeftSolid.powerLoss {D : Disk} {s : Store} {G : Log} (h : LeftSolid D s.indexid) (hs : SInv s G)
    (hv : D.view = s.files) : PowerLoss D D.onDisk.1 D.onDisk.2 := by
  have vi : D.i.map DFile.cur = s.ifiles := congrArg Prod.fst hv
  have vd : D.d.map DFile.cur = s.dfiles := congrArg Prod.snd hv
  have hil := hs.irep.length
  have hid := hs.iid
  have hdl := hs.dlen
  have li : D.i.length = G.length := by rw [← hil, ← vi, List.length_map]
  have ld : D.d.length = G.length := by rw [← hdl, ← vd, List.length_map]
  refine ⟨List.length_filterMap_le _ _, List.length_filterMap_le _ _, survives_filterMap _ ?_, survives_filterMap _ ?_⟩
  · intro n x hn hx
    have := congrArg DFile.safe (h.1 n x (by omega) hx)
    exact ⟨_, this⟩
  · intro n x hn hx
    have := congrArg DFile.safe (h.2 n x (by omega) hx)
    exact ⟨_, this⟩

end Zdb
