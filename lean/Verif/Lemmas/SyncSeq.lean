/-
Under `--sync`, in sequential mode, nothing is left in the page cache by commands which only add ids.
-/
import Verif.Spec.SyncSeq
import Verif.Lemmas.SyncUser
import Verif.Lemmas.SeqRun
namespace Zdb

/-- Everything reached the disk. -/
def AllSolid (D : Disk) : Prop := (∀ x ∈ D.i, x = DFile.solid x.cur) ∧ (∀ x ∈ D.d, x = DFile.solid x.cur)

theorem mem_modify_solid {l : List DFile} (h : ∀ x ∈ l, x = DFile.solid x.cur) (g : DFile → DFile)
    (hg : ∀ x, g x = DFile.solid (g x).cur) (n : Nat) : ∀ x ∈ l.modify n g, x = DFile.solid x.cur := by
  induction l generalizing n with
  | nil => simp
  | cons a l ih =>
    cases n with
    | zero =>
      intro x hx
      rw [List.modify_zero_cons] at hx
      rcases List.mem_cons.1 hx with rfl | hx
      · exact hg a
      · exact h x (by simp [hx])
    | succ n =>
      intro x hx
      rw [List.modify_succ_cons] at hx
      rcases List.mem_cons.1 hx with rfl | hx
      · exact h _ (by simp)
      · exact ih (fun y hy => h y (by simp [hy])) n x hx

theorem modify_fix {l : List Bytes} {n : Nat} {f : Bytes} {g : Bytes → Bytes} (h : l[n]? = some f) (hg : g f = f) :
    l.modify n g = l := by
  apply List.ext_getElem?
  intro m
  rw [List.getElem?_modify]
  by_cases hm : n = m
  · subst hm; rw [h]; simp [hg]
  · simp [hm]

theorem append_check {cf : SyncConf} (hcf : cf.sync = true) (now : Nat) {D : Disk} (h : AllSolid D) (k : Kind) (n : Nat)
    (b : Bytes) : AllSolid (runOps cf now D [.append k n b, .check k n]) := by
  cases k <;>
  · simp only [runOps, List.foldl_cons, List.foldl_nil, Op.run, Disk.on, due_sync hcf, if_true, Disk.fsync]
    rw [List.modify_modify_eq]
    first
    | exact ⟨mem_modify_solid h.1 _ (fun x => rfl) n, h.2⟩
    | exact ⟨h.1, mem_modify_solid h.2 _ (fun x => rfl) n⟩

theorem append2_check {cf : SyncConf} (hcf : cf.sync = true) (now : Nat) {D : Disk} (h : AllSolid D) (n : Nat)
    (a b : Bytes) : AllSolid (runOps cf now D [.append .data n a, .append .data n b, .check .data n]) := by
  simp only [runOps, List.foldl_cons, List.foldl_nil, Op.run, Disk.on, due_sync hcf, if_true, Disk.fsync]
  rw [List.modify_modify_eq, List.modify_modify_eq]
  exact ⟨h.1, mem_modify_solid h.2 _ (fun x => rfl) n⟩

theorem write_check {cf : SyncConf} (hcf : cf.sync = true) (now : Nat) {D : Disk} (h : AllSolid D) (k : Kind) (n off : Nat)
    (b : Bytes) : AllSolid (runOps cf now D [.write k n off b, .check k n]) := by
  cases k <;>
  · simp only [runOps, List.foldl_cons, List.foldl_nil, Op.run, Disk.on, due_sync hcf, if_true, Disk.fsync]
    rw [List.modify_modify_eq]
    first
    | exact ⟨mem_modify_solid h.1 _ (fun x => rfl) n, h.2⟩
    | exact ⟨h.1, mem_modify_solid h.2 _ (fun x => rfl) n⟩

theorem create_check {l : List DFile} (h : ∀ x ∈ l, x = DFile.solid x.cur) (y : DFile) :
    ∀ x ∈ (l ++ [y]).modify l.length DFile.sync, x = DFile.solid x.cur := by
  induction l with
  | nil =>
    intro x hx
    simp only [List.nil_append, List.length_nil, List.modify_zero_cons, List.mem_cons, List.not_mem_nil,
      or_false] at hx
    subst hx; rfl
  | cons a l ih =>
    intro x hx
    rw [List.length_cons, List.cons_append, List.modify_succ_cons] at hx
    rcases List.mem_cons.1 hx with rfl | hx
    · exact h _ (by simp)
    · exact ih (fun y hy => h y (by simp [hy])) x hx

theorem secure_solid {cf : SyncConf} (now : Nat) {D : Disk} (h : AllSolid D) (k : Kind) (n : Nat) :
    AllSolid (runOps cf now D [.secure k n]) := by
  simp only [runOps, List.foldl_cons, List.foldl_nil, Op.run]
  split
  · cases k
    · exact ⟨mem_modify_solid h.1 _ (fun x => rfl) n, h.2⟩
    · exact ⟨h.1, mem_modify_solid h.2 _ (fun x => rfl) n⟩
  · exact h

theorem indexCreate_solid {cf : SyncConf} (hcf : cf.sync = true) (now : Nat) {D : Disk} (h : AllSolid D)
    {fs : List Bytes} (hl : D.i.length = fs.length) (id mode : Nat) :
    AllSolid (runOps cf now D (indexCreateOps fs id mode)) := by
  unfold indexCreateOps
  dsimp only
  split
  · exact append_check hcf now h ..
  · simp only [runOps, List.foldl_cons, List.foldl_nil, Op.run, Disk.on, due_sync hcf, if_true, Disk.fsync]
    rw [← hl]
    exact ⟨create_check h.1 _, h.2⟩

theorem dataInitialize_solid {cf : SyncConf} (hcf : cf.sync = true) (now : Nat) {D : Disk} (h : AllSolid D)
    {fs : List Bytes} (hl : D.d.length = fs.length) (id : Nat) :
    AllSolid (runOps cf now D (dataInitializeOps fs id)) := by
  unfold dataInitializeOps
  dsimp only
  split
  · exact write_check hcf now h ..
  · simp only [runOps, List.foldl_cons, List.foldl_nil, Op.run, Disk.on, due_sync hcf, if_true, Disk.fsync]
    rw [← hl]
    exact ⟨h.1, create_check h.2 _⟩

/-- The data files are not touched by the creation of an index file. -/
theorem indexCreate_data (cf : SyncConf) (now : Nat) (D : Disk) (fs : List Bytes) (id mode : Nat) :
    (runOps cf now D (indexCreateOps fs id mode)).d = D.d := by
  unfold indexCreateOps
  dsimp only
  split <;>
  · simp only [runOps, List.foldl_cons, List.foldl_nil, Op.run, Disk.on]
    split <;> rfl

theorem secure_lengths (cf : SyncConf) (now : Nat) (D : Disk) (k : Kind) (n : Nat) :
    (runOps cf now D [.secure k n]).i.length = D.i.length ∧ (runOps cf now D [.secure k n]).d.length = D.d.length := by
  simp only [runOps, List.foldl_cons, List.foldl_nil, Op.run]
  split
  · cases k <;> simp [Disk.on]
  · exact ⟨rfl, rfl⟩

theorem jump_solid {cf : SyncConf} (hcf : cf.sync = true) (now : Nat) {D : Disk} (h : AllSolid D) {s : Store}
    (hv : D.view = s.files) : AllSolid (runOps cf now D (jumpOps s)) := by
  have hi : D.i.length = s.ifiles.length := by
    have := congrArg (fun x => x.1.length) hv
    simpa [Disk.view, Store.files] using this
  have hd : D.d.length = s.dfiles.length := by
    have := congrArg (fun x => x.2.length) hv
    simpa [Disk.view, Store.files] using this
  unfold jumpOps
  dsimp only
  rw [runOps_append, runOps_append, runOps_append]
  have h1 := secure_solid (cf := cf) now h .index s.indexid
  have l1 := secure_lengths cf now D .index s.indexid
  generalize runOps cf now D [Op.secure .index s.indexid] = D1 at h1 l1
  have h2 := indexCreate_solid hcf now h1 (fs := s.ifiles) (by omega) ((s.indexid + 1) % 2 ^ 32) s.mode.byte
  have l2 := congrArg List.length (indexCreate_data cf now D1 s.ifiles ((s.indexid + 1) % 2 ^ 32) s.mode.byte)
  generalize runOps cf now D1 (indexCreateOps s.ifiles ((s.indexid + 1) % 2 ^ 32) s.mode.byte) = D2 at h2 l2
  have h3 := secure_solid (cf := cf) now h2 .data s.dataid
  have l3 := secure_lengths cf now D2 .data s.dataid
  generalize runOps cf now D2 [Op.secure .data s.dataid] = D3 at h3 l3
  exact dataInitialize_solid hcf now h3 (by omega) _

/-- A command that only adds ids leaves nothing in the page cache. -/
theorem command_solid {cf : SyncConf} (hcf : cf.sync = true) {D : Disk} (h : AllSolid D) {c : Ctx} (hio : GoodIo c)
    {br : Branches} {s : Store} (hm : s.mode = .seq) (hv : D.view = s.files) {d : DsCmd} {argv : List Bytes}
    (hn : OnlyNew (.cmd c d argv)) : AllSolid (runOps cf c.now D (dsOps c br s d argv)) := by
  have hdat := hio.data
  have body : ∀ (av : List Bytes) (payload : Bytes), AllSolid (runOps cf c.now D (cmdSetOps.body c br s av [] payload)) := by
    intro av payload
    unfold cmdSetOps.body
    split
    · exact h
    split
    · exact h
    split
    · exact h
    split
    · exact h
    simp only [List.length_nil, ne_eq, not_true_eq_false, if_false, Option.isSome_none, Bool.false_and,
      Bool.false_eq_true]
    split
    · exact h
    rw [hm]
    dsimp only
    rw [runOps_append]
    have h1 : AllSolid (runOps cf c.now D (jumpIfFullOps c.limit s payload.length)) := by
      unfold jumpIfFullOps
      split
      · exact jump_solid hcf _ h hv
      · exact h
    generalize runOps cf c.now D (jumpIfFullOps c.limit s payload.length) = D1 at h1
    generalize jumpIfFull c.limit s payload.length = s1
    unfold setHandlerSeqOps
    rw [if_neg (by simp)]
    dsimp only
    split
    · exact h1
    rw [runOps_append]
    have h2 : ∀ id f crc ts, AllSolid (runOps cf c.now D1 (dataInsertOps s1 c.io id payload f crc ts)) := by
      intro id f crc ts
      unfold dataInsertOps
      simp only [Bool.and_eq_true] at hdat
      simp only [hdat.1, hdat.2, Bool.not_true, Bool.false_eq_true, if_false]
      exact append2_check hcf _ h1 ..
    replace h2 := h2 (seqIdOf s1 none) 0 (crc32 payload) (timestampFromSet c.now av 3)
    generalize runOps cf c.now D1 (dataInsertOps s1 c.io (seqIdOf s1 none) payload 0 (crc32 payload)
      (timestampFromSet c.now av 3)) = D2 at h2
    split
    · exact h2
    unfold appendEntryOps
    rw [hio.iapp]
    exact append_check hcf _ h2 ..
  cases d with
  | set =>
    have hk := hn.2 rfl
    simp only [dsOps, cmdSetOps]
    split
    · have := hk _ rfl
      subst this
      exact body ..
    · have := hk _ rfl
      subst this
      split
      · exact body ..
      · exact h
    · exact h
  | del => exact absurd rfl hn.1
  | nsjump =>
    simp only [dsOps]
    split
    · exact jump_solid hcf _ h hv
    · exact h
  | _ => exact h

/-- Loading leaves nothing in the page cache and writes back the headers that are there. -/
theorem load_solid {cf : SyncConf} (hcf : cf.sync = true) (now : Nat) {D : Disk} (h : AllSolid D) {mode : Nat}
    (hmode : mode < 256) {df : Loc → Nat} {s : Store} {G : Log} (hc : Core mode df s G)
    (hv : D.view = s.files) :
    AllSolid (runOps cf now D (loadOps s.ifiles s.dfiles)) ∧
      (runOps cf now D (loadOps s.ifiles s.dfiles)).view = s.files := by
  unfold loadOps
  rw [runOps_append]
  have hil := hc.irep.length
  have key : ∀ (l : List (Bytes × Nat)) (D : Disk), (∀ x ∈ l, s.ifiles[x.2]? = some x.1) → AllSolid D → D.view = s.files →
      AllSolid (runOps cf now D (l.flatMap (fun x =>
        [Op.write .index x.2 0 (encIHeader { decIHeader x.1 with opened := 0 }), Op.check .index x.2]))) ∧
      (runOps cf now D (l.flatMap (fun x =>
        [Op.write .index x.2 0 (encIHeader { decIHeader x.1 with opened := 0 }), Op.check .index x.2]))).view = s.files := by
    intro l
    induction l with
    | nil => intro D _ hD hv; exact ⟨hD, hv⟩
    | cons x l ih =>
      intro D hx hD hv
      rw [List.flatMap_cons, runOps_append]
      have hf := hx x (by simp)
      refine ih _ (fun y hy => hx y (by simp [hy])) (write_check hcf now hD ..) ?_
      have hsame : pwrite x.1 0 (encIHeader { decIHeader x.1 with opened := 0 }) = x.1 := by
        have hg := hc.irep.get x.2
        rw [hf] at hg
        cases hgg : G[x.2]? with
        | none => rw [hgg] at hg; cases hg
        | some g =>
          rw [hgg, Option.map_some, Option.some.injEq] at hg
          have hlt := (List.getElem?_eq_some_iff.1 hgg).1
          have hfl := hc.files
          rw [hg, decIHeader_encFile mode x.2 hmode (by omega) g]
          exact pwrite_same _ _
      rw [view_runOps, hv]
      simp only [opsFiles, List.foldl_cons, List.foldl_nil, Op.files, Store.files, Prod.mk.injEq, and_true]
      exact modify_fix hf hsame
  obtain ⟨h1, v1⟩ := key s.ifiles.zipIdx D (by
    intro x hx
    obtain ⟨a, n⟩ := x
    exact List.mk_mem_zipIdx_iff_getElem?.1 hx) h hv
  generalize runOps cf now D _ = D1 at h1 v1
  have hd : D1.d.length = s.dfiles.length := by
    have := congrArg (fun x => x.2.length) v1
    simpa [Disk.view, Store.files] using this
  refine ⟨dataInitialize_solid hcf now h1 hd _, ?_⟩
  have hpos : 0 < G.length := List.length_pos_iff.2 hc.ne
  have hlt : s.ifiles.length - 1 < s.dfiles.length := by rw [hil, hc.dlen]; omega
  rw [view_runOps, v1]
  unfold dataInitializeOps
  simp only [if_pos hlt]
  simp only [opsFiles, List.foldl_cons, List.foldl_nil, Op.files, Store.files, Prod.mk.injEq, true_and]
  obtain ⟨t, ht⟩ := hc.dhead _ _ (List.getElem?_eq_getElem hlt)
  refine modify_fix (List.getElem?_eq_getElem hlt) ?_
  rw [ht]
  exact pwrite_same _ _

theorem CleanDisk.toClean {cfg : Option Mode} {cf : SyncConf} {u : Nat} {br br' : Branches} {s s' : Store} {D D' : Disk}
    {tr : List (NsEvent × Reply)} (h : CleanDisk cfg cf u br s D tr br' s' D') : CleanRun cfg u br s tr br' s' := by
  induction h with
  | nil => exact .nil ..
  | cmd c d argv hu h1 hc _ ih => exact .cmd c d argv hu h1 hc ih
  | foreign h1 _ ih => exact .foreign h1 ih
  | reload t h1 hc _ ih => exact .reload h1 hc ih

theorem SeqSyncRun.toSeq {cf : SyncConf} {u t : Nat} {tr : List (NsEvent × Reply)} {br' : Branches} {s' : Store}
    {D' : Disk} (h : SeqSyncRun cf u t tr br' s' D') : SeqRun (some .seq) u tr br' s' where
  run := by
    obtain ⟨br0, br, s, h1, h2⟩ := h.run
    exact ⟨br, s, Or.inl ⟨rfl, br0, h1⟩, h2.toClean⟩
  ev := fun x hx => (h.ev x hx).1
  near := h.near
  len := Nat.le_of_lt h.len

/-- Nothing is left in the page cache by an execution. -/
theorem CleanDisk.solid {cf : SyncConf} (hcf : cf.sync = true) {cfg : Option Mode}
    (hcfg : cfg = none ∨ cfg = some .seq) {u : Nat} {br br' : Branches}
    {s s' : Store} {D D' : Disk} {tr : List (NsEvent × Reply)} (hr : CleanDisk cfg cf u br s D tr br' s' D') {G : Log}
    (h : SInv s G) (hev : ∀ x ∈ tr, EvOK x.1 ∧ NoFault x.1 ∧ OnlyNew x.1)
    (hnear : NearRun (absSlots G) (tr.map (·.1)))
    (n : Nat) (hroom : Room s.ifiles.length (totalData s) (tr.length + n)) (hs : AllSolid D) (hv : D.view = s.files) :
    AllSolid D' ∧ D'.view = s'.files ∧ Room s'.ifiles.length (totalData s') n ∧
      ∃ G', SInv s' G' ∧ absSlots G' = specSeqRun (absSlots G) (tr.map (·.1)) ∧ SeqAgrees (absSlots G) tr := by
  induction hr generalizing G with
  | nil => exact ⟨hs, hv, hroom.mono (by simp), G, h, rfl, trivial⟩
  | @cmd c d argv br br1 br2 s s1 s2 D D2 r tr hu h1 hcl h2 ih =>
    subst hu
    obtain ⟨⟨hc, ha⟩, hnf, hn⟩ := hev _ (List.mem_cons_self ..)
    obtain ⟨G1, i0, i1, i2, i3⟩ := h.command (br := br) hc d argv ha (hroom.mono (by simp; omega)) hnear.1
      (by rw [h1]; exact hcl)
    have hg := dsCommand_grows c br s d argv (2 ^ 23) ha.size
    have hfiles := dsOps_files c br s d argv
    rw [h1] at i1 i3 hg hfiles
    have hnear2 := hnear.2
    simp only [specSeqEvent] at hnear2
    rw [← i2] at hnear2
    obtain ⟨j1, j2, j3, G', j4, j5, j6⟩ := ih i1 (fun x hx => hev x (List.mem_cons_of_mem _ hx)) hnear2
      (Room.step (n := tr.length + n) (hroom.mono (by simp; omega)) hg (by omega))
      (command_solid hcf hs ⟨hnf.1, hnf.2.1, hnf.2.2.1, hnf.2.2.2.1⟩ h.mode hv hn)
      (by rw [view_runOps, hv]; exact hfiles)
    refine ⟨j1, j2, j3, G', j4, ?_, i3, by rw [i2] at j6; exact j6⟩
    rw [j5, i2]; rfl
  | @foreign br br1 br2 s s2 D D2 tr h1 h2 ih =>
    obtain ⟨j1, j2, j3, G', j4, j5, j6⟩ := ih h (fun x hx => hev x (List.mem_cons_of_mem _ hx)) hnear.2
      (hroom.mono (by simp)) hs hv
    exact ⟨j1, j2, j3, G', j4, j5, fun r' hr => by simp [specSeqEvent] at hr, j6⟩
  | @reload t br br1 br2 s s1 s2 D D2 tr h1 hcl h2 ih =>
    have hlen := h.irep.length
    have hlast : G.length = 1 ∨ 29 < logEnd G := by
      rcases hcl with hcl | hcl
      · left; have := h.iid; omega
      · right; rw [h.fileLen] at hcl; exact hcl
    obtain ⟨t', k1, k2, k3, k4, -⟩ := h.reload br u cfg hcfg (by have := hroom.1; omega) hlast
    rw [h1] at k1
    injection k1 with k1 k1'
    subst k1; subst k1'
    obtain ⟨l1, l2⟩ := load_solid hcf t (D := { D with ilast := 0, dlast := 0 }) hs (by decide) h.toCore hv
    obtain ⟨j1, j2, j3, G', j4, j5, j6⟩ := ih k2 (fun x hx => hev x (List.mem_cons_of_mem _ hx)) hnear.2
      (by rw [k3, totalData, k4]; exact hroom.mono (by simp)) l1 (by rw [l2, Store.files, Store.files, k3, k4])
    exact ⟨j1, j2, j3, G', j4, j5, fun r' hr => by simp [specSeqEvent] at hr, j6⟩

theorem fresh_solid {cf : SyncConf} (hcf : cf.sync = true) (t : Nat) :
    AllSolid (Disk.fresh cf t .seq) ∧ (Disk.fresh cf t .seq).view = (freshStore .seq).files := by
  have h := DInv.fresh hcf t .seq [[]]
  constructor
  · constructor
    · intro x hx
      simp only [Disk.fresh, createOps, dataInitializeOps, runOps, List.foldl_cons, List.foldl_nil, List.length_nil,
        Nat.lt_irrefl, if_false, List.cons_append, List.nil_append, Op.run, Disk.on, due_sync hcf, if_true,
        Disk.fsync, List.modify_zero_cons, List.mem_cons, List.not_mem_nil, or_false] at hx
      subst hx; rfl
    · intro x hx
      simp only [Disk.fresh, createOps, dataInitializeOps, runOps, List.foldl_cons, List.foldl_nil, List.length_nil,
        Nat.lt_irrefl, if_false, List.cons_append, List.nil_append, Op.run, Disk.on, due_sync hcf, if_true,
        Disk.fsync, List.modify_zero_cons, List.mem_cons, List.not_mem_nil, or_false] at hx
      subst hx; rfl
  · unfold Disk.fresh
    rw [view_runOps]
    decide +kernel

/-- A power loss takes nothing from such a disk. -/
theorem AllSolid.loss {D : Disk} (h : AllSolid D) {s : Store} (hv : D.view = s.files) {fi fd : List Bytes}
    (hp : PowerLoss D fi fd) : fi = s.ifiles ∧ fd = s.dfiles := by
  have one : ∀ (l : List DFile) (f : List Bytes), (∀ x ∈ l, x = DFile.solid x.cur) → f.length ≤ l.length →
      (∀ (n : Nat) (x : DFile), l[n]? = some x → Survives x f[n]?) → f = l.map DFile.cur := by
    intro l f hl hlen hs
    apply List.ext_getElem?
    intro n
    rw [List.getElem?_map]
    cases hn : l[n]? with
    | none =>
      have := List.getElem?_eq_none_iff.1 hn
      rw [List.getElem?_eq_none_iff.2 (by omega)]; rfl
    | some x =>
      have h1 := hs n x hn
      have h2 := hl x (List.mem_of_getElem? hn)
      generalize f[n]? = o at h1
      rw [h2] at h1
      cases h1 with
      | kept h3 =>
        cases h3
        rfl
      | gone h3 => cases h3
  have e1 : D.i.map DFile.cur = s.ifiles := congrArg Prod.fst hv
  have e2 : D.d.map DFile.cur = s.dfiles := congrArg Prod.snd hv
  exact ⟨by rw [← e1]; exact one _ _ h.1 hp.1 hp.2.2.1, by rw [← e2]; exact one _ _ h.2 hp.2.1 hp.2.2.2⟩

theorem SeqSyncRun.solid {cf : SyncConf} (hcf : cf.sync = true) {u t : Nat} {tr : List (NsEvent × Reply)}
    {br' : Branches} {s' : Store} {D' : Disk} (h : SeqSyncRun cf u t tr br' s' D') {n : Nat}
    (hn : tr.length + n < maxEvents) :
    AllSolid D' ∧ D'.view = s'.files ∧ Room s'.ifiles.length (totalData s') n ∧
      ∃ G', SInv s' G' ∧ absSlots G' = specSeqRun [] (tr.map (·.1)) ∧ SeqAgrees [] tr := by
  obtain ⟨br0, br, s, h1, h2⟩ := h.run
  rw [freshNs_eq] at h1
  injection h1 with h1 h1'
  subst h1'
  have hf : absSlots [[]] = [] := rfl
  obtain ⟨f1, f2⟩ := fresh_solid hcf t
  have := h2.solid hcf (Or.inr rfl) freshStore_sinv h.ev (by rw [hf]; exact h.near) n (by
    unfold maxEvents at hn
    constructor
    · simp [freshStore]; omega
    · simp [freshStore, totalData]; omega) f1 f2
  simpa only [hf] using this

end Zdb
