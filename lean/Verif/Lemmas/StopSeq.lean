/-
With `--secure`, in sequential mode, the files that were left are on the disk if ids are only added.
-/
import Verif.Lemmas.SyncSeq
import Verif.Lemmas.Stop
namespace Zdb

/-- A power loss takes nothing from the file. -/
def OnDisk (x : DFile) : Prop := ∀ o, Survives x o → o = some x.cur

theorem OnDisk.sync (x : DFile) : OnDisk x.sync := fun _ h => h.synced

theorem Partly.snoc {f g : Bytes} {w : Nat × Bytes} {ws : List (Nat × Bytes)} (h : Partly f (ws ++ [w]) g) :
    ∃ (m : Bytes) (l : List (Nat × UInt8)), Partly f ws m ∧ l.Sublist (byteWrites w) ∧ g = l.foldl (fun b x => pwrite b x.1 [x.2]) m := by
  induction ws generalizing f with
  | nil =>
    cases h with
    | cons l hl h =>
      cases h
      exact ⟨f, l, .nil f, hl, rfl⟩
  | cons v ws ih =>
    cases h with
    | cons l hl h =>
      obtain ⟨m, l', h1, h2, h3⟩ := ih h
      exact ⟨m, l', .cons l hl h1, h2, h3⟩

theorem pwrite_byte {f : Bytes} {p : Nat} {v : UInt8} (h : f[p]? = some v) : pwrite f p [v] = f := by
  have hp := (List.getElem?_eq_some_iff.1 h).1
  apply List.ext_getElem?
  intro n
  rw [pwrite_get (by simp; omega)]
  split
  · rename_i hn
    have : n = p := by simp at hn; omega
    subst this
    simp [h]
  · rfl

/-- Writing a header that is already there. -/
theorem OnDisk.header {x : DFile} (h : OnDisk x) {b t : Bytes} (hx : x.cur = b ++ t) : OnDisk (x.put 0 b) := by
  intro o ho
  have hc : (x.put 0 b).cur = x.cur := by rw [DFile.cur_put, hx, pwrite_same]
  rw [hc]
  cases ho with
  | gone h1 =>
    have := h none (.gone h1)
    cases this
  | @kept g h1 =>
    obtain ⟨m, l, h2, h3, rfl⟩ := Partly.snoc h1
    have hm := h _ (.kept h2)
    simp only [Option.some.injEq] at hm
    subst hm
    have hl : ∀ y ∈ l, x.cur[y.1]? = some y.2 := fun y hy => by
      rw [hx]; exact byteWrites_prefix b t y (h3.subset hy)
    clear h1 h2 h3 hc
    congr 1
    induction l with
    | nil => rfl
    | cons y l ih =>
      rw [List.foldl_cons, pwrite_byte (hl y (by simp))]
      exact ih (fun z hz => hl z (by simp [hz]))

/-- All files but the last. -/
def OldKept (l : List DFile) : Prop := ∀ (n : Nat) (x : DFile), l[n]? = some x → n + 1 < l.length → OnDisk x

theorem OldKept.last {l : List DFile} (h : OldKept l) (n : Nat) (hn : n + 1 = l.length) (g : DFile → DFile) :
    OldKept (l.modify n g) := by
  intro m x hx hm
  rw [List.length_modify] at hm
  rw [List.getElem?_modify] at hx
  have : ¬ n = m := by omega
  simp only [this, if_false, id_map'] at hx
  exact h m x (by simpa using hx) hm

theorem OldKept.any {l : List DFile} (h : OldKept l) (n : Nat) (g : DFile → DFile)
    (hg : ∀ x, l[n]? = some x → OnDisk x → OnDisk (g x)) : OldKept (l.modify n g) := by
  intro m x hx hm
  rw [List.length_modify] at hm
  rw [List.getElem?_modify] at hx
  by_cases hnm : n = m
  · subst hnm
    cases hl : l[n]? with
    | none => rw [hl] at hx; cases hx
    | some y =>
      rw [hl] at hx
      simp only [if_true, Option.map_eq_map, Option.map_some, Option.some.injEq] at hx
      subst hx
      exact hg y hl (h n y hl hm)
  · simp only [hnm, if_false] at hx
    exact h m x (by simpa using hx) hm

theorem OldKept.grow {l : List DFile} (h : OldKept l) {n : Nat} (hn : n + 1 = l.length) (y : DFile) :
    OldKept (l.modify n DFile.sync ++ [y]) := by
  intro m x hx hm
  simp only [List.length_append, List.length_modify, List.length_singleton] at hm
  rw [List.getElem?_append_left (by rw [List.length_modify]; omega), List.getElem?_modify] at hx
  by_cases hnm : n = m
  · subst hnm
    cases hl : l[n]? with
    | none => rw [hl] at hx; cases hx
    | some z =>
      rw [hl] at hx
      simp only [if_true, Option.map_eq_map, Option.map_some, Option.some.injEq] at hx
      subst hx
      exact OnDisk.sync z
  · simp only [hnm, if_false] at hx
    exact h m x (by simpa using hx) (by omega)

structure Olds (D : Disk) : Prop where
  i : OldKept D.i
  d : OldKept D.d

/-- Calls about the last files. -/
def Op.AtLast (li ld : Nat) : Op → Prop
  | .append .index n _ => n + 1 = li
  | .append .data n _ => n + 1 = ld
  | .write .index n _ _ => n + 1 = li
  | .write .data n _ _ => n + 1 = ld
  | .check .index n => n + 1 = li
  | .check .data n => n + 1 = ld
  | .create _ _ => False
  | .secure _ _ => False

theorem Olds.op {D : Disk} (h : Olds D) (cf : SyncConf) (t : Nat) {o : Op} (hf : o.AtLast D.i.length D.d.length) :
    Olds (o.run cf t D) ∧ (o.run cf t D).i.length = D.i.length ∧ (o.run cf t D).d.length = D.d.length := by
  cases o with
  | create k b => exact hf.elim
  | secure k n => exact hf.elim
  | append k n b =>
    cases k
    · exact ⟨⟨h.i.last n hf _, h.d⟩, by simp [Op.run, Disk.on], rfl⟩
    · exact ⟨⟨h.i, h.d.last n hf _⟩, rfl, by simp [Op.run, Disk.on]⟩
  | write k n off b =>
    cases k
    · exact ⟨⟨h.i.last n hf _, h.d⟩, by simp [Op.run, Disk.on], rfl⟩
    · exact ⟨⟨h.i, h.d.last n hf _⟩, rfl, by simp [Op.run, Disk.on]⟩
  | check k n =>
    cases k
    · simp only [Op.run]
      split
      · exact ⟨⟨h.i.last n hf _, h.d⟩, by simp [Disk.fsync], by simp [Disk.fsync]⟩
      · exact ⟨h, rfl, rfl⟩
    · simp only [Op.run]
      split
      · exact ⟨⟨h.i, h.d.last n hf _⟩, by simp [Disk.fsync], by simp [Disk.fsync]⟩
      · exact ⟨h, rfl, rfl⟩

theorem Olds.ops {D : Disk} (h : Olds D) (cf : SyncConf) (t : Nat) {ops : List Op}
    (hf : ∀ o ∈ ops, o.AtLast D.i.length D.d.length) : Olds (runOps cf t D ops) ∧
      (runOps cf t D ops).i.length = D.i.length ∧ (runOps cf t D ops).d.length = D.d.length := by
  induction ops generalizing D with
  | nil => exact ⟨h, rfl, rfl⟩
  | cons o ops ih =>
    obtain ⟨h1, h2, h3⟩ := h.op cf t (hf o (by simp))
    obtain ⟨j1, j2, j3⟩ := ih h1 (fun p hp => by rw [h2, h3]; exact hf p (List.mem_cons_of_mem _ hp))
    exact ⟨j1, j2.trans h2, j3.trans h3⟩

theorem Olds.check {D : Disk} (h : Olds D) (cf : SyncConf) (t : Nat) (k : Kind) (n : Nat)
    (hn : match k with | .index => n + 1 = D.i.length | .data => n + 1 = D.d.length) :
    Olds (runOps cf t D [.check k n]) ∧ (runOps cf t D [.check k n]).i.length = D.i.length ∧
      (runOps cf t D [.check k n]).d.length = D.d.length := by
  refine h.ops cf t ?_
  intro o ho
  rw [List.mem_singleton] at ho
  subst ho
  cases k <;> exact hn

theorem Olds.jump {D : Disk} (h : Olds D) {cf : SyncConf} (hcf : cf.secure = true) (t : Nat) {s : Store}
    (hi : s.indexid + 1 = D.i.length) (hd : s.dataid + 1 = D.d.length) (hif : s.ifiles.length = D.i.length)
    (hdf : s.dfiles.length = D.d.length) (hsame : D.d.length = D.i.length) (hcap : D.i.length < 2 ^ 32) :
    Olds (runOps cf t D (jumpOps s)) ∧ (runOps cf t D (jumpOps s)).i.length = D.i.length + 1 ∧
      (runOps cf t D (jumpOps s)).d.length = D.d.length + 1 := by
  have hid : (s.indexid + 1) % 2 ^ 32 = D.i.length := by rw [hi, Nat.mod_eq_of_lt hcap]
  unfold jumpOps
  simp only [hid]
  unfold indexCreateOps dataInitializeOps
  simp only [hif, hdf, hsame, Nat.lt_irrefl, if_false]
  generalize encIHeader _ = h1
  generalize encDFHeader _ = h2
  let D1 : Disk := { D with i := D.i.modify s.indexid DFile.sync ++ [{ safe := none, pend := [(0, h1)] }] }
  have e1 : runOps cf t D ([Op.secure .index s.indexid] ++ [.create .index h1, .check .index D.i.length] ++
      [.secure .data s.dataid] ++ [.create .data h2, .check .data D.i.length]) =
      runOps cf t (runOps cf t (runOps cf t D1 [.check .index D.i.length]) [.secure .data s.dataid, .create .data h2])
        [.check .data D.i.length] := by
    rw [← runOps_append, ← runOps_append]
    simp only [runOps, List.cons_append, List.nil_append, List.foldl_cons, Op.run, hcf, if_true, Disk.on, D1]
  rw [e1]
  have o1 : Olds D1 := ⟨h.i.grow hi _, h.d⟩
  have l1 : D1.i.length = D.i.length + 1 := by simp [D1]
  have l1' : D1.d.length = D.d.length := rfl
  obtain ⟨o2, l2, l2'⟩ := o1.check cf t .index D.i.length (by show _ = D1.i.length; omega)
  generalize runOps cf t D1 [.check .index D.i.length] = D2 at o2 l2 l2'
  have e2 : runOps cf t D2 [.secure .data s.dataid, .create .data h2] =
      { D2 with d := D2.d.modify s.dataid DFile.sync ++ [{ safe := none, pend := [(0, h2)] }] } := by
    simp only [runOps, List.foldl_cons, List.foldl_nil, Op.run, hcf, if_true, Disk.on]
  rw [e2]
  have o3 : Olds { D2 with d := D2.d.modify s.dataid DFile.sync ++ [{ safe := none, pend := [(0, h2)] }] } :=
    ⟨o2.i, o2.d.grow (by omega) _⟩
  obtain ⟨o4, l4, l4'⟩ := o3.check cf t .data D.i.length (by simp; omega)
  refine ⟨o4, ?_, ?_⟩
  · rw [l4]; show D2.i.length = _; omega
  · rw [l4']; simp; omega

theorem atLast_dataInsert (s : Store) (io : Io) (id p : Bytes) (fl crc ts : Nat) {li ld : Nat} (hd : s.dataid + 1 = ld) :
    ∀ o ∈ dataInsertOps s io id p fl crc ts, o.AtLast li ld := by
  intro o ho
  unfold dataInsertOps at ho
  dsimp only at ho
  split at ho
  · simp at ho; subst ho; exact hd
  · split at ho
    · simp at ho; rcases ho with rfl | rfl <;> exact hd
    · simp at ho; rcases ho with rfl | rfl | rfl <;> exact hd

theorem atLast_appendEntry (s : Store) (io : Io) (e : Entry) {li ld : Nat} (hi : s.indexid + 1 = li) :
    ∀ o ∈ appendEntryOps s io e, o.AtLast li ld := by
  intro o ho
  unfold appendEntryOps at ho
  dsimp only at ho
  split at ho
  · simp at ho; rcases ho with rfl | rfl <;> exact hi
  · simp at ho; subst ho; exact hi

/-- A command that only adds ids. -/
theorem Olds.command {D : Disk} (h : Olds D) {cf : SyncConf} (hcf : cf.secure = true) (t : Nat) {c : Ctx} {br : Branches}
    {s : Store} {G : Log} (hu : SInv s G) (hi : D.i.length = G.length) (hd : D.d.length = G.length)
    (hcap : G.length < 2 ^ 32) {d : DsCmd} {argv : List Bytes} (hn : OnlyNew (.cmd c d argv)) :
    Olds (runOps cf t D (dsOps c br s d argv)) := by
  have hiid := hu.iid
  have hdid := hu.did
  have hil := hu.irep.length
  have hdl := hu.dlen
  have hj := h.jump hcf t (s := s) (by omega) (by omega) (by omega) (by omega) (by omega) (by omega)
  have body : ∀ (av : List Bytes) (payload : Bytes), Olds (runOps cf t D (cmdSetOps.body c br s av [] payload)) := by
    intro av payload
    unfold cmdSetOps.body
    split
    · exact h
    split
    · exact h
    split
    · exact h
    split
    · exact h
    simp only [List.length_nil, ne_eq, not_true_eq_false, if_false, Option.isSome_none, Bool.false_and,
      Bool.false_eq_true]
    split
    · exact h
    rw [hu.mode]
    dsimp only
    rw [runOps_append]
    have handler : ∀ (D1 : Disk) (s1 : Store), Olds D1 → s1.indexid + 1 = D1.i.length → s1.dataid + 1 = D1.d.length →
        Olds (runOps cf t D1 (setHandlerSeqOps c s1 [] payload (timestampFromSet c.now av 3) none)) := by
      intro D1 s1 h1 a1 a2
      refine (h1.ops cf t ?_).1
      intro o ho
      unfold setHandlerSeqOps at ho
      rw [if_neg (by simp)] at ho
      dsimp only at ho
      split at ho
      · cases ho
      rw [List.mem_append] at ho
      rcases ho with ho | ho
      · exact atLast_dataInsert _ _ _ _ _ _ _ a2 o ho
      · split at ho
        · cases ho
        · exact atLast_appendEntry _ _ _ (by rw [dataInsert_ids]; exact a1) o ho
    unfold jumpIfFullOps jumpIfFull
    split
    · have a0 : (s.indexid + 1) % 2 ^ 32 = G.length := by rw [hiid, Nat.mod_eq_of_lt hcap]
      have a1 : (Zdb.jump s).indexid = (s.indexid + 1) % 2 ^ 32 := rfl
      have a2 : (Zdb.jump s).dataid = (s.indexid + 1) % 2 ^ 32 := rfl
      exact handler _ _ hj.1 (by omega) (by omega)
    · exact handler _ _ h (by show s.indexid + 1 = D.i.length; omega) (by show s.dataid + 1 = D.d.length; omega)
  cases d with
  | set =>
    have hk := hn.2 rfl
    simp only [dsOps, cmdSetOps]
    split
    · have := hk _ rfl
      subst this
      exact body ..
    · have := hk _ rfl
      subst this
      split
      · exact body ..
      · exact h
    · exact h
  | del => exact absurd rfl hn.1
  | nsjump =>
    simp only [dsOps]
    split
    · exact hj.1
    · exact h
  | _ => exact h

/-- Loading. -/
theorem Olds.load {D : Disk} (h : Olds D) (cf : SyncConf) (now : Nat) {mode : Nat} (hmode : mode < 256) {df : Loc → Nat} {s : Store}
    {G : Log} (hc : Core mode df s G) (hv : D.view = s.files) :
    Olds (runOps cf now D (loadOps s.ifiles s.dfiles)) ∧
      (runOps cf now D (loadOps s.ifiles s.dfiles)).view = s.files := by
  unfold loadOps
  rw [runOps_append]
  have hil := hc.irep.length
  have key : ∀ (l : List (Bytes × Nat)) (D : Disk), (∀ x ∈ l, s.ifiles[x.2]? = some x.1) → Olds D → D.view = s.files →
      Olds (runOps cf now D (l.flatMap (fun x =>
        [Op.write .index x.2 0 (encIHeader { decIHeader x.1 with opened := 0 }), Op.check .index x.2]))) ∧
      (runOps cf now D (l.flatMap (fun x =>
        [Op.write .index x.2 0 (encIHeader { decIHeader x.1 with opened := 0 }), Op.check .index x.2]))).view = s.files := by
    intro l
    induction l with
    | nil => intro D _ hD hv; exact ⟨hD, hv⟩
    | cons x l ih =>
      intro D hx hD hv
      rw [List.flatMap_cons, runOps_append]
      have hf := hx x (by simp)
      obtain ⟨tl, htl⟩ : ∃ tl, x.1 = encIHeader { decIHeader x.1 with opened := 0 } ++ tl := by
        have hg := hc.irep.get x.2
        rw [hf] at hg
        cases hgg : G[x.2]? with
        | none => rw [hgg] at hg; cases hg
        | some g =>
          rw [hgg, Option.map_some, Option.some.injEq] at hg
          have hlt := (List.getElem?_eq_some_iff.1 hgg).1
          have hfl := hc.files
          have e := decIHeader_encFile mode x.2 hmode (by omega) g
          rw [← hg] at e
          rw [e, hg]
          exact ⟨_, rfl⟩
      refine ih _ (fun y hy => hx y (by simp [hy])) ?_ ?_
      · have hcur : ∀ y, D.i[x.2]? = some y → y.cur = x.1 := by
          intro y hy
          have e1 : D.i.map DFile.cur = s.ifiles := congrArg Prod.fst hv
          rw [← e1, List.getElem?_map, hy] at hf
          simpa using hf
        have o1 : Olds (runOps cf now D [Op.write .index x.2 0 (encIHeader { decIHeader x.1 with opened := 0 })]) := by
          refine ⟨?_, hD.d⟩
          refine hD.i.any x.2 _ ?_
          intro y hy hk
          refine hk.header (t := tl) ?_
          rw [hcur y hy]; exact htl
        rw [show [Op.write .index x.2 0 (encIHeader { decIHeader x.1 with opened := 0 }), Op.check .index x.2] =
          [Op.write .index x.2 0 (encIHeader { decIHeader x.1 with opened := 0 })] ++ [Op.check .index x.2] from rfl, runOps_append]
        generalize runOps cf now D [Op.write .index x.2 0 (encIHeader { decIHeader x.1 with opened := 0 })] = D1 at o1
        simp only [runOps, List.foldl_cons, List.foldl_nil, Op.run]
        split
        · exact ⟨o1.i.any x.2 _ (fun y _ _ => OnDisk.sync y), o1.d⟩
        · exact o1
      · rw [view_runOps, hv]
        simp only [opsFiles, List.foldl_cons, List.foldl_nil, Op.files, Store.files, Prod.mk.injEq, and_true]
        refine modify_fix hf ?_
        generalize encIHeader _ = hh at htl
        rw [htl]
        exact pwrite_same _ _
  obtain ⟨h1, v1⟩ := key s.ifiles.zipIdx D (by
    intro x hx
    obtain ⟨a, n⟩ := x
    exact List.mk_mem_zipIdx_iff_getElem?.1 hx) h hv
  generalize runOps cf now D _ = D1 at h1 v1
  have hd : D1.d.length = s.dfiles.length := by
    have := congrArg (fun x => x.2.length) v1
    simpa [Disk.view, Store.files] using this
  have hpos : 0 < G.length := List.length_pos_iff.2 hc.ne
  have hdl := hc.dlen
  have hlt : s.ifiles.length - 1 < s.dfiles.length := by omega
  unfold dataInitializeOps
  simp only [if_pos hlt]
  refine ⟨(h1.ops cf now ?_).1, ?_⟩
  · intro o ho
    simp only [List.mem_cons, List.not_mem_nil, or_false] at ho
    rcases ho with rfl | rfl
    · show s.ifiles.length - 1 + 1 = D1.d.length; omega
    · show s.ifiles.length - 1 + 1 = D1.d.length; omega
  rw [view_runOps, v1]
  simp only [opsFiles, List.foldl_cons, List.foldl_nil, Op.files, Store.files, Prod.mk.injEq, true_and]
  obtain ⟨t, ht⟩ := hc.dhead _ _ (List.getElem?_eq_getElem hlt)
  refine modify_fix (List.getElem?_eq_getElem hlt) ?_
  rw [ht]
  exact pwrite_same _ _

/-- The files left are on the disk after an execution. -/
theorem CleanDisk.olds {cf : SyncConf} (hcf : cf.secure = true) {cfg : Option Mode}
    (hcfg : cfg = none ∨ cfg = some .seq) {u : Nat} {br br' : Branches}
    {s s' : Store} {D D' : Disk} {tr : List (NsEvent × Reply)} (hr : CleanDisk cfg cf u br s D tr br' s' D') {G : Log}
    (h : SInv s G) (hev : ∀ x ∈ tr, EvOK x.1 ∧ NoFault x.1 ∧ OnlyNew x.1)
    (hnear : NearRun (absSlots G) (tr.map (·.1)))
    (n : Nat) (hroom : Room s.ifiles.length (totalData s) (tr.length + n)) (hs : Olds D) (hv : D.view = s.files) :
    Olds D' ∧ D'.view = s'.files ∧ Room s'.ifiles.length (totalData s') n ∧
      ∃ G', SInv s' G' ∧ absSlots G' = specSeqRun (absSlots G) (tr.map (·.1)) ∧ SeqAgrees (absSlots G) tr := by
  induction hr generalizing G with
  | nil => exact ⟨hs, hv, hroom.mono (by simp), G, h, rfl, trivial⟩
  | @cmd c d argv br br1 br2 s s1 s2 D D2 r tr hu h1 hcl h2 ih =>
    subst hu
    obtain ⟨⟨hc, ha⟩, hnf, hn⟩ := hev _ (List.mem_cons_self ..)
    obtain ⟨G1, i0, i1, i2, i3⟩ := h.command (br := br) hc d argv ha (hroom.mono (by simp; omega)) hnear.1
      (by rw [h1]; exact hcl)
    have hg := dsCommand_grows c br s d argv (2 ^ 23) ha.size
    have hfiles := dsOps_files c br s d argv
    rw [h1] at i1 i3 hg hfiles
    have hnear2 := hnear.2
    simp only [specSeqEvent] at hnear2
    rw [← i2] at hnear2
    have hil := h.irep.length
    have hdl := h.dlen
    obtain ⟨v1, v2⟩ := view_length D
    rw [hv] at v1 v2
    simp only [Store.files] at v1 v2
    have hcap := hroom.1
    obtain ⟨j1, j2, j3, G', j4, j5, j6⟩ := ih i1 (fun x hx => hev x (List.mem_cons_of_mem _ hx)) hnear2
      (Room.step (n := tr.length + n) (hroom.mono (by simp; omega)) hg (by omega))
      (hs.command hcf _ h (by omega) (by omega) (by omega) hn)
      (by rw [view_runOps, hv]; exact hfiles)
    refine ⟨j1, j2, j3, G', j4, ?_, i3, by rw [i2] at j6; exact j6⟩
    rw [j5, i2]; rfl
  | @foreign br br1 br2 s s2 D D2 tr h1 h2 ih =>
    obtain ⟨j1, j2, j3, G', j4, j5, j6⟩ := ih h (fun x hx => hev x (List.mem_cons_of_mem _ hx)) hnear.2
      (hroom.mono (by simp)) hs hv
    exact ⟨j1, j2, j3, G', j4, j5, fun r' hr => by simp [specSeqEvent] at hr, j6⟩
  | @reload t br br1 br2 s s1 s2 D D2 tr h1 hcl h2 ih =>
    have hlen := h.irep.length
    have hlast : G.length = 1 ∨ 29 < logEnd G := by
      rcases hcl with hcl | hcl
      · left; have := h.iid; omega
      · right; rw [h.fileLen] at hcl; exact hcl
    obtain ⟨t', k1, k2, k3, k4, -⟩ := h.reload br u cfg hcfg (by have := hroom.1; omega) hlast
    rw [h1] at k1
    injection k1 with k1 k1'
    subst k1; subst k1'
    obtain ⟨l1, l2⟩ := Olds.load (D := { D with ilast := 0, dlast := 0 }) ⟨hs.i, hs.d⟩ cf t (by decide) h.toCore hv
    obtain ⟨j1, j2, j3, G', j4, j5, j6⟩ := ih k2 (fun x hx => hev x (List.mem_cons_of_mem _ hx)) hnear.2
      (by rw [k3, totalData, k4]; exact hroom.mono (by simp)) l1 (by rw [l2, Store.files, Store.files, k3, k4])
    exact ⟨j1, j2, j3, G', j4, j5, fun r' hr => by simp [specSeqEvent] at hr, j6⟩

/-- After a stop, a power loss takes nothing. -/
theorem Olds.loss {D : Disk} (h : Olds D) {s : Store} {G : Log} (hu : SInv s G) (hv : D.view = s.files) {fi fd : List Bytes}
    (hp : PowerLoss (D.stopped s) fi fd) : fi = s.ifiles ∧ fd = s.dfiles := by
  have one : ∀ (l : List DFile) (k : Nat) (f : List Bytes), OldKept l → k + 1 = l.length → f.length ≤ l.length →
      (∀ (n : Nat) (x : DFile), (l.modify k DFile.sync)[n]? = some x → Survives x f[n]?) → f = l.map DFile.cur := by
    intro l k f hl hk hlen hs
    apply List.ext_getElem?
    intro n
    rw [List.getElem?_map]
    cases hn : l[n]? with
    | none =>
      have := List.getElem?_eq_none_iff.1 hn
      rw [List.getElem?_eq_none_iff.2 (by omega)]; rfl
    | some x =>
      have hlt := (List.getElem?_eq_some_iff.1 hn).1
      by_cases hkn : k = n
      · subst hkn
        have h1 := hs k x.sync (by rw [List.getElem?_modify, hn]; simp)
        exact h1.synced
      · have h1 := hs n x (by rw [List.getElem?_modify, hn]; simp [hkn])
        exact hl n x hn (by omega) _ h1
  have e1 : D.i.map DFile.cur = s.ifiles := congrArg Prod.fst hv
  have e2 : D.d.map DFile.cur = s.dfiles := congrArg Prod.snd hv
  have hil := hu.irep.length
  have hiid := hu.iid
  have hdid := hu.did
  have hdl := hu.dlen
  have l1 := congrArg List.length e1
  have l2 := congrArg List.length e2
  rw [List.length_map] at l1 l2
  obtain ⟨p1, p2, p3, p4⟩ := hp
  simp only [Disk.stopped, List.length_modify] at p1 p2 p3 p4
  exact ⟨by rw [← e1]; exact one _ s.indexid _ h.i (by omega) p1 p3, by rw [← e2]; exact one _ s.dataid _ h.d (by omega) p2 p4⟩

theorem fresh_olds (cf : SyncConf) (t : Nat) : Olds (Disk.fresh cf t .seq) := by
  have hv := fresh_view cf t .seq
  obtain ⟨v1, v2⟩ := view_length (Disk.fresh cf t .seq)
  rw [hv] at v1 v2
  simp only [Store.files, freshStore, List.length_cons, List.length_nil] at v1 v2
  exact ⟨fun n x _ hn => by omega, fun n x _ hn => by omega⟩

theorem SeqSyncRun.olds {cf : SyncConf} (hcf : cf.secure = true) {u t : Nat} {tr : List (NsEvent × Reply)}
    {br' : Branches} {s' : Store} {D' : Disk} (h : SeqSyncRun cf u t tr br' s' D') {n : Nat}
    (hn : tr.length + n < maxEvents) :
    Olds D' ∧ D'.view = s'.files ∧ Room s'.ifiles.length (totalData s') n ∧
      ∃ G', SInv s' G' ∧ absSlots G' = specSeqRun [] (tr.map (·.1)) ∧ SeqAgrees [] tr := by
  obtain ⟨br0, br, s, h1, h2⟩ := h.run
  rw [freshNs_eq] at h1
  injection h1 with h1 h1'
  subst h1'
  have hf : absSlots [[]] = [] := rfl
  have := h2.olds hcf (Or.inr rfl) freshStore_sinv h.ev (by rw [hf]; exact h.near) n (by
    unfold maxEvents at hn
    constructor
    · simp [freshStore]; omega
    · simp [freshStore, totalData]; omega) (fresh_olds cf t) (fresh_view cf t .seq)
  simpa only [hf] using this

end Zdb
