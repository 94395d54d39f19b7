/-
The disk after a stop, if files are synced when they are left (`--secure`).
-/
import Verif.Model.Stop
import Verif.Lemmas.SyncTime
import Verif.Lemmas.FilesKept
namespace Zdb

/-! ### two disks that differ only in what is pending in the last files -/

/-- The same files, but the last ones may differ in what is on the disk. -/
def NearDisk (a b : List DFile) : Prop := ∃ l x y, a = l ++ [x] ∧ b = l ++ [y] ∧ x.cur = y.cur

theorem modify_at_end {α : Type} (l : List α) (x : α) (f : α → α) : (l ++ [x]).modify l.length f = l ++ [f x] := by
  induction l with
  | nil => rfl
  | cons a l ih => simp [ih]

theorem modify_before {α : Type} (l : List α) (x : α) (f : α → α) {n : Nat} (h : n < l.length) :
    (l ++ [x]).modify n f = l.modify n f ++ [x] := by
  induction l generalizing n with
  | nil => simp at h
  | cons a l ih =>
    cases n with
    | zero => rfl
    | succ n => simp at h; simp [ih h]

theorem modify_beyond {α : Type} (l : List α) (f : α → α) {n : Nat} (h : l.length ≤ n) : l.modify n f = l := by
  induction l generalizing n with
  | nil => cases n <;> rfl
  | cons a l ih =>
    cases n with
    | zero => simp at h
    | succ n => simp at h; simp [ih h]

theorem NearDisk.length {a b : List DFile} (h : NearDisk a b) : a.length = b.length := by
  obtain ⟨l, x, y, rfl, rfl, _⟩ := h; simp

theorem NearDisk.modify {a b : List DFile} (h : NearDisk a b) (n : Nat) {f : DFile → DFile}
    (hf : ∀ x y : DFile, x.cur = y.cur → (f x).cur = (f y).cur) : NearDisk (a.modify n f) (b.modify n f) := by
  obtain ⟨l, x, y, rfl, rfl, hxy⟩ := h
  rcases Nat.lt_trichotomy n l.length with hn | rfl | hn
  · rw [modify_before l x f hn, modify_before l y f hn]; exact ⟨_, x, y, rfl, rfl, hxy⟩
  · rw [modify_at_end, modify_at_end]; exact ⟨l, _, _, rfl, rfl, hf x y hxy⟩
  · rw [modify_beyond _ f (by simp; omega), modify_beyond _ f (by simp; omega)]; exact ⟨l, x, y, rfl, rfl, hxy⟩

/-- At the last file, different syncs keep the disks near. -/
theorem NearDisk.last {a b : List DFile} (h : NearDisk a b) {n : Nat} (hn : n + 1 = a.length) {f g : DFile → DFile}
    (hf : ∀ x y : DFile, x.cur = y.cur → (f x).cur = (g y).cur) : NearDisk (a.modify n f) (b.modify n g) := by
  obtain ⟨l, x, y, rfl, rfl, hxy⟩ := h
  have : n = l.length := by simp at hn; omega
  subst this
  rw [modify_at_end, modify_at_end]; exact ⟨l, _, _, rfl, rfl, hf x y hxy⟩

/-- Once the last file is synced, they are equal. -/
theorem NearDisk.sync {a b : List DFile} (h : NearDisk a b) {n : Nat} (hn : n + 1 = a.length) :
    a.modify n DFile.sync = b.modify n DFile.sync := by
  obtain ⟨l, x, y, rfl, rfl, hxy⟩ := h
  have : n = l.length := by simp at hn; omega
  subst this
  rw [modify_at_end, modify_at_end, DFile.sync, DFile.sync, hxy]

theorem NearDisk.grow {a b : List DFile} (h : a = b) (x : DFile) : NearDisk (a ++ [x]) (b ++ [x]) := by
  subst h; exact ⟨a, x, x, rfl, rfl, rfl⟩

theorem NearDisk.of_sync {a : List DFile} {n : Nat} (hn : n + 1 = a.length) : NearDisk a (a.modify n DFile.sync) := by
  have hne : a ≠ [] := by rintro rfl; simp at hn
  obtain ⟨l, x, rfl⟩ : ∃ l x, a = l ++ [x] := ⟨a.dropLast, a.getLast hne, (List.dropLast_concat_getLast hne).symm⟩
  have : n = l.length := by simp at hn; omega
  subst this
  rw [modify_at_end]
  exact ⟨l, x, x.sync, rfl, rfl, rfl⟩

structure DNear (D E : Disk) : Prop where
  i : NearDisk D.i E.i
  d : NearDisk D.d E.d

/-- Calls that do not create or leave a file: decisions about a sync are about the last files. -/
def Op.Fits (li ld : Nat) : Op → Prop
  | .check .index n => n + 1 = li
  | .check .data n => n + 1 = ld
  | .create _ _ => False
  | .secure _ _ => False
  | _ => True

theorem cur_check (p : Bool) (x : DFile) : (if p then x.sync else x).cur = x.cur := by cases p <;> rfl

theorem DNear.op {D E : Disk} (h : DNear D E) (cf cg : SyncConf) (t t' : Nat) {o : Op} (hf : o.Fits D.i.length D.d.length) :
    DNear (o.run cf t D) (o.run cg t' E) ∧ (o.run cf t D).i.length = D.i.length ∧ (o.run cf t D).d.length = D.d.length := by
  have hput : ∀ (off : Nat) (b : Bytes) (x y : DFile), x.cur = y.cur → (x.put off b).cur = (y.put off b).cur := by
    intro off b x y hxy; rw [DFile.cur_put, DFile.cur_put, hxy]
  have happ : ∀ (b : Bytes) (x y : DFile), x.cur = y.cur → (x.put x.cur.length b).cur = (y.put y.cur.length b).cur := by
    intro b x y hxy; rw [DFile.cur_put, DFile.cur_put, hxy]
  have hsync : ∀ (p q : Bool) {a b : List DFile} {n : Nat}, NearDisk a b → n + 1 = a.length →
      NearDisk (if p then a.modify n DFile.sync else a) (if q then b.modify n DFile.sync else b) := by
    intro p q a b n hab hn
    have h0 := hab.last hn (f := fun x => if p then x.sync else x) (g := fun x => if q then x.sync else x)
      (fun x y hxy => by rw [cur_check, cur_check, hxy])
    have e : ∀ (p : Bool) (l : List DFile), l.modify n (fun x => if p then x.sync else x) =
        if p then l.modify n DFile.sync else l := by
      intro p l
      cases p
      · exact modify_id_of l n
      · rfl
    rw [e, e] at h0
    exact h0
  cases o with
  | create k b => exact hf.elim
  | secure k n => exact hf.elim
  | append k n b =>
    cases k
    · exact ⟨⟨h.i.modify n (happ b), h.d⟩, by simp [Op.run, Disk.on], rfl⟩
    · exact ⟨⟨h.i, h.d.modify n (happ b)⟩, rfl, by simp [Op.run, Disk.on]⟩
  | write k n off b =>
    cases k
    · exact ⟨⟨h.i.modify n (hput off b), h.d⟩, by simp [Op.run, Disk.on], rfl⟩
    · exact ⟨⟨h.i, h.d.modify n (hput off b)⟩, rfl, by simp [Op.run, Disk.on]⟩
  | check k n =>
    cases k
    · have := hsync (cf.due (D.last .index) t) (cg.due (E.last .index) t') h.i hf
      simp only [Op.run]
      cases h1 : cf.due (D.last .index) t <;> cases h2 : cg.due (E.last .index) t' <;>
        rw [h1, h2] at this <;>
        exact ⟨⟨this, h.d⟩, by simp [Disk.fsync], by simp [Disk.fsync]⟩
    · have := hsync (cf.due (D.last .data) t) (cg.due (E.last .data) t') h.d hf
      simp only [Op.run]
      cases h1 : cf.due (D.last .data) t <;> cases h2 : cg.due (E.last .data) t' <;>
        rw [h1, h2] at this <;>
        exact ⟨⟨h.i, this⟩, by simp [Disk.fsync], by simp [Disk.fsync]⟩

theorem DNear.ops {D E : Disk} (h : DNear D E) (cf cg : SyncConf) (t t' : Nat) {ops : List Op}
    (hf : ∀ o ∈ ops, o.Fits D.i.length D.d.length) : DNear (runOps cf t D ops) (runOps cg t' E ops) := by
  induction ops generalizing D E with
  | nil => exact h
  | cons o ops ih =>
    obtain ⟨h1, h2, h3⟩ := h.op cf cg t t' (hf o (by simp))
    exact ih h1 (fun p hp => by rw [h2, h3]; exact hf p (List.mem_cons_of_mem _ hp))

/-- Leaving the files, they are synced; the new ones are near. -/
theorem DNear.jump {D E : Disk} (h : DNear D E) {cf cg : SyncConf} (hcf : cf.secure = true) (hcg : cg.secure = true) (t t' : Nat)
    {s : Store} (hi : s.indexid + 1 = D.i.length) (hd : s.dataid + 1 = D.d.length) (hil : s.ifiles.length = D.i.length)
    (hdl : s.dfiles.length = D.d.length) (hid : (s.indexid + 1) % 2 ^ 32 = D.i.length) (hid' : (s.indexid + 1) % 2 ^ 32 = D.d.length) :
    DNear (runOps cf t D (jumpOps s)) (runOps cg t' E (jumpOps s)) ∧
      (runOps cf t D (jumpOps s)).i.length = D.i.length + 1 ∧ (runOps cf t D (jumpOps s)).d.length = D.d.length + 1 := by
  have e : jumpOps s = [.secure .index s.indexid] ++ [.create .index (encIHeader (freshIHeader D.i.length s.mode.byte))] ++
      [.check .index D.i.length] ++ [.secure .data s.dataid] ++ [.create .data (encDFHeader (freshDFHeader D.d.length))] ++
      [.check .data D.d.length] := by
    unfold jumpOps indexCreateOps dataInitializeOps
    dsimp only
    rw [hil, hdl, if_neg (by omega), if_neg (by omega)]
    rw [hid]
    rw [show D.d.length = D.i.length by omega]
    rfl
  rw [e]
  simp only [runOps_append]
  generalize encIHeader (freshIHeader D.i.length s.mode.byte) = hi1
  generalize encDFHeader (freshDFHeader D.d.length) = hd1
  -- index
  have a1 : ∀ (cf : SyncConf) (t : Nat) (D : Disk), cf.secure = true →
      runOps cf t D [.secure .index s.indexid] = { D with i := D.i.modify s.indexid DFile.sync } := by
    intro cf t D h; simp [runOps, Op.run, h, Disk.on]
  have a2 : ∀ (cf : SyncConf) (t : Nat) (D : Disk), cf.secure = true →
      runOps cf t D [.secure .data s.dataid] = { D with d := D.d.modify s.dataid DFile.sync } := by
    intro cf t D h; simp [runOps, Op.run, h, Disk.on]
  have b1 : ∀ (cf : SyncConf) (t : Nat) (D : Disk) (b : Bytes),
      runOps cf t D [.create .index b] = { D with i := D.i ++ [{ safe := none, pend := [(0, b)] }] } := by
    intro cf t D b; simp [runOps, Op.run, Disk.on]
  have b2 : ∀ (cf : SyncConf) (t : Nat) (D : Disk) (b : Bytes),
      runOps cf t D [.create .data b] = { D with d := D.d ++ [{ safe := none, pend := [(0, b)] }] } := by
    intro cf t D b; simp [runOps, Op.run, Disk.on]
  have c1 : ∀ (cf : SyncConf) (t n : Nat) (D : Disk), (runOps cf t D [.check .index n]).d = D.d ∧
      (runOps cf t D [.check .index n]).i.length = D.i.length := by
    intro cf t n D
    simp only [runOps, List.foldl_cons, List.foldl_nil, Op.run]
    split <;> simp [Disk.fsync]
  have c2 : ∀ (cf : SyncConf) (t n : Nat) (D : Disk), (runOps cf t D [.check .data n]).i = D.i ∧
      (runOps cf t D [.check .data n]).d.length = D.d.length := by
    intro cf t n D
    simp only [runOps, List.foldl_cons, List.foldl_nil, Op.run]
    split <;> simp [Disk.fsync]
  rw [a1 cf t D hcf, a1 cg t' E hcg, b1, b1]
  dsimp only
  have hn : DNear { D with i := D.i.modify s.indexid DFile.sync ++ [{ safe := none, pend := [(0, hi1)] }] }
      { E with i := E.i.modify s.indexid DFile.sync ++ [{ safe := none, pend := [(0, hi1)] }] } :=
    ⟨NearDisk.grow (h.i.sync hi) _, h.d⟩
  have hn1 := hn.ops cf cg t t' (ops := [.check .index D.i.length]) (by
    intro o ho
    rw [List.mem_singleton] at ho
    subst ho
    show D.i.length + 1 = _
    simp)
  have k1 := c1 cf t D.i.length { D with i := D.i.modify s.indexid DFile.sync ++ [{ safe := none, pend := [(0, hi1)] }] }
  generalize runOps cf t _ [.check .index D.i.length] = D1 at hn1 k1
  generalize runOps cg t' _ [.check .index D.i.length] = E1 at hn1
  have k1d : D1.d.length = D.d.length := by rw [k1.1]
  have k1i : D1.i.length = D.i.length + 1 := by rw [k1.2]; simp
  rw [a2 cf t D1 hcf, a2 cg t' E1 hcg, b2, b2]
  dsimp only
  have hm : DNear { D1 with d := D1.d.modify s.dataid DFile.sync ++ [{ safe := none, pend := [(0, hd1)] }] }
      { E1 with d := E1.d.modify s.dataid DFile.sync ++ [{ safe := none, pend := [(0, hd1)] }] } :=
    ⟨hn1.i, NearDisk.grow (hn1.d.sync (by omega)) _⟩
  have hm1 := hm.ops cf cg t t' (ops := [.check .data D.d.length]) (by
    intro o ho
    rw [List.mem_singleton] at ho
    subst ho
    show D.d.length + 1 = _
    simp [k1d])
  have k2 := c2 cf t D.d.length { D1 with d := D1.d.modify s.dataid DFile.sync ++ [{ safe := none, pend := [(0, hd1)] }] }
  refine ⟨hm1, ?_, ?_⟩
  · rw [k2.1]; exact k1i
  · rw [k2.2]; simp [k1d]

/-! ### the calls of the commands -/

theorem fits_dataInsert (s : Store) (io : Io) (id p : Bytes) (fl crc ts : Nat) {li ld : Nat} (hd : s.dataid + 1 = ld) :
    ∀ o ∈ dataInsertOps s io id p fl crc ts, o.Fits li ld := by
  intro o ho
  unfold dataInsertOps at ho
  dsimp only at ho
  split at ho
  · simp at ho; subst ho; trivial
  · split at ho
    · simp at ho; rcases ho with rfl | rfl <;> trivial
    · simp at ho; rcases ho with rfl | rfl | rfl <;> first | trivial | exact hd

theorem fits_appendEntry (s : Store) (io : Io) (e : Entry) {li ld : Nat} (hi : s.indexid + 1 = li) :
    ∀ o ∈ appendEntryOps s io e, o.Fits li ld := by
  intro o ho
  unfold appendEntryOps at ho
  dsimp only at ho
  split at ho
  · simp at ho; rcases ho with rfl | rfl <;> first | trivial | exact hi
  · simp at ho; subst ho; trivial

theorem fits_deleteDisk (s : Store) (io : Io) (e : Entry) (li ld : Nat) : ∀ o ∈ deleteDiskOps s io e, o.Fits li ld := by
  intro o ho
  unfold deleteDiskOps at ho
  dsimp only at ho
  split at ho
  · cases ho
  · split at ho
    · cases ho
    · simp at ho; subst ho; trivial

theorem dataInsert_ids (s : Store) (io : Io) (id p : Bytes) (fl crc ts : Nat) :
    (dataInsert s io id p fl crc ts).1.indexid = s.indexid := by
  unfold dataInsert
  dsimp only
  split
  · rfl
  · split <;> rfl

theorem fits_setHandlerUser (c : Ctx) (s : Store) (id p : Bytes) (ts : Nat) (ex : Option Entry) {li ld : Nat}
    (hi : s.indexid + 1 = li) (hd : s.dataid + 1 = ld) : ∀ o ∈ setHandlerUserOps c s id p ts ex, o.Fits li ld := by
  intro o ho
  unfold setHandlerUserOps at ho
  split at ho
  · cases ho
  split at ho
  · cases ho
  dsimp only at ho
  rw [List.mem_append] at ho
  rcases ho with ho | ho
  · exact fits_dataInsert s c.io id p 0 _ ts hd o ho
  · split at ho
    · cases ho
    · cases ex with
      | none => exact fits_appendEntry _ c.io _ (by rw [dataInsert_ids]; exact hi) o ho
      | some e =>
        dsimp only at ho
        unfold updateUserOps at ho
        dsimp only at ho
        rw [List.mem_append] at ho
        rcases ho with ho | ho
        · exact fits_deleteDisk _ _ _ _ _ o ho
        · refine fits_appendEntry _ c.io _ ?_ o ho
          show (deleteDisk _ c.io e).1.indexid + 1 = li
          rw [deleteDisk_indexid, dataInsert_ids]; exact hi

theorem DNear.setBody {D E : Disk} (h : DNear D E) {cf cg : SyncConf} (hcf : cf.secure = true) (hcg : cg.secure = true) (t t' : Nat)
    {c : Ctx} {br : Branches} {s : Store} {G : Log} (hu : UInv br c.u s G) (hi : D.i.length = G.length) (hd : D.d.length = G.length)
    (hcap : G.length < 2 ^ 32) (argv : List Bytes) (k p : Bytes) :
    DNear (runOps cf t D (cmdSetOps.body c br s argv k p)) (runOps cg t' E (cmdSetOps.body c br s argv k p)) := by
  have hiid := hu.iid
  have hdid := hu.did
  have hil := hu.irep.length
  have hdl := hu.dlen
  unfold cmdSetOps.body
  split
  · exact h
  split
  · exact h
  split
  · exact h
  split
  · exact h
  dsimp only
  generalize (if k.length ≠ 0 then indexGet br s c.u k else none) = ex
  split
  · exact h
  split
  · exact h
  rw [runOps_append, runOps_append]
  simp only [hu.mode]
  unfold jumpIfFullOps jumpIfFull
  split
  · have hid : (s.indexid + 1) % 2 ^ 32 = G.length := by rw [hiid, Nat.mod_eq_of_lt hcap]
    obtain ⟨h1, h2, h3⟩ := h.jump hcf hcg t t' (s := s) (by omega) (by omega) (by omega) (by omega) (by omega) (by omega)
    have hu1 := hu.jump hcap
    have a1 := hu1.iid
    have a2 := hu1.did
    rw [show (logJump G).length = G.length + 1 by simp [logJump]] at a1
    exact h1.ops cf cg t t' (fits_setHandlerUser c _ k p _ _ (by omega) (by omega))
  · exact h.ops cf cg t t' (fits_setHandlerUser c _ k p _ _ (by omega) (by omega))

theorem DNear.delBody {D E : Disk} (h : DNear D E) (cf cg : SyncConf) (t t' : Nat)
    (c : Ctx) (br : Branches) {s : Store} (hd : s.dataid + 1 = D.d.length) (argv : List Bytes) (k : Bytes) :
    DNear (runOps cf t D (cmdDelOps.body c br s argv k)) (runOps cg t' E (cmdDelOps.body c br s argv k)) := by
  refine h.ops cf cg t t' ?_
  intro o ho
  unfold cmdDelOps.body at ho
  split at ho
  · cases ho
  split at ho
  · cases ho
  split at ho
  · cases ho
  split at ho
  · cases ho
  split at ho
  · cases ho
  split at ho
  · cases ho
  dsimp only at ho
  rw [List.mem_append] at ho
  rcases ho with ho | ho
  · exact fits_dataInsert s c.io _ _ _ _ _ hd o ho
  · split at ho
    · cases ho
    · exact fits_deleteDisk _ _ _ _ _ o ho

theorem DNear.command {D E : Disk} (h : DNear D E) {cf cg : SyncConf} (hcf : cf.secure = true) (hcg : cg.secure = true) (t t' : Nat)
    {c : Ctx} {br : Branches} {s : Store} {G : Log} (hu : UInv br c.u s G) (hi : D.i.length = G.length) (hd : D.d.length = G.length)
    (hcap : G.length < 2 ^ 32) (d : DsCmd) (argv : List Bytes) :
    DNear (runOps cf t D (dsOps c br s d argv)) (runOps cg t' E (dsOps c br s d argv)) := by
  have hiid := hu.iid
  have hdid := hu.did
  have hil := hu.irep.length
  have hdl := hu.dlen
  cases d with
  | set =>
    simp only [dsOps]
    unfold cmdSetOps
    match argv with
    | [] => exact h
    | [_] => exact h
    | [_, _] => exact h
    | [_, _, _] => exact h.setBody hcf hcg t t' hu hi hd hcap ..
    | [_, _, _, _] =>
      simp only
      split
      · exact h.setBody hcf hcg t t' hu hi hd hcap ..
      · exact h
    | _ :: _ :: _ :: _ :: _ :: _ => exact h
  | del =>
    simp only [dsOps]
    unfold cmdDelOps
    match argv with
    | [] => exact h
    | [_] => exact h
    | [a, k] =>
      simp only
      cases argsValidate [a, k] 2 with
      | none => exact h.delBody cf cg t t' c br (by omega) ..
      | some _ => exact h
    | [_, _, _] =>
      simp only
      split
      · exact h.delBody cf cg t t' c br (by omega) ..
      · exact h
    | a :: b :: x :: y :: l =>
      simp only
      cases argsValidate (a :: b :: x :: y :: l) 2 <;> exact h
  | nsjump =>
    simp only [dsOps]
    split
    · have hid : (s.indexid + 1) % 2 ^ 32 = G.length := by rw [hiid, Nat.mod_eq_of_lt hcap]
      exact (h.jump hcf hcg t t' (s := s) (by omega) (by omega) (by omega) (by omega) (by omega) (by omega)).1
    · exact h
  | _ => exact h

/-! ### stops -/

theorem DNear.stopped {D E : Disk} (h : DNear D E) {s : Store} (hi : s.indexid + 1 = D.i.length) (hd : s.dataid + 1 = D.d.length) :
    (D.stopped s).i = (E.stopped s).i ∧ (D.stopped s).d = (E.stopped s).d :=
  ⟨h.i.sync hi, h.d.sync hd⟩

theorem DNear.of_stop {D : Disk} {s : Store} (hi : s.indexid + 1 = D.i.length) (hd : s.dataid + 1 = D.d.length) :
    DNear D (D.stopped s) :=
  ⟨NearDisk.of_sync hi, NearDisk.of_sync hd⟩

theorem DInv.relast {D E : Disk} {s : Store} {G : Log} (h : DInv D s G) (hi : E.i = D.i) (hd : E.d = D.d) : DInv E s G :=
  ⟨hd ▸ h.d, hi ▸ h.ilen, hi ▸ h.idx⟩

theorem sync_solid (f : Bytes) : (DFile.solid f).sync = DFile.solid f := rfl

theorem modify_sync_solid (l : List Bytes) (n : Nat) : (l.map DFile.solid).modify n DFile.sync = l.map DFile.solid := by
  induction l generalizing n with
  | nil => cases n <;> rfl
  | cons f l ih =>
    cases n with
    | zero => rfl
    | succ n => simp [ih n]

theorem DInv.syncIndex {D : Disk} {s : Store} {G : Log} (h : DInv D s G) (n : Nat) (il dl : Nat) :
    DInv { D with i := D.i.modify n DFile.sync, ilast := il, dlast := dl } s G := by
  have := h.modify n DFile.sync (fun f => f) il dl (fun x f _ _ hi => IOk.sync hi.cur)
  exact this.congr (by simp [Store.files, modify_id_of])

theorem DInv.stop {D : Disk} {s : Store} {G : Log} (h : DInv D s G) : DInv (D.stopped s) s G := by
  have := h.syncIndex s.indexid D.ilast D.dlast
  refine this.relast rfl ?_
  show D.d.modify s.dataid DFile.sync = D.d
  rw [h.d, modify_sync_solid]

/-- A command, then a stop. -/
theorem DInv.command_stop {D : Disk} {c : Ctx} {br br1 : Branches} {s : Store} {G G1 : Log} (h : DInv (D.stopped s) s G)
    (hu : UInv br c.u s G) {cf : SyncConf} (hcf : cf.secure = true) (t : Nat) (hio : GoodIo c)
    (hcap : s.ifiles.length < 2 ^ 32) (d : DsCmd) (argv : List Bytes)
    (hu1 : UInv br1 c.u (dsCommand c br s d argv).2.1 G1) :
    DInv ((runOps cf t D (dsOps c br s d argv)).stopped (dsCommand c br s d argv).2.1) (dsCommand c br s d argv).2.1 G := by
  have hil := hu.irep.length
  have hDi : D.i.length = G.length := by have := h.ilen; simp [Disk.stopped] at this; omega
  have hDd : D.d.length = G.length := by
    have := congrArg List.length h.d
    simp only [Disk.stopped, List.length_modify, List.length_map] at this
    rw [this, hu.dlen]
  have hiid := hu.iid
  have hdid := hu.did
  have h0 := DNear.of_stop (D := D) (s := s) (by omega) (by omega)
  have h1 := h0.command (cf := cf) (cg := { sync := true, synctime := 0, secure := true }) hcf rfl t t hu hDi hDd (by omega) d argv
  have h2 := h.command hu (cf := { sync := true, synctime := 0, secure := true }) rfl t hio hcap d argv
  generalize runOps cf t D _ = D1 at h1 ⊢
  generalize runOps _ t (D.stopped s) _ = E1 at h1 h2
  have k1 := h1.i.length
  have k2 := h1.d.length
  have k3 := h2.ilen
  have k4 := congrArg List.length h2.d
  rw [List.length_map] at k4
  have m1 := hu1.irep.length
  have m2 := hu1.dlen
  have m3 := hu1.iid
  have m4 := hu1.did
  obtain ⟨e1, e2⟩ := h1.stopped (s := (dsCommand c br s d argv).2.1) (by omega) (by omega)
  exact h2.stop.relast e1 e2

/-! ### loading -/

theorem IOk.same {G : Log} {n : Nat} {x : DFile} {f b : Bytes} (h : IOk G n x f) (hb : pwrite f 0 b = f) (hlen : b.length ≤ f.length)
    (hpre : ∀ y ∈ byteWrites (0, b), f[y.1]? = some y.2) : IOk G n (x.put 0 b) f := by
  obtain ⟨h1, f0, h2, h3, h4⟩ := h
  refine ⟨by rw [DFile.cur_put, h1, hb], f0, h2, h3, ?_⟩
  intro w hw
  simp only [DFile.put, List.mem_append, List.mem_singleton] at hw
  rcases hw with hw | rfl
  · exact h4 w hw
  · exact ⟨by simpa using hlen, fun y hy => Or.inr (hpre y hy)⟩

theorem byteWrites_prefix (b t : Bytes) : ∀ y ∈ byteWrites (0, b), (b ++ t)[y.1]? = some y.2 := by
  intro y hy
  simp only [byteWrites, List.mem_map] at hy
  obtain ⟨⟨v, n⟩, hx, rfl⟩ := hy
  have := List.mk_mem_zipIdx_iff_getElem?.1 hx
  dsimp only
  rw [List.getElem?_append_left (List.getElem?_eq_some_iff.1 this).1]
  exact this

/-- Loading after a stop keeps what is on the disk, however it is synced. -/
theorem DInv.load_stop {D : Disk} {br : Branches} {u : Nat} {s : Store} {G : Log} (h : DInv D s G)
    (hu : UInv br u s G) (cf : SyncConf) (now : Nat) :
    DInv ((runOps cf now D (loadOps s.ifiles s.dfiles)).stopped s) s G := by
  unfold loadOps
  rw [runOps_append]
  have hil := hu.irep.length
  have key : ∀ (l : List (Bytes × Nat)) (D : Disk), (∀ x ∈ l, s.ifiles[x.2]? = some x.1) → DInv D s G →
      DInv (runOps cf now D (l.flatMap (fun x =>
        [Op.write .index x.2 0 (encIHeader { decIHeader x.1 with opened := 0 }), Op.check .index x.2]))) s G := by
    intro l
    induction l with
    | nil => intro D _ hD; exact hD
    | cons x l ih =>
      intro D hx hD
      rw [List.flatMap_cons, runOps_append]
      refine ih _ (fun y hy => hx y (by simp [hy])) ?_
      have hf := hx x (by simp)
      obtain ⟨t, ht⟩ : ∃ t, x.1 = encIHeader { decIHeader x.1 with opened := 0 } ++ t := by
        have hg := hu.irep.get x.2
        rw [hf] at hg
        cases hgg : G[x.2]? with
        | none => rw [hgg] at hg; cases hg
        | some g =>
          rw [hgg, Option.map_some, Option.some.injEq] at hg
          have hlt := (List.getElem?_eq_some_iff.1 hgg).1
          have hfl := hu.files
          rw [hg, decIHeader_encFile 0 x.2 (by decide) (by omega) g]
          exact ⟨_, rfl⟩
      generalize encIHeader { decIHeader x.1 with opened := 0 } = hdr at ht
      have h1 : DInv (Op.run cf now D (.write .index x.2 0 hdr)) s G := by
        have := hD.modify x.2 (fun f => f.put 0 hdr) (fun f => f) D.ilast D.dlast (by
          intro y f _ hf' hi
          rw [hf] at hf'
          cases hf'
          refine hi.same ?_ ?_ ?_
          · rw [ht]; exact pwrite_same _ _
          · rw [ht]; simp
          · intro y hy; rw [ht]; exact byteWrites_prefix _ _ y hy)
        exact this.congr (by simp [Store.files, modify_id_of])
      simp only [runOps, List.foldl_cons, List.foldl_nil]
      generalize Op.run cf now D (.write .index x.2 0 hdr) = D1 at h1
      simp only [Op.run]
      split
      · exact h1.syncIndex x.2 now D1.dlast
      · exact h1
  have h1 := key s.ifiles.zipIdx D (by
    intro x hx
    obtain ⟨a, n⟩ := x
    have := List.mk_mem_zipIdx_iff_getElem?.1 hx
    exact this) h
  generalize runOps cf now D _ = D1 at h1
  unfold dataInitializeOps
  have hiid := hu.iid
  have hdid := hu.did
  have hlt : s.ifiles.length - 1 < s.dfiles.length := by rw [hil, hu.dlen]; omega
  simp only [if_pos hlt]
  have hn : s.ifiles.length - 1 = s.dataid := by omega
  rw [hn] at hlt ⊢
  obtain ⟨t, ht⟩ := hu.dhead _ _ (List.getElem?_eq_getElem hlt)
  generalize encDFHeader _ = hdr at ht ⊢
  have hgen : ∀ (l : List Bytes) (n : Nat), (∀ f, l[n]? = some f → pwrite f 0 hdr = f) →
      ((l.map DFile.solid).modify n (fun f => f.put 0 hdr)).modify n DFile.sync = l.map DFile.solid := by
    intro l
    induction l with
    | nil => intro n _; simp
    | cons f l ih =>
      intro n hn
      cases n with
      | zero =>
        have := hn f rfl
        simp [DFile.solid, DFile.sync, DFile.put, DFile.cur, this]
      | succ n => simp [ih n (fun g hg => hn g (by simpa using hg))]
  have hd : (D1.d.modify s.dataid (fun f => f.put 0 hdr)).modify s.dataid DFile.sync = s.dfiles.map DFile.solid := by
    rw [h1.d]
    refine hgen _ _ (fun f hf => ?_)
    rw [List.getElem?_eq_getElem hlt, Option.some.injEq] at hf
    rw [← hf, ht]; exact pwrite_same _ _
  simp only [runOps, List.foldl_cons, List.foldl_nil, Op.run, Disk.on]
  have hi := h1.syncIndex s.indexid D1.ilast D1.dlast
  split
  · refine ⟨?_, hi.ilen, hi.idx⟩
    show ((D1.d.modify s.dataid _).modify s.dataid DFile.sync).modify s.dataid DFile.sync = _
    rw [hd, modify_sync_solid]
  · exact ⟨hd, hi.ilen, hi.idx⟩

/-- Loading does the same to disks that differ only in the last files. -/
theorem DNear.any {D E : Disk} (h : DNear D E) (cf : SyncConf) (t : Nat) (hl : D.ilast = E.ilast) (hl' : D.dlast = E.dlast) {ops : List Op}
    (hf : ∀ o ∈ ops, ∃ k n, (∃ off b, o = .write k n off b) ∨ o = .check k n) : DNear (runOps cf t D ops) (runOps cf t E ops) := by
  induction ops generalizing D E with
  | nil => exact h
  | cons o ops ih =>
    have hput : ∀ (off : Nat) (b : Bytes) (x y : DFile), x.cur = y.cur → (x.put off b).cur = (y.put off b).cur := by
      intro off b x y hxy; rw [DFile.cur_put, DFile.cur_put, hxy]
    have hsync : ∀ x y : DFile, x.cur = y.cur → x.sync.cur = y.sync.cur := fun x y hxy => by simpa [DFile.sync, DFile.cur] using hxy
    have hrest := fun o ho => hf o (List.mem_cons_of_mem _ ho)
    obtain ⟨k, n, ⟨off, b, rfl⟩ | rfl⟩ := hf o (by simp)
    · cases k
      · exact ih (D := Op.run cf t D _) (E := Op.run cf t E _) ⟨h.i.modify n (hput off b), h.d⟩ hl hl' hrest
      · exact ih (D := Op.run cf t D _) (E := Op.run cf t E _) ⟨h.i, h.d.modify n (hput off b)⟩ hl hl' hrest
    · have hlast : D.last k = E.last k := by cases k <;> assumption
      cases hc : cf.due (E.last k) t with
      | false =>
        have e1 : Op.run cf t D (.check k n) = D := by simp [Op.run, hlast, hc]
        have e2 : Op.run cf t E (.check k n) = E := by simp [Op.run, hc]
        simp only [runOps, List.foldl_cons, e1, e2]
        exact ih h hl hl' hrest
      | true =>
        have e1 : Op.run cf t D (.check k n) = D.fsync k n t := by simp [Op.run, hlast, hc]
        have e2 : Op.run cf t E (.check k n) = E.fsync k n t := by simp [Op.run, hc]
        simp only [runOps, List.foldl_cons, e1, e2]
        cases k
        · exact ih (D := D.fsync .index n t) (E := E.fsync .index n t) ⟨h.i.modify n hsync, h.d⟩ rfl hl' hrest
        · exact ih (D := D.fsync .data n t) (E := E.fsync .data n t) ⟨h.i, h.d.modify n hsync⟩ hl rfl hrest

/-- Loading, then a stop. -/
theorem DInv.reload_stop {D : Disk} {br : Branches} {u : Nat} {s s' : Store} {G : Log} (h : DInv (D.stopped s) s G)
    (hu : UInv br u s G) (cf : SyncConf) (now : Nat) (he : s'.files = s.files) (hi : s'.indexid = s.indexid)
    (hd : s'.dataid = s.dataid) :
    DInv ((runOps cf now { D with ilast := 0, dlast := 0 } (loadOps s.ifiles s.dfiles)).stopped s') s' G := by
  have hil := hu.irep.length
  have hDi : D.i.length = G.length := by have := h.ilen; simp [Disk.stopped] at this; omega
  have hDd : D.d.length = G.length := by
    have := congrArg List.length h.d
    simp only [Disk.stopped, List.length_modify, List.length_map] at this
    rw [this, hu.dlen]
  have hiid := hu.iid
  have hdid := hu.did
  have h0 := DNear.of_stop (D := { D with ilast := 0, dlast := 0 }) (s := s) (by simp; omega) (by simp; omega)
  have hlt : s.ifiles.length - 1 < s.dfiles.length := by rw [hil, hu.dlen]; omega
  have h1 := h0.any cf now rfl rfl (ops := loadOps s.ifiles s.dfiles) (by
    intro o ho
    unfold loadOps dataInitializeOps at ho
    simp only [if_pos hlt, List.mem_append, List.mem_flatMap, List.mem_cons, List.not_mem_nil, or_false] at ho
    rcases ho with ⟨x, -, rfl | rfl⟩ | rfl | rfl
    · exact ⟨_, _, Or.inl ⟨_, _, rfl⟩⟩
    · exact ⟨_, _, Or.inr rfl⟩
    · exact ⟨_, _, Or.inl ⟨_, _, rfl⟩⟩
    · exact ⟨_, _, Or.inr rfl⟩)
  have h2 : DInv (({ D with ilast := 0, dlast := 0 } : Disk).stopped s) s G := h.relast rfl rfl
  have h3 := h2.load_stop hu cf now
  generalize runOps cf now { D with ilast := 0, dlast := 0 } _ = D1 at h1 ⊢
  generalize runOps cf now _ _ = E1 at h1 h3
  have k1 := h1.i.length
  have k2 := h1.d.length
  have k3 := h3.ilen
  have k4 := congrArg List.length h3.d
  simp only [Disk.stopped, List.length_modify, List.length_map] at k3 k4
  have hdl := hu.dlen
  obtain ⟨e1, e2⟩ := h1.stopped (s := s) (by omega) (by omega)
  refine (h3.relast (E := D1.stopped s') ?_ ?_).congr he
  · rw [← e1]; simp only [Disk.stopped, hi]
  · rw [← e2]; simp only [Disk.stopped, hd]

/-! ### executions -/

theorem DInv.fresh_stop (cf : SyncConf) (t : Nat) (m : Mode) (G : Log) : DInv ((Disk.fresh cf t m).stopped (freshStore m)) (freshStore m) G := by
  have e : ((Disk.fresh cf t m).stopped (freshStore m)).i = (freshStore m).ifiles.map DFile.solid ∧
      ((Disk.fresh cf t m).stopped (freshStore m)).d = (freshStore m).dfiles.map DFile.solid := by
    simp only [Disk.fresh, createOps, dataInitializeOps, List.length_nil, Nat.lt_irrefl, if_false, runOps,
      List.foldl_append, List.foldl_cons, List.foldl_nil, Op.run, Disk.on]
    constructor <;> (repeat' split) <;> cases m <;> rfl
  refine ⟨e.2, by rw [e.1]; simp, ?_⟩
  intro n x f h1 h2
  rw [e.1] at h1
  simp only [List.getElem?_map, h2, Option.map_some, Option.some.injEq] at h1
  rw [← h1]; exact IOk.synced G n f

/-- Everything known at the end of an execution under `--secure`, after a stop. -/
theorem DInv.run_stop {cfg : Option Mode} (hcfg : cfg = none ∨ cfg = some .user) {cf : SyncConf} (hcf : cf.secure = true)
    {u : Nat} {br br' : Branches} {s s' : Store} {D D' : Disk} {tr : List (NsEvent × Reply)}
    (hr : DiskRun cfg cf u br s D tr br' s' D') {G : Log} (hu : UInv br u s G) (hd : DInv (D.stopped s) s G)
    (hev : ∀ x ∈ tr, EvOK x.1 ∧ NoFault x.1) (hroom : Room s.ifiles.length (totalData s) tr.length) :
    ∃ G', UInv br' u s' G' ∧ DInv (D'.stopped s') s' G' ∧ s'.ifiles.length ≤ s.ifiles.length + tr.length ∧
      ∀ k, (liveGet G' k).map (fun l => l.r.payload) =
          tr.foldl (fun a x => (writeOf k x).getD a) ((liveGet G k).map (fun l => l.r.payload)) ∧
        (lastOf (locs G') k).map (fun l => l.r.payload) =
          tr.foldl (setStep k) ((lastOf (locs G) k).map (fun l => l.r.payload)) := by
  induction hr generalizing G with
  | nil br s D => exact ⟨G, hu, hd, by simp, fun k => ⟨rfl, rfl⟩⟩
  | @cmd c d argv br br1 br2 s s1 s2 D D2 r tr hcu h1 h2 ih =>
    subst hcu
    obtain ⟨⟨hc, ha⟩, hio⟩ := hev _ (List.mem_cons_self ..)
    obtain ⟨G1, i1, i2, i3, i4⟩ := hu.command hc d argv ha (hroom.mono (by simp))
    have hg := dsCommand_grows c br s d argv (2 ^ 23) ha.size
    have hcap : s.ifiles.length < 2 ^ 32 := by have := hroom.1; omega
    have hd1 := (hd.command_stop hu hcf c.now ⟨hio.1, hio.2.1, hio.2.2.1, hio.2.2.2.1⟩ hcap d argv i1).mono
      (fun n p hp => i4.flagAt hp)
    rw [h1] at i1 i3 i4 hg hd1
    have hlive : ∀ k, (liveGet G1 k).map (fun l => l.r.payload) =
        (writeOf k (.cmd c d argv, r)).getD ((liveGet G k).map (fun l => l.r.payload)) := by
      intro k
      have := agrees_get (absKV G) [(.cmd c d argv, r)] ⟨i3, trivial⟩ k
      simp only [List.map_cons, List.map_nil, specRun, specEvent, List.foldl_cons, List.foldl_nil, ← i2, absKV_get,
        Option.map_map] at this
      exact this
    obtain ⟨G', j1, j2, j3, j4⟩ := ih i1 hd1 (fun x hx => hev x (List.mem_cons_of_mem _ hx))
      (hroom.step hg (by omega))
    refine ⟨G', j1, j2, ?_, fun k => ⟨?_, ?_⟩⟩
    · have := hg.2
      simp only [List.length_cons] at *
      omega
    · rw [(j4 k).1, hlive k]; rfl
    · rw [(j4 k).2, i4.lastOf (br := br) (s := s) i1 k (hlive k)]; rfl
  | @foreign br br1 br2 s s2 D D2 tr h1 h2 ih =>
    obtain ⟨G', j1, j2, j3, j4⟩ := ih (hu.foreign h1) hd (fun x hx => hev x (List.mem_cons_of_mem _ hx))
      (hroom.mono (by simp))
    exact ⟨G', j1, j2, by simp only [List.length_cons]; omega, j4⟩
  | @reload t br br1 br2 s s1 s2 D D2 tr h1 h2 ih =>
    have hlen := hu.irep.length
    obtain ⟨b, s3, k1, k2, k3, k4, -⟩ := hu.reload cfg hcfg (by have := hroom.1; omega)
    rw [h1] at k1
    injection k1 with k1 k1'
    subst k1; subst k1'
    have hlen1 := k2.irep.length
    rw [k3] at hlen1
    have e1 := hu.iid
    have e2 := k2.iid
    have e3 := hu.did
    have e4 := k2.did
    have hd1 := hd.reload_stop (s' := s1) hu cf t (by simp only [Store.files, k3, k4]) (by omega) (by omega)
    obtain ⟨G', j1, j2, j3, j4⟩ := ih k2 hd1 (fun x hx => hev x (List.mem_cons_of_mem _ hx))
      (by rw [k3, totalData, k4]; exact hroom.mono (by simp))
    exact ⟨G', j1, j2, by rw [k3] at j3; simp only [List.length_cons]; omega, j4⟩

/-! ### a single pair of files -/

/-- Without a restart, the disk as it is read is the store. -/
theorem DiskRun.view {cfg : Option Mode} {cf : SyncConf} {u : Nat} {br br' : Branches} {s s' : Store} {D D' : Disk}
    {tr : List (NsEvent × Reply)} (h : DiskRun cfg cf u br s D tr br' s' D') (hs : InStep s) (hv : D.view = s.files)
    (hev : ∀ x ∈ tr, x.1 ≠ .reload) (hcap : s.indexid + tr.length < 2 ^ 32 - 1) : D'.view = s'.files ∧ InStep s' := by
  induction h with
  | nil => exact ⟨hv, hs⟩
  | @cmd c d argv br br1 br2 s s1 s2 D D2 r tr hu h1 h2 ih =>
    simp only [List.length_cons] at hcap
    have he := dsCommand_ext c br hs (by omega) d argv
    have hn := he.next
    have hview : (runOps cf c.now D (dsOps c br s d argv)).view = (dsCommand c br s d argv).2.1.files := by
      rw [view_runOps, hv, dsOps_files]
    have hst := he.step
    rw [h1] at hst hview hn
    exact ih hst hview (fun x hx => hev x (List.mem_cons_of_mem _ hx)) (by dsimp only at hn; omega)
  | foreign h1 h2 ih =>
    exact ih hs hv (fun x hx => hev x (List.mem_cons_of_mem _ hx)) (by simp only [List.length_cons] at hcap; omega)
  | reload t h1 h2 ih => exact absurd rfl (hev _ (List.mem_cons_self ..))

theorem fresh_view (cf : SyncConf) (t : Nat) (m : Mode) : (Disk.fresh cf t m).view = (freshStore m).files := by
  simp only [Disk.fresh, createOps, dataInitializeOps, List.length_nil, Nat.lt_irrefl, if_false, runOps,
    List.foldl_append, List.foldl_cons, List.foldl_nil, Op.run, Disk.on]
  (repeat' split) <;> cases m <;> rfl

theorem Survives.synced {x : DFile} {o : Option Bytes} (h : Survives x.sync o) : o = some x.cur := by
  cases h with
  | kept h => cases h; rfl
  | gone h => cases h

/-- After a stop, a single pair of files is on the disk. -/
theorem PowerLoss.one {D : Disk} {s : Store} (hs : InStep s) (hv : D.view = s.files) (h1 : s.ifiles.length = 1) {fi fd : List Bytes}
    (hp : PowerLoss (D.stopped s) fi fd) : fi = s.ifiles ∧ fd = s.dfiles := by
  have e1 : D.i.map DFile.cur = s.ifiles := congrArg Prod.fst hv
  have e2 : D.d.map DFile.cur = s.dfiles := congrArg Prod.snd hv
  have a1 := hs.i
  have a2 := hs.d
  have a3 := hs.same
  have hi0 : s.indexid = 0 := by omega
  have hd0 : s.dataid = 0 := by omega
  obtain ⟨x, hx⟩ : ∃ x, D.i = [x] := List.length_eq_one_iff.1 (by rw [← e1, List.length_map] at h1; exact h1)
  obtain ⟨y, hy⟩ : ∃ y, D.d = [y] := List.length_eq_one_iff.1 (by rw [← e2, List.length_map] at a2; omega)
  rw [hx] at e1
  rw [hy] at e2
  obtain ⟨p1, p2, p3, p4⟩ := hp
  simp only [Disk.stopped, hx, hy, hi0, hd0] at p1 p2 p3 p4
  have q1 := (p3 0 x.sync rfl).synced
  have q2 := (p4 0 y.sync rfl).synced
  have r : ∀ (l : List Bytes) (f : Bytes), l.length ≤ 1 → l[0]? = some f → l = [f] := by
    intro l f hl hf
    match l, hl, hf with
    | [a], _, hf => simpa using hf
  exact ⟨by rw [← e1]; exact r _ _ (by simpa using p1) q1, by rw [← e2]; exact r _ _ (by simpa using p2) q2⟩

end Zdb
