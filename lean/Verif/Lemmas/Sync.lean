/-
The system calls of the commands and the files of the model.
-/
import Verif.Lemmas.Bytes
import Verif.Model.Sync
namespace Zdb

/-- A system call on the files themselves. -/
def Op.files (fs : List Bytes × List Bytes) : Op → List Bytes × List Bytes
  | .create .index b => (fs.1 ++ [b], fs.2)
  | .create .data b => (fs.1, fs.2 ++ [b])
  | .append .index n b => (appendFile fs.1 n b, fs.2)
  | .append .data n b => (fs.1, appendFile fs.2 n b)
  | .write .index n off b => (writeFileAt fs.1 n off b, fs.2)
  | .write .data n off b => (fs.1, writeFileAt fs.2 n off b)
  | .check _ _ => fs
  | .secure _ _ => fs

def opsFiles (fs : List Bytes × List Bytes) (ops : List Op) : List Bytes × List Bytes := ops.foldl Op.files fs

theorem opsFiles_append (fs : List Bytes × List Bytes) (a b : List Op) :
    opsFiles fs (a ++ b) = opsFiles (opsFiles fs a) b := List.foldl_append ..

theorem runOps_append (cf : SyncConf) (now : Nat) (D : Disk) (a b : List Op) :
    runOps cf now D (a ++ b) = runOps cf now (runOps cf now D a) b := List.foldl_append ..

theorem pwrite_end (f b : Bytes) : pwrite f f.length b = f ++ b := by
  simp [pwrite]

theorem DFile.cur_put (f : DFile) (off : Nat) (b : Bytes) : (f.put off b).cur = pwrite f.cur off b := by
  simp [DFile.cur, DFile.put]

theorem DFile.cur_sync (f : DFile) : f.sync.cur = f.cur := rfl

theorem map_modify_of {α β : Type} (g : α → β) (h : α → α) (h' : β → β) (hh : ∀ a, g (h a) = h' (g a))
    (l : List α) (n : Nat) : (l.modify n h).map g = (l.map g).modify n h' := by
  induction l generalizing n with
  | nil => simp
  | cons a l ih => cases n <;> simp [hh, ih]

theorem modify_id_of {β : Type} (l : List β) (n : Nat) : l.modify n (fun a => a) = l := by
  induction l generalizing n with
  | nil => simp
  | cons a l ih => cases n <;> simp [ih]

theorem map_modify_sync (l : List DFile) (n : Nat) : (l.modify n DFile.sync).map DFile.cur = l.map DFile.cur := by
  rw [map_modify_of DFile.cur DFile.sync (fun a => a) (fun a => a.cur_sync), modify_id_of]

/-- What the processes read changes as the system calls tell; a sync changes nothing. -/
theorem Op.view_run (cf : SyncConf) (now : Nat) (D : Disk) (o : Op) : (o.run cf now D).view = o.files D.view := by
  have hw : ∀ (l : List DFile) (n off : Nat) (b : Bytes),
      (l.modify n (fun f => f.put off b)).map DFile.cur = writeFileAt (l.map DFile.cur) n off b := fun l n off b =>
    map_modify_of DFile.cur _ _ (fun a => a.cur_put off b) l n
  have ha : ∀ (l : List DFile) (n : Nat) (b : Bytes),
      (l.modify n (fun f => f.put f.cur.length b)).map DFile.cur = appendFile (l.map DFile.cur) n b := fun l n b =>
    map_modify_of DFile.cur _ _ (fun a => by rw [a.cur_put, pwrite_end]) l n
  have hc : ∀ b, DFile.cur { safe := none, pend := [(0, b)] } = b := by
    intro b; simp [DFile.cur, pwrite]
  cases o with
  | create k b => cases k <;> simp [Op.run, Op.files, Disk.on, Disk.view, hc]
  | append k n b => cases k <;> simp [Op.run, Op.files, Disk.on, Disk.view, ha]
  | write k n off b => cases k <;> simp [Op.run, Op.files, Disk.on, Disk.view, hw]
  | check k n =>
    simp only [Op.run, Op.files]
    split
    · cases k <;> simp [Disk.fsync, Disk.view, map_modify_sync]
    · rfl
  | secure k n =>
    simp only [Op.run, Op.files]
    split
    · cases k <;> simp [Disk.on, Disk.view, map_modify_sync]
    · rfl

theorem view_runOps (cf : SyncConf) (now : Nat) (D : Disk) (ops : List Op) :
    (runOps cf now D ops).view = opsFiles D.view ops := by
  induction ops generalizing D with
  | nil => rfl
  | cons o ops ih =>
    show (runOps cf now (o.run cf now D) ops).view = opsFiles (o.files D.view) ops
    rw [ih, Op.view_run]

/-- The files of a store. -/
def Store.files (s : Store) : List Bytes × List Bytes := (s.ifiles, s.dfiles)

theorem appendFile_twice (fs : List Bytes) (n : Nat) (a b : Bytes) :
    appendFile (appendFile fs n a) n b = appendFile fs n (a ++ b) := by
  simp only [appendFile]
  induction fs generalizing n with
  | nil => simp
  | cons f fs ih => cases n <;> simp [ih]

theorem dataInsert_files (s : Store) (io : Io) (id payload : Bytes) (flags crc ts : Nat) :
    opsFiles s.files (dataInsertOps s io id payload flags crc ts) =
      (dataInsert s io id payload flags crc ts).1.files := by
  unfold dataInsertOps dataInsert
  simp only
  split
  · rfl
  · split <;> simp [opsFiles, Op.files, Store.files, appendFile_twice]

theorem jump_files (s : Store) : opsFiles s.files (jumpOps s) = (jump s).files := by
  unfold jumpOps jump indexCreateOps dataInitializeOps
  simp only [opsFiles_append]
  have h1 : opsFiles s.files [Op.secure .index s.indexid] = s.files := rfl
  rw [h1]
  simp only [indexSetId, dataOpen, indexCreate, dataInitialize, Store.files]
  by_cases h1 : (s.indexid + 1) % 2 ^ 32 < s.ifiles.length <;>
    by_cases h2 : (s.indexid + 1) % 2 ^ 32 < s.dfiles.length <;>
    simp only [h1, h2, if_true, if_false] <;> rfl

theorem appendEntry_files (s : Store) (io : Io) (e : Entry) :
    opsFiles s.files (appendEntryOps s io e) = (appendEntry s io e).1.files := by
  unfold appendEntryOps appendEntry
  simp only
  split <;> rfl

theorem deleteDisk_files (s : Store) (io : Io) (e : Entry) :
    opsFiles s.files (deleteDiskOps s io e) = (deleteDisk s io e).1.files := by
  unfold deleteDiskOps deleteDisk
  cases h1 : s.ifiles[e.indexid]? with
  | none => rfl
  | some f =>
    simp only
    cases h2 : readExact f e.idxoffset (itemHdr + e.id.length) with
    | none => rfl
    | some b => simp only; split <;> rfl

theorem updateUser_files (br : Branches) (s : Store) (u : Nat) (io : Io) (r : SetReq) (ex : Entry) :
    opsFiles s.files (updateUserOps s u io r ex) = (updateUser br s u io r ex).2.1.files := by
  unfold updateUserOps updateUser
  simp only [opsFiles_append, deleteDisk_files]
  exact appendEntry_files (updateStats (deleteDisk s io ex).1 ex (r.entry u)) io _

theorem overwriteItem_files (s : Store) (io : Io) (e : Entry) (fid off : Nat) :
    opsFiles s.files (overwriteItemOps s io e fid off) = (overwriteItem s io e fid off).files := by
  unfold overwriteItemOps overwriteItem
  cases h1 : s.ifiles[fid]? with
  | none => rfl
  | some f =>
    simp only
    cases h2 : readExact f off itemHdr with
    | none => rfl
    | some b => simp only; split <;> rfl

theorem seqOverwrite_files (s : Store) (io : Io) (e : Entry) :
    opsFiles s.files (seqOverwriteOps s io e) = (seqOverwrite s io e).files := by
  unfold seqOverwriteOps seqOverwrite
  cases h1 : s.seqmap with
  | none => rfl
  | some m =>
    simp only
    cases h2 : seqSearch m (fromLE e.id) with
    | none => rfl
    | some x => exact overwriteItem_files ..

theorem updateSeq_files (s : Store) (u : Nat) (io : Io) (r : SetReq) (ex : Entry) :
    opsFiles s.files (updateSeqOps s u io r ex) = (updateSeq s u io r ex).1.files := by
  unfold updateSeqOps updateSeq
  simp only [opsFiles_append, appendEntry_files]
  generalize appendEntry s io { ex with flags := setDeleted ex.flags } = t
  obtain ⟨t, e, ok⟩ := t
  cases ok
  · rfl
  · simp only [if_true]; rw [seqOverwrite_files]; rfl

theorem insertUser_sync (br : Branches) (s : Store) (u : Nat) (io : Io) (r : SetReq) :
    opsFiles s.files (appendEntryOps s io (r.entry u)) = (insertUser br s u io r).2.1.files := by
  rw [appendEntry_files]
  unfold insertUser
  generalize appendEntry s io (r.entry u) = t
  obtain ⟨t, e, ok⟩ := t
  cases ok <;> rfl

theorem insertSeq_sync (s : Store) (u : Nat) (io : Io) (r : SetReq) :
    opsFiles s.files (appendEntryOps s io (r.entry u)) = (insertSeq s u io r).1.files := by
  rw [appendEntry_files]
  unfold insertSeq
  generalize appendEntry s io (r.entry u) = t
  obtain ⟨t, e, ok⟩ := t
  cases ok <;> rfl

theorem setHandlerUser_files (c : Ctx) (br : Branches) (s : Store) (id payload : Bytes) (ts : Nat)
    (ex : Option Entry) : opsFiles s.files (setHandlerUserOps c s id payload ts ex) =
      (setHandlerUser c br s id payload ts ex).2.1.files := by
  unfold setHandlerUserOps setHandlerUser
  split
  · rfl
  · split
    · rfl
    · simp only [opsFiles_append, dataInsert_files]
      generalize dataInsert s c.io id payload 0 (crc32 payload) ts = t
      obtain ⟨t, off⟩ := t
      simp only
      split
      · rfl
      · cases ex with
        | none =>
          simp only
          rw [insertUser_sync br]
          generalize insertUser br t c.u c.io _ = x
          obtain ⟨_, _, ok⟩ := x
          cases ok <;> rfl
        | some ex =>
          simp only
          rw [updateUser_files br]
          generalize updateUser br t c.u c.io _ ex = x
          obtain ⟨_, _, ok⟩ := x
          cases ok <;> rfl

theorem setHandlerSeq_files (c : Ctx) (br : Branches) (s : Store) (key payload : Bytes) (ts : Nat)
    (ex : Option Entry) : opsFiles s.files (setHandlerSeqOps c s key payload ts ex) =
      (setHandlerSeq c br s key payload ts ex).2.1.files := by
  unfold setHandlerSeqOps setHandlerSeq
  split
  · rfl
  · simp only
    split
    · rfl
    · simp only [opsFiles_append, dataInsert_files]
      generalize dataInsert s c.io (seqIdOf s ex) payload 0 (crc32 payload) ts = t
      obtain ⟨t, off⟩ := t
      simp only
      split
      · rfl
      · cases ex with
        | none =>
          simp only
          rw [insertSeq_sync]
          generalize insertSeq t c.u c.io _ = x
          obtain ⟨_, ok⟩ := x
          cases ok <;> rfl
        | some ex =>
          simp only
          rw [updateSeq_files]
          generalize updateSeq t c.u c.io _ ex = x
          obtain ⟨_, ok⟩ := x
          cases ok <;> rfl

theorem jumpIfFull_files (limit : Nat) (s : Store) (len : Nat) :
    opsFiles s.files (jumpIfFullOps limit s len) = (jumpIfFull limit s len).files := by
  unfold jumpIfFullOps jumpIfFull
  split
  · exact jump_files s
  · rfl

theorem cmdSet_body_files (c : Ctx) (br : Branches) (s : Store) (argv : List Bytes) (key payload : Bytes) :
    opsFiles s.files (cmdSetOps.body c br s argv key payload) = (cmdSet.body c br s argv key payload).2.1.files := by
  unfold cmdSetOps.body cmdSet.body
  split
  · rfl
  · split
    · rfl
    · split
      · rfl
      · split
        · rfl
        · simp only
          generalize (if key.length ≠ 0 then indexGet br s c.u key else none) = entry
          split
          · rfl
          · split
            · rfl
            · rw [opsFiles_append, jumpIfFull_files]
              cases s.mode
              · exact setHandlerUser_files ..
              · exact setHandlerSeq_files ..

theorem indexDelete_files (br : Branches) (s : Store) (u : Nat) (io : Io) (e : Entry) :
    (indexDelete br s u io e).2.1.files = (deleteDisk s io e).1.files := by
  unfold indexDelete
  generalize deleteDisk s io e = t
  obtain ⟨t, ok⟩ := t
  cases ok <;> cases h : t.mode <;> simp [h, Store.files]

theorem cmdDel_body_files (c : Ctx) (br : Branches) (s : Store) (argv : List Bytes) (key : Bytes) :
    opsFiles s.files (cmdDelOps.body c br s argv key) = (cmdDel.body c br s argv key).2.1.files := by
  unfold cmdDelOps.body cmdDel.body
  split
  · rfl
  · split
    · rfl
    · split
      · rfl
      · split
        · rfl
        · cases indexGet br s c.u key with
          | none => rfl
          | some e =>
            simp only
            split
            · rfl
            · rw [opsFiles_append, dataInsert_files]
              generalize dataInsert s c.io e.id [] 1 0 (timestampFromSet c.now argv 2) = t
              obtain ⟨t, off⟩ := t
              simp only
              split
              · rfl
              · rw [deleteDisk_files, ← indexDelete_files br t c.u c.io e]
                generalize indexDelete br t c.u c.io e = x
                obtain ⟨_, _, ok⟩ := x
                cases ok <;> rfl

/-- The system calls of a command change the files as the command does. -/
theorem dsOps_files (c : Ctx) (br : Branches) (s : Store) (d : DsCmd) (argv : List Bytes) :
    opsFiles s.files (dsOps c br s d argv) = (dsCommand c br s d argv).2.1.files := by
  cases d with
  | set =>
    simp only [dsOps, dsCommand]
    unfold cmdSetOps cmdSet
    match argv with
    | [] => rfl
    | [_] => rfl
    | [_, _] => rfl
    | [_, _, _] => exact cmdSet_body_files ..
    | [_, _, _, _] =>
      simp only
      split
      · exact cmdSet_body_files ..
      · rfl
    | _ :: _ :: _ :: _ :: _ :: _ => rfl
  | del =>
    simp only [dsOps, dsCommand]
    unfold cmdDelOps cmdDel
    match argv with
    | [] => rfl
    | [_] => rfl
    | [a, k] =>
      simp only
      cases argsValidate [a, k] 2 with
      | none => exact cmdDel_body_files ..
      | some _ => rfl
    | [_, _, _] =>
      simp only
      split
      · exact cmdDel_body_files ..
      · rfl
    | a :: b :: x :: y :: l =>
      simp only
      cases argsValidate (a :: b :: x :: y :: l) 2 <;> rfl
  | nsjump =>
    simp only [dsOps, dsCommand, cmdNsjump]
    split
    · exact jump_files s
    · rfl
  | index =>
    simp only [dsOps, dsCommand]
    rcases cmdIndex_cases c s argv with h | h <;> rw [h] <;> rfl
  | _ => rfl

end Zdb
