/-
What of the files of a namespace survives a power loss: the system calls of a command, the page cache and `fsync`.
-/
import Verif.Model.Engine
namespace Zdb

/-- Index files `i<N>` and data files `d<N>`. -/
inductive Kind where
  | index
  | data
deriving DecidableEq, Repr

/-- The system calls that change a file or wait for the disk, and the places where the code decides whether to wait. -/
inductive Op where
  /-- the next file is created and its header written (`open` with `O_CREAT`, `write`) -/
  | create (k : Kind) (b : Bytes)
  /-- `write` on a descriptor opened with `O_APPEND` -/
  | append (k : Kind) (n : Nat) (b : Bytes)
  /-- `lseek` and `write` -/
  | write (k : Kind) (n off : Nat) (b : Bytes)
  /-- `index_sync_check` (libzdb/index.c:76-91) or `data_sync_check` (libzdb/data.c:46-59) on a file -/
  | check (k : Kind) (n : Nat)
  /-- the `fsync` of `index_jump_next` (libzdb/index.c:357-360) or `data_jump_next` (libzdb/data.c:425-428) -/
  | secure (k : Kind) (n : Nat)

/-! ### system calls of the commands -/

/-- `data_insert`, libzdb/data.c:594-633: the header is written without asking for a sync, the payload with; a
    failed write asks for none (libzdb/data.c:71-101). -/
def dataInsertOps (s : Store) (io : Io) (id payload : Bytes) (flags crc ts : Nat) : List Op :=
  let hdr := encDHdr { idlength := id.length, datalength := payload.length, previous := s.dprev,
                       integrity := crc, flags := flags, timestamp := ts } ++ id
  if !io.dhdr.ok then [.append .data s.dataid (io.dhdr.cut hdr)]
  else if !io.dpay.ok then [.append .data s.dataid hdr, .append .data s.dataid (io.dpay.cut payload)]
  else [.append .data s.dataid hdr, .append .data s.dataid payload, .check .data s.dataid]

/-- `index_open_final` and `index_initialize` in `index_jump_next` (libzdb/index.c:376-377). -/
def indexCreateOps (fs : List Bytes) (id mode : Nat) : List Op :=
  let hdr := encIHeader (freshIHeader id mode)
  if id < fs.length then [.append .index id hdr, .check .index id]
  else [.create .index hdr, .check .index fs.length]

/-- `data_initialize`, libzdb/data.c:245-276. -/
def dataInitializeOps (fs : List Bytes) (id : Nat) : List Op :=
  let hdr := encDFHeader (freshDFHeader id)
  if id < fs.length then [.write .data id 0 hdr, .check .data id]
  else [.create .data hdr, .check .data fs.length]

/-- `index_jump_next` (libzdb/index.c:341-399), then `data_jump_next` (libzdb/data.c:413-447). -/
def jumpOps (s : Store) : List Op :=
  let id := (s.indexid + 1) % 2 ^ 32
  [.secure .index s.indexid] ++ indexCreateOps s.ifiles id s.mode.byte ++
    [.secure .data s.dataid] ++ dataInitializeOps s.dfiles id

/-- `index_append_entry_on_disk` (libzdb/index_set.c:136-164), through `index_write` (libzdb/index.c:95-129). -/
def appendEntryOps (s : Store) (io : Io) (e : Entry) : List Op :=
  let eof := fileLen s.ifiles s.indexid
  let e := { e with idxoffset := eof % 2 ^ 32, indexid := s.indexid }
  let item := itemOf s.iprev e
  if io.iapp.ok then [.append .index s.indexid (io.iapp.cut (encItem item)), .check .index s.indexid]
  else [.append .index s.indexid (io.iapp.cut (encItem item))]

/-- `index_entry_delete_disk`, libzdb/index.c:536-589: a plain `write`, never followed by a sync. -/
def deleteDiskOps (s : Store) (io : Io) (e : Entry) : List Op :=
  let flags := setDeleted e.flags
  match s.ifiles[e.indexid]? with
  | none => []
  | some f =>
    match readExact f e.idxoffset (itemHdr + e.id.length) with
    | none => []
    | some b => [.write .index e.indexid e.idxoffset (io.iflag.cut (setItemFlags b flags))]

/-- `index_update_entry_memkey`, libzdb/index_set.c:304-323. -/
def updateUserOps (s : Store) (u : Nat) (io : Io) (r : SetReq) (ex : Entry) : List Op :=
  let t := (deleteDisk s io ex).1
  let new := r.entry u
  deleteDiskOps s io ex ++ appendEntryOps (updateStats t ex new) io (updatedEntry t ex new)

/-- Second half of `index_seq_overwrite`, libzdb/index_set.c:76-109: a plain `write`, never followed by a sync. -/
def overwriteItemOps (s : Store) (io : Io) (e : Entry) (fid offset : Nat) : List Op :=
  match s.ifiles[fid]? with
  | none => []
  | some f =>
    match readExact f offset itemHdr with
    | none => []
    | some b => [.write .index fid offset (io.iover.cut (encItem (itemOf (decItem b).previous e)))]

/-- `index_seq_overwrite`, libzdb/index_set.c:55-110. -/
def seqOverwriteOps (s : Store) (io : Io) (e : Entry) : List Op :=
  let key := fromLE e.id
  match s.seqmap with
  | none => []
  | some m =>
    match seqSearch m key with
    | none => []
    | some (sid, fid) => overwriteItemOps s io e fid (seqOffset (seqRelative key sid) % 2 ^ 32)

/-- `index_update_entry_sequential`, libzdb/index_set.c:325-359. -/
def updateSeqOps (s : Store) (u : Nat) (io : Io) (r : SetReq) (ex : Entry) : List Op :=
  let copy := { ex with flags := setDeleted ex.flags }
  let t := appendEntry s io copy
  appendEntryOps s io copy ++
    if t.2.2 then
      seqOverwriteOps t.1 io { r.entry u with parentid := t.1.indexid, parentoff := t.2.1.idxoffset }
    else []

/-- `redis_set_handler_userkey`, zdbd/commands_set.c:76-171. -/
def setHandlerUserOps (c : Ctx) (s : Store) (id payload : Bytes) (ts : Nat) (existing : Option Entry) : List Op :=
  if id.length = 0 then []
  else if upToDate s existing payload then []
  else
    let t := dataInsert s c.io id payload 0 (crc32 payload) ts
    dataInsertOps s c.io id payload 0 (crc32 payload) ts ++
      if t.2 = 0 then []
      else
        let r : SetReq := { id := id, offset := t.2, length := payload.length,
                            crc := crc32 payload, dataid := 0, timestamp := ts }
        match existing with
        | some ex => updateUserOps t.1 c.u c.io r ex
        | none => appendEntryOps t.1 c.io (r.entry c.u)

/-- `redis_set_handler_sequential`, zdbd/commands_set.c:173-283. -/
def setHandlerSeqOps (c : Ctx) (s : Store) (key payload : Bytes) (ts : Nat) (existing : Option Entry) : List Op :=
  if key.length ≠ 0 ∧ existing.isNone then []
  else
    let id := seqIdOf s existing
    if upToDate s existing payload then []
    else
      let t := dataInsert s c.io id payload 0 (crc32 payload) ts
      dataInsertOps s c.io id payload 0 (crc32 payload) ts ++
        if t.2 = 0 then []
        else
          let r : SetReq := { id := id, offset := t.2, length := payload.length,
                              crc := crc32 payload, dataid := t.1.dataid, timestamp := ts }
          match existing with
          | some ex => updateSeqOps t.1 c.u c.io r ex
          | none => appendEntryOps t.1 c.io (r.entry c.u)

/-- File change test of `command_set`, zdbd/commands_set.c:370-373. -/
def jumpIfFullOps (limit : Nat) (s : Store) (len : Nat) : List Op :=
  if fileLen s.dfiles s.dataid + len > limit then jumpOps s else []

/-- `command_set`, zdbd/commands_set.c:292-380. -/
def cmdSetOps (c : Ctx) (br : Branches) (s : Store) (argv : List Bytes) : List Op :=
  match argv with
  | [_, key, payload] => body key payload
  | [_, key, payload, _] => if c.admin then body key payload else []
  | _ => []
where
  body (key payload : Bytes) : List Op :=
    if key.length > 255 then []
    else if !c.writable then []
    else if c.conf.isFrozen then []
    else if c.conf.isLocked then []
    else
      let entry := if key.length ≠ 0 then indexGet br s c.u key else none
      if entry.isSome && c.conf.worm then []
      else if overQuota c.conf s.datasize payload.length (floatingOf entry) then []
      else
        let t := jumpIfFull c.limit s payload.length
        let ts := timestampFromSet c.now argv 3
        jumpIfFullOps c.limit s payload.length ++
          match s.mode with
          | .user => setHandlerUserOps c t key payload ts entry
          | .seq => setHandlerSeqOps c t key payload ts entry

/-- `command_del`, zdbd/commands_dataset.c:104-182. -/
def cmdDelOps (c : Ctx) (br : Branches) (s : Store) (argv : List Bytes) : List Op :=
  match argv with
  | [_, key, _] => if c.admin then body key else []
  | _ =>
    match argsValidate argv 2 with
    | some _ => []
    | none =>
      match argv with
      | [_, key] => body key
      | _ => []
where
  body (key : Bytes) : List Op :=
    if key.length > 255 then []
    else if !c.writable then []
    else if c.conf.isFrozen then []
    else if c.conf.isLocked then []
    else
      match indexGet br s c.u key with
      | none => []
      | some e =>
        if c.conf.worm then []
        else
          let ts := timestampFromSet c.now argv 2
          let t := dataInsert s c.io e.id [] 1 0 ts
          dataInsertOps s c.io e.id [] 1 0 ts ++ if t.2 = 0 then [] else deleteDiskOps t.1 c.io e

/-- The system calls of a dataset command.  Only SET, DEL and NSJUMP write to files. -/
def dsOps (c : Ctx) (br : Branches) (s : Store) (d : DsCmd) (argv : List Bytes) : List Op :=
  match d with
  | .set => cmdSetOps c br s argv
  | .del => cmdDelOps c br s argv
  | .nsjump => if c.admin then jumpOps s else []
  | _ => []

/-- The system calls of loading a namespace: the header of each index file is written again through `index_write`
    (libzdb/index_loader.c:258-265), the one of the last data file by `data_initialize` (libzdb/data.c:245-276).
    Only the loading of files that are already there is described. -/
def loadOps (ifiles dfiles : List Bytes) : List Op :=
  ifiles.zipIdx.flatMap (fun x =>
    [.write .index x.2 0 (encIHeader { decIHeader x.1 with opened := 0 }), .check .index x.2]) ++
  dataInitializeOps dfiles (ifiles.length - 1)

/-! ### page cache and disk -/

/-- A file as the kernel sees it. -/
structure DFile where
  /-- its contents at the last `fsync`; `none` if there was none since the file was created -/
  safe : Option Bytes
  /-- the writes since, oldest first -/
  pend : List (Nat × Bytes)
deriving DecidableEq

/-- What a process reads. -/
def DFile.cur (f : DFile) : Bytes := f.pend.foldl (fun b w => pwrite b w.1 w.2) (f.safe.getD [])

/-- `fsync`. -/
def DFile.sync (f : DFile) : DFile := { safe := some f.cur, pend := [] }

/-- `write` at an offset. -/
def DFile.put (f : DFile) (off : Nat) (b : Bytes) : DFile := { f with pend := f.pend ++ [(off, b)] }

/-- The files of a namespace, and `lastsync` of its index and data roots. -/
structure Disk where
  i : List DFile
  d : List DFile
  ilast : Nat
  dlast : Nat

/-- The options `--sync`, `--synctime` (0 if not given) and `--secure`. -/
structure SyncConf where
  sync : Bool
  synctime : Nat
  secure : Bool

/-- Changing the files of one kind. -/
def Disk.on (D : Disk) (k : Kind) (g : List DFile → List DFile) : Disk :=
  match k with
  | .index => { D with i := g D.i }
  | .data => { D with d := g D.d }

/-- `lastsync` of one kind. -/
def Disk.last (D : Disk) : Kind → Nat
  | .index => D.ilast
  | .data => D.dlast

/-- `index_sync` / `data_sync` (libzdb/index.c:65-70, libzdb/data.c:35-39): `fsync` and the time. -/
def Disk.fsync (D : Disk) (k : Kind) (n now : Nat) : Disk :=
  match k with
  | .index => { D with i := D.i.modify n DFile.sync, ilast := now }
  | .data => { D with d := D.d.modify n DFile.sync, dlast := now }

/-- The condition of `index_sync_check` and `data_sync_check`; the clock does not go back. -/
def SyncConf.due (cf : SyncConf) (last now : Nat) : Bool :=
  cf.sync || (decide (cf.synctime ≠ 0) && decide (now - last > cf.synctime))

/-- One system call at time `now`. -/
def Op.run (cf : SyncConf) (now : Nat) (D : Disk) : Op → Disk
  | .create k b => D.on k (· ++ [{ safe := none, pend := [(0, b)] }])
  | .append k n b => D.on k (·.modify n (fun f => f.put f.cur.length b))
  | .write k n off b => D.on k (·.modify n (fun f => f.put off b))
  | .check k n => if cf.due (D.last k) now then D.fsync k n now else D
  | .secure k n => if cf.secure then D.on k (·.modify n DFile.sync) else D

def runOps (cf : SyncConf) (now : Nat) (D : Disk) (ops : List Op) : Disk := ops.foldl (Op.run cf now) D

/-- The files as a process reads them. -/
def Disk.view (D : Disk) : List Bytes × List Bytes := (D.i.map DFile.cur, D.d.map DFile.cur)

/-- The system calls of creating a namespace: `index_load_file` writes the header of a new file twice through
    `index_write`, in `index_initialize` (libzdb/index_loader.c:238, 96) and again at offset 0
    (libzdb/index_loader.c:258-265); then `data_initialize` (libzdb/data.c:245-276). -/
def createOps (m : Mode) : List Op :=
  let hdr := encIHeader (freshIHeader 0 m.byte)
  [.create .index hdr, .check .index 0, .write .index 0 0 hdr, .check .index 0] ++ dataInitializeOps [] 0

/-- The disk of a namespace created at time `t`; `lastsync` is 0 before (libzdb/index_loader.c:538,
    libzdb/data.c:697). -/
def Disk.fresh (cf : SyncConf) (t : Nat) (m : Mode) : Disk :=
  runOps cf t { i := [], d := [], ilast := 0, dlast := 0 } (createOps m)

/-- The bytes of a write, each with its position. -/
def byteWrites (w : Nat × Bytes) : List (Nat × UInt8) := (w.2.zipIdx w.1).map fun x => (x.2, x.1)

/-- Contents of a file after a power loss: of each write that was not followed by an `fsync`, any part may have
    reached the disk. -/
inductive Partly : Bytes → List (Nat × Bytes) → Bytes → Prop where
  | nil (f : Bytes) : Partly f [] f
  | cons {f g : Bytes} {w : Nat × Bytes} {ws : List (Nat × Bytes)} (l : List (Nat × UInt8))
      (hl : l.Sublist (byteWrites w)) (h : Partly (l.foldl (fun b x => pwrite b x.1 [x.2]) f) ws g) :
      Partly f (w :: ws) g

/-- What a power loss makes of a file; `none`: it is no longer there. -/
inductive Survives : DFile → Option Bytes → Prop where
  | kept {f : DFile} {g : Bytes} (h : Partly (f.safe.getD []) f.pend g) : Survives f (some g)
  | gone {f : DFile} (h : f.safe = none) : Survives f none

/-- The index and data files found after a power loss.  Lists cannot have holes: if a file is gone, so are the
    later ones. -/
def PowerLoss (D : Disk) (fi fd : List Bytes) : Prop :=
  fi.length ≤ D.i.length ∧ fd.length ≤ D.d.length ∧
    (∀ (n : Nat) (f : DFile), D.i[n]? = some f → Survives f fi[n]?) ∧
    (∀ (n : Nat) (f : DFile), D.d[n]? = some f → Survives f fd[n]?)

/-- Executions of a namespace with what becomes of its files; the time of a command is `c.now`, `foreign` events do
    not touch the files, `t` is the time of a reload (`lastsync` of new roots is 0, libzdb/index_loader.c:522-554,
    libzdb/data.c:688-704). -/
inductive DiskRun (cfg : Option Mode) (cf : SyncConf) (u : Nat) :
    Branches → Store → Disk → List (NsEvent × Reply) → Branches → Store → Disk → Prop where
  | nil (br : Branches) (s : Store) (D : Disk) : DiskRun cfg cf u br s D [] br s D
  | cmd (c : Ctx) (d : DsCmd) (argv : List Bytes) {br br1 br2 : Branches} {s s1 s2 : Store} {D D2 : Disk}
      {r : Reply} {tr : List (NsEvent × Reply)} (hu : c.u = u) (h1 : dsCommand c br s d argv = (br1, s1, r))
      (h2 : DiskRun cfg cf u br1 s1 (runOps cf c.now D (dsOps c br s d argv)) tr br2 s2 D2) :
      DiskRun cfg cf u br s D ((.cmd c d argv, r) :: tr) br2 s2 D2
  | foreign {br br1 br2 : Branches} {s s2 : Store} {D D2 : Disk} {tr : List (NsEvent × Reply)}
      (h1 : ∀ h, (br1 h).filter (fun e => e.ns == u) = (br h).filter (fun e => e.ns == u))
      (h2 : DiskRun cfg cf u br1 s D tr br2 s2 D2) :
      DiskRun cfg cf u br s D ((.foreign, .nil) :: tr) br2 s2 D2
  | reload (t : Nat) {br br1 br2 : Branches} {s s1 s2 : Store} {D D2 : Disk} {tr : List (NsEvent × Reply)}
      (h1 : reloadNs cfg br u s = .ok br1 s1)
      (h2 : DiskRun cfg cf u br1 s1 (runOps cf t { D with ilast := 0, dlast := 0 } (loadOps s.ifiles s.dfiles)) tr br2 s2 D2) :
      DiskRun cfg cf u br s D ((.reload, .ok) :: tr) br2 s2 D2

end Zdb
