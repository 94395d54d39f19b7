/-
Data files which are not in the directory, and the hook that is asked to bring them back.
-/
import Verif.Model.Backup
import Verif.Model.Loader
namespace Zdb.Missing

open Zdb.Backup (Waited Call)

/-- The data files in the directory.  The current file stays open, so that only the other ones are looked for here.
    In a store `dfiles` holds what was written to each file, whether it is in the directory or not. -/
abbrev Dir := Nat → Option Bytes

/-- What the script does when it is asked for a file: how waiting for it ends, and what is in the directory under this
    name afterwards. -/
structure Answer where
  w : Waited
  file : Option Bytes

abbrev Script := Nat → Answer

/-- `data_open_id_mode` (libzdb/data.c:130-159) with `data_open_notfound_hook` (109-125), when a hook is set: the
    script is asked once for a file that is missing, and the file is opened again if its status is 0. -/
def openId (sc : Script) (dir : Dir) (i : Nat) : Option Bytes × Dir :=
  match dir i with
  | some f => (some f, dir)
  | none =>
    let a := sc i
    let dir' : Dir := fun j => if j = i then a.file else dir j
    if a.w.status ≠ 0 then (none, dir') else (a.file, dir')

/-- `data_grab_dataid`, libzdb/data.c:219-231. -/
def grab (sc : Script) (s : Store) (dir : Dir) (i : Nat) : Option Bytes × Dir :=
  if s.dataid ≠ i then openId sc dir i else (s.dfiles[i]?, dir)

/-- `data_get_real`, libzdb/data.c:464-504, with `data_length_from_offset` (449-461). -/
def getReal (f : Bytes) (off length idlength : Nat) : Option Bytes :=
  let length' :=
    if length = 0 then
      match readExact f off dhdrLen with
      | some h => (decDHdr h).datalength
      | none => 0
    else length
  if length' = 0 then some [] else readExact f (off + dhdrLen + idlength) length'

/-- `data_get`, libzdb/data.c:509-528. -/
def dataGet (sc : Script) (s : Store) (dir : Dir) (off length dataid idlength : Nat) : Option Bytes × Dir :=
  let (f, dir) := grab sc s dir dataid
  (f.bind (getReal · off length idlength), dir)

/-- `data_check_real`, libzdb/data.c:533-571. -/
def checkReal (f : Bytes) (off : Nat) : Int :=
  match readExact f off dhdrLen with
  | none => -1
  | some h =>
    let h := decDHdr h
    match readExact f (off + dhdrLen + h.idlength) h.datalength with
    | none => -1
    | some p => if crc32 p = h.integrity then 1 else 0

/-- `data_check`, libzdb/data.c:575-588. -/
def dataCheck (sc : Script) (s : Store) (dir : Dir) (off dataid : Nat) : Int × Dir :=
  match grab sc s dir dataid with
  | (none, dir) => (-1, dir)
  | (some f, dir) => (checkReal f off, dir)

/-- `data_raw_get_real`, libzdb/data.c:325-387. -/
def rawReal (f : Bytes) (off : Int) : Raw :=
  if off ≥ f.length then .eof
  else if off < 0 then .unexpected
  else
    let o := off.toNat
    match readExact f o dhdrLen with
    | none => .unexpected
    | some b =>
      let h := decDHdr b
      if h.datalength > 2 ^ 23 then .unexpected
      else
        match readExact f (o + dhdrLen) h.idlength, readExact f (o + dhdrLen + h.idlength) h.datalength with
        | some id, some p => if isDeleted h.flags then .unexpected else .found h id p
        | _, _ => .unexpected

/-- `data_raw_get`, libzdb/data.c:390-409. -/
def dataRaw (sc : Script) (s : Store) (dir : Dir) (dataid : Nat) (off : Int) : Raw × Dir :=
  match grab sc s dir dataid with
  | (none, dir) => (.zero, dir)
  | (some f, dir) => (rawReal f off, dir)

/-- `command_get_single`, zdbd/commands_get.c:15-57. -/
def getSingle (sc : Script) (c : Ctx) (br : Branches) (s : Store) (dir : Dir) (key : Bytes) : Reply × Dir :=
  match indexGet br s c.u key with
  | none => (.nil, dir)
  | some e =>
    match dataGet sc s dir e.offset e.length e.dataid e.id.length with
    | (none, dir) => (.err "Internal Error", dir)
    | (some p, dir) => (.bulk p, dir)

/-- The checks of `readChecks`. -/
def readChecks (c : Ctx) (argv : List Bytes) (dir : Dir) (k : Bytes → Reply × Dir) : Reply × Dir :=
  match argsValidate argv 2 with
  | some e => (e, dir)
  | none =>
    match argv with
    | [_, key] =>
      if key.length > 255 then (.err "Invalid key", dir)
      else if c.conf.isFrozen then (errFrozen, dir)
      else k key
    | _ => (errArgs, dir)

/-- `command_get`, zdbd/commands_get.c:59-75. -/
def cmdGet (sc : Script) (c : Ctx) (br : Branches) (s : Store) (dir : Dir) (argv : List Bytes) : Reply × Dir :=
  readChecks c argv dir (getSingle sc c br s dir)

/-- The loop of MGET, zdbd/commands_get.c:106-108. -/
def mgetLoop (sc : Script) (c : Ctx) (br : Branches) (s : Store) : Dir → List Bytes → List Reply × Dir
  | dir, [] => ([], dir)
  | dir, k :: ks =>
    let (r, dir) := getSingle sc c br s dir k
    let (l, dir) := mgetLoop sc c br s dir ks
    (r :: l, dir)

/-- `command_mget`, zdbd/commands_get.c:77-111. -/
def cmdMget (sc : Script) (c : Ctx) (br : Branches) (s : Store) (dir : Dir) (argv : List Bytes) : Reply × Dir :=
  match argv with
  | _ :: k :: ks =>
    if (k :: ks).any (fun k => decide (k.length > 255)) then (.err "Invalid key", dir)
    else if c.conf.isFrozen then (errFrozen, dir)
    else
      let (l, dir) := mgetLoop sc c br s dir (k :: ks)
      (.arr l, dir)
  | _ => (.err "Invalid arguments", dir)

/-- `command_check`, zdbd/commands_dataset.c:54-102. -/
def cmdCheck (sc : Script) (c : Ctx) (br : Branches) (s : Store) (dir : Dir) (argv : List Bytes) : Reply × Dir :=
  readChecks c argv dir fun key =>
    match indexGet br s c.u key with
    | none => (.nil, dir)
    | some e =>
      let (v, dir) := dataCheck sc s dir e.offset e.dataid
      (.int v, dir)

/-- The reply of DATA RAW, zdbd/commands_system.c:278-337. -/
def rawReply : Raw → Reply
  | .zero => .err "Invalid Request"
  | .eof => .err "EOF"
  | .unexpected => .err "Unexpected Internal Error"
  | .found h id p =>
    if h.datalength = 0 then .err "Invalid Request"
    else .arr [.bulk id, .int h.previous, .bulk (hex8 h.integrity), .int h.flags, .int h.timestamp, .bulk p]

/-- `command_data` and `command_data_raw`, zdbd/commands_system.c:256-363. -/
def cmdData (sc : Script) (c : Ctx) (s : Store) (dir : Dir) (argv : List Bytes) : Reply × Dir :=
  if !c.admin then (errDenied, dir)
  else
    match argsValidateMin argv 2 with
    | some e => (e, dir)
    | none =>
      match argv with
      | _ :: sub :: rest =>
        if sub.length > 256 then (.err "Argument too long", dir)
        else if (cstr sub).length = 256 then (.crash, dir)
        else if strCaseEq (cstr sub) wordRaw then
          match argsValidateMin argv 4 with
          | some e => (e, dir)
          | none =>
            match rest with
            | file :: off :: _ =>
              let (x, dir) := dataRaw sc s dir (atoll (cstr file) % 2 ^ 32).toNat (atoll (cstr off))
              (rawReply x, dir)
            | _ => (errArg, dir)
        else (.err "Unknown DATA subcommand", dir)
      | _ => (errArg, dir)

/-- `data_compare_matching`, zdbd/commands_set.c:52-74. -/
def compareMatching (sc : Script) (s : Store) (dir : Dir) (ex : Entry) (payload : Bytes) : Bool × Dir :=
  if ex.length ≠ payload.length % 2 ^ 32 then (false, dir)
  else
    match dataGet sc s dir ex.offset ex.length ex.dataid ex.id.length with
    | (none, dir) => (false, dir)
    | (some p, dir) => (p.take payload.length == payload, dir)

/-- zdbd/commands_set.c:110-117 and 220-227. -/
def upToDate (sc : Script) (s : Store) (dir : Dir) (existing : Option Entry) (payload : Bytes) : Bool × Dir :=
  match existing with
  | some ex => if ex.crc == crc32 payload then compareMatching sc s dir ex payload else (false, dir)
  | none => (false, dir)

/-- zdbd/commands_set.c:119-171: a SET that is not skipped, user-key mode. -/
def writeUser (c : Ctx) (br : Branches) (s : Store) (id payload : Bytes) (ts : Nat) (existing : Option Entry) :
    Branches × Store × Reply :=
  let (s, off) := dataInsert s c.io id payload 0 (crc32 payload) ts
  if off = 0 then (br, s, .err "Cannot write data right now")
  else
    let r : SetReq := { id := id, offset := off, length := payload.length,
                        crc := crc32 payload, dataid := 0, timestamp := ts }
    let (br, s, ok) := match existing with
      | some ex => updateUser br s c.u c.io r ex
      | none => insertUser br s c.u c.io r
    if ok then (br, s, .bulk id) else (br, s, .err "Cannot write index right now")

/-- zdbd/commands_set.c:229-283: a SET that is not skipped, sequential mode. -/
def writeSeq (c : Ctx) (br : Branches) (s : Store) (id payload : Bytes) (ts : Nat) (existing : Option Entry) :
    Branches × Store × Reply :=
  let (s, off) := dataInsert s c.io id payload 0 (crc32 payload) ts
  if off = 0 then (br, s, .err "Cannot write data right now")
  else
    let r : SetReq := { id := id, offset := off, length := payload.length,
                        crc := crc32 payload, dataid := s.dataid, timestamp := ts }
    let (s, ok) := match existing with
      | some ex => updateSeq s c.u c.io r ex
      | none => insertSeq s c.u c.io r
    if ok then (br, s, .bulk id) else (br, s, .err "Cannot write index right now")

/-- `redis_set_handler_userkey`, zdbd/commands_set.c:76-171. -/
def setHandlerUser (sc : Script) (c : Ctx) (br : Branches) (s : Store) (dir : Dir) (id payload : Bytes) (ts : Nat)
    (existing : Option Entry) : (Branches × Store × Reply) × Dir :=
  if id.length = 0 then ((br, s, .err "Invalid argument, key needed"), dir)
  else
    match upToDate sc s dir existing payload with
    | (true, dir) => ((br, s, .nil), dir)
    | (false, dir) => (writeUser c br s id payload ts existing, dir)

/-- `redis_set_handler_sequential`, zdbd/commands_set.c:173-283. -/
def setHandlerSeq (sc : Script) (c : Ctx) (br : Branches) (s : Store) (dir : Dir) (key payload : Bytes) (ts : Nat)
    (existing : Option Entry) : (Branches × Store × Reply) × Dir :=
  if key.length ≠ 0 ∧ existing.isNone then ((br, s, .err "Invalid key, only update authorized"), dir)
  else
    match upToDate sc s dir existing payload with
    | (true, dir) => ((br, s, .nil), dir)
    | (false, dir) => (writeSeq c br s (seqIdOf s existing) payload ts existing, dir)

/-- The directory after a change of files from the state `s` to the state `t`: the file that was the current one is
    looked for there from now on. -/
def jumped (s t : Store) (dir : Dir) : Dir :=
  if t.dataid = s.dataid then dir else fun i => if i = s.dataid then s.dfiles[i]? else dir i

/-- `command_set`, zdbd/commands_set.c:292-380. -/
def cmdSet (sc : Script) (w : Waited) (c : Ctx) (br : Branches) (s : Store) (dir : Dir) (argv : List Bytes) :
    ((Branches × Store × Reply) × List Call) × Dir :=
  match argv with
  | [_, key, payload] => body key payload
  | [_, key, payload, _] => if c.admin then body key payload else (((br, s, errDenied), []), dir)
  | _ => (((br, s, errArgs), []), dir)
where
  body (key payload : Bytes) : ((Branches × Store × Reply) × List Call) × Dir :=
    if key.length > 255 then (((br, s, .err "Key too large"), []), dir)
    else if !c.writable then (((br, s, errReadOnly), []), dir)
    else if c.conf.isFrozen then (((br, s, errFrozen), []), dir)
    else if c.conf.isLocked then (((br, s, errLocked), []), dir)
    else
      let entry := if key.length ≠ 0 then indexGet br s c.u key else none
      let floating := floatingOf entry
      if entry.isSome && c.conf.worm then (((br, s, .err "Namespace is protected by worm mode"), []), dir)
      else if overQuota c.conf s.datasize payload.length floating then
        (((br, s, .err "No space left on this namespace"), []), dir)
      else
        let (t, calls) := Backup.jumpIfFull w c.limit s payload.length
        let ts := timestampFromSet c.now argv 3
        let (x, dir) := match s.mode with
          | .user => setHandlerUser sc c br t (jumped s t dir) key payload ts entry
          | .seq => setHandlerSeq sc c br t (jumped s t dir) key payload ts entry
        ((x, calls), dir)

/-- Running a handler, when a hook is set and data files may be missing.  The commands other than those listed first
    read no data file. -/
def command (sc : Script) (w : Waited) (c : Ctx) (br : Branches) (s : Store) (dir : Dir) (d : DsCmd)
    (argv : List Bytes) : ((Branches × Store × Reply) × List Call) × Dir :=
  match d with
  | .set => cmdSet sc w c br s dir argv
  | .nsjump =>
    let x := Backup.cmdNsjump w c br s
    (x, jumped s x.1.2.1 dir)
  | .get => let (r, dir) := cmdGet sc c br s dir argv; (((br, s, r), []), dir)
  | .mget => let (r, dir) := cmdMget sc c br s dir argv; (((br, s, r), []), dir)
  | .check => let (r, dir) := cmdCheck sc c br s dir argv; (((br, s, r), []), dir)
  | .data => let (r, dir) := cmdData sc c s dir argv; (((br, s, r), []), dir)
  | d => ((dsCommand c br s d argv, []), dir)

/-- The data files on the disk, as a list: a missing one is given as an empty one. -/
def onDisk (s : Store) (dir : Dir) : List Bytes :=
  s.dfiles.mapIdx (fun i f => if i = s.dataid then f else (dir i).getD [])

/-- Stopping and starting again.  Loading reads the index files and, of the data files, the last one alone
    (`data_init`, libzdb/data.c:708-718, with the number of the last index file, libzdb/namespace.c:231), so that a
    missing file given as an empty one makes no difference.  What was written to the missing files is kept in the
    store, as before. -/
def reload (cfg : Option Mode) (br : Branches) (u : Nat) (s : Store) (dir : Dir) : LoadRes :=
  match reloadNs cfg br u { s with dfiles := onDisk s dir } with
  | .ok br t => .ok br { t with dfiles := s.dfiles.take s.dataid ++ t.dfiles.drop s.dataid }
  | r => r

end Zdb.Missing
