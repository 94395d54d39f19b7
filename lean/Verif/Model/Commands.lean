/-
Dataset commands of the daemon: zdbd/commands_set.c, commands_get.c, commands_dataset.c.
-/
import Verif.Model.Store
namespace Zdb

/-- Replies, before RESP encoding. -/
inductive Reply where
  /-- `$-1` -/
  | nil
  /-- `+OK` or another simple string -/
  | simple (s : String)
  /-- `-message` -/
  | err (msg : String)
  /-- `:n` -/
  | int (n : Int)
  /-- bulk string -/
  | bulk (b : Bytes)
  /-- array -/
  | arr (l : List Reply)
  /-- undefined behaviour: a NULL pointer is dereferenced or memory is read beyond a buffer -/
  | crash

def Reply.ok : Reply := .simple "OK"

/-- `ns_lock_t`: unlocked, read-only lock (NSSET lock), frozen (NSSET freeze). -/
inductive Lock where
  | unlocked
  | locked
  | frozen
deriving DecidableEq, Repr

/-- Settings of a namespace, `namespace_t` in libzdb/namespace.h without the index and data roots. -/
structure NsConf where
  name : Bytes
  password : Option Bytes
  isPublic : Bool
  worm : Bool
  maxsize : Nat
  lock : Lock
deriving DecidableEq, Repr

/-- What a dataset handler reads besides the store. -/
structure Ctx where
  /-- `zdb_settings->datasize` -/
  limit : Nat
  /-- `time(NULL)` -/
  now : Nat
  /-- namespace identity -/
  u : Nat
  conf : NsConf
  admin : Bool
  writable : Bool
  io : Io
  /-- number of turns the loop of SCAN and RSCAN makes before its time slice is over -/
  slice : Nat

/-- `namespace_is_frozen`, libzdb/namespace.c:742-783. -/
def NsConf.isFrozen (c : NsConf) : Bool := c.lock == .frozen
/-- `namespace_is_locked`, libzdb/namespace.c:742-783: locked or frozen. -/
def NsConf.isLocked (c : NsConf) : Bool := c.lock != .unlocked

def errFrozen : Reply := .err "Namespace is temporarily frozen (read-write disabled)"
def errLocked : Reply := .err "Namespace is temporarily locked (read-only)"
def errReadOnly : Reply := .err "Namespace is in read-only mode"
def errArgs : Reply := .err "Unexpected arguments"
def errArg : Reply := .err "Invalid argument"
def errDenied : Reply := .err "Permission denied"

/-- `atoll` on a NUL-terminated copy: blanks, sign, digits; saturates like glibc `strtoll`. -/
def atollDigits : Nat → Bytes → Nat
  | acc, [] => acc
  | acc, b :: bs => if 48 ≤ b ∧ b ≤ 57 then atollDigits (acc * 10 + (b.toNat - 48)) bs else acc

def atollSkip : Bytes → Bytes
  | [] => []
  | b :: bs => if b = 32 ∨ (9 ≤ b ∧ b ≤ 13) then atollSkip bs else b :: bs

def atoll (s : Bytes) : Int :=
  match atollSkip s with
  | 45 :: bs => - (min (atollDigits 0 bs) (2 ^ 63) : Nat)
  | 43 :: bs => (min (atollDigits 0 bs) (2 ^ 63 - 1) : Nat)
  | bs => (min (atollDigits 0 bs) (2 ^ 63 - 1) : Nat)

/-- `timestamp_from_set`, zdbd/commands_set.c:16-29, reduced to the 32 bits in which every user of the
    value stores it. -/
def timestampFromSet (now : Nat) (argv : List Bytes) (field : Nat) : Nat :=
  match argv[field]? with
  | none => now % 2 ^ 32
  | some b => (atoll b % 2 ^ 32).toNat

/-- `command_args_validate(client, n)`, zdbd/commands.c:26-45: exact count and no empty argument. -/
def argsValidate (argv : List Bytes) (n : Nat) : Option Reply :=
  if argv.length ≠ n then some errArgs
  else if argv.any (·.isEmpty) then some errArg
  else none

/-- `data_compare_matching`, zdbd/commands_set.c:52-74. -/
def compareMatching (s : Store) (ex : Entry) (payload : Bytes) : Bool :=
  if ex.length ≠ payload.length % 2 ^ 32 then false
  else
    match dataGet s ex.offset ex.length ex.dataid ex.id.length with
    | none => false
    | some p => p.take payload.length == payload

/-- Lines 110-117 (and 220-227): the update is skipped if crc, length and bytes match. -/
def upToDate (s : Store) (existing : Option Entry) (payload : Bytes) : Bool :=
  match existing with
  | some ex => ex.crc == crc32 payload && compareMatching s ex payload
  | none => false

/-- `redis_set_handler_userkey`, zdbd/commands_set.c:76-171.  The request does not set `dataid`. -/
def setHandlerUser (c : Ctx) (br : Branches) (s : Store) (id payload : Bytes) (ts : Nat)
    (existing : Option Entry) : Branches × Store × Reply :=
  if id.length = 0 then (br, s, .err "Invalid argument, key needed")
  else if upToDate s existing payload then (br, s, .nil)
  else
    let (s, off) := dataInsert s c.io id payload 0 (crc32 payload) ts
    if off = 0 then (br, s, .err "Cannot write data right now")
    else
      let r : SetReq := { id := id, offset := off, length := payload.length,
                          crc := crc32 payload, dataid := 0, timestamp := ts }
      let (br, s, ok) := match existing with
        | some ex => updateUser br s c.u c.io r ex
        | none => insertUser br s c.u c.io r
      if ok then (br, s, .bulk id) else (br, s, .err "Cannot write index right now")

/-- The id a sequential SET works on, zdbd/commands_set.c:189-199: the next id, or the bytes of the existing
    entry copied over it. -/
def seqIdOf (s : Store) : Option Entry → Bytes
  | some ex => ex.id ++ (toLE 8 s.nextentry).drop ex.id.length
  | none => toLE 8 s.nextentry

/-- `redis_set_handler_sequential`, zdbd/commands_set.c:173-283. -/
def setHandlerSeq (c : Ctx) (br : Branches) (s : Store) (key payload : Bytes) (ts : Nat)
    (existing : Option Entry) : Branches × Store × Reply :=
  if key.length ≠ 0 ∧ existing.isNone then (br, s, .err "Invalid key, only update authorized")
  else
    let id := seqIdOf s existing
    if upToDate s existing payload then (br, s, .nil)
    else
      let (s, off) := dataInsert s c.io id payload 0 (crc32 payload) ts
      if off = 0 then (br, s, .err "Cannot write data right now")
      else
        let r : SetReq := { id := id, offset := off, length := payload.length,
                            crc := crc32 payload, dataid := s.dataid, timestamp := ts }
        let (s, ok) := match existing with
          | some ex => updateSeq s c.u c.io r ex
          | none => insertSeq s c.u c.io r
        if ok then (br, s, .bulk id) else (br, s, .err "Cannot write index right now")

/-- Quota test of `command_set`, zdbd/commands_set.c:351-360 (`size_t` arithmetic). -/
def overQuota (c : NsConf) (datasize len floating : Nat) : Bool :=
  c.maxsize ≠ 0 && decide ((datasize + len) % 2 ^ 64 > (c.maxsize + floating) % 2 ^ 64)

/-- `floating` of `command_set`, zdbd/commands_set.c:336-345: the bytes an overwrite gives back. -/
def floatingOf : Option Entry → Nat
  | some e => e.length
  | none => 0

/-- File change test of `command_set`, zdbd/commands_set.c:370-373. -/
def jumpIfFull (limit : Nat) (s : Store) (len : Nat) : Store :=
  if fileLen s.dfiles s.dataid + len > limit then jump s else s

/-- `command_set`, zdbd/commands_set.c:292-380. -/
def cmdSet (c : Ctx) (br : Branches) (s : Store) (argv : List Bytes) : Branches × Store × Reply :=
  match argv with
  | [_, key, payload] => body key payload
  | [_, key, payload, _] => if c.admin then body key payload else (br, s, errDenied)
  | _ => (br, s, errArgs)
where
  body (key payload : Bytes) : Branches × Store × Reply :=
    if key.length > 255 then (br, s, .err "Key too large")
    else if !c.writable then (br, s, errReadOnly)
    else if c.conf.isFrozen then (br, s, errFrozen)
    else if c.conf.isLocked then (br, s, errLocked)
    else
      let entry := if key.length ≠ 0 then indexGet br s c.u key else none
      let floating := floatingOf entry
      if entry.isSome && c.conf.worm then (br, s, .err "Namespace is protected by worm mode")
      else if overQuota c.conf s.datasize payload.length floating then
        (br, s, .err "No space left on this namespace")
      else
        let mode := s.mode
        let s := jumpIfFull c.limit s payload.length
        let ts := timestampFromSet c.now argv 3
        match mode with
        | .user => setHandlerUser c br s key payload ts entry
        | .seq => setHandlerSeq c br s key payload ts entry

/-- `command_get_single`, zdbd/commands_get.c:15-57. -/
def getSingle (c : Ctx) (br : Branches) (s : Store) (key : Bytes) : Reply :=
  match indexGet br s c.u key with
  | none => .nil
  | some e =>
    match dataGet s e.offset e.length e.dataid e.id.length with
    | none => .err "Internal Error"
    | some p => .bulk p

/-- Checks shared by GET, EXISTS, CHECK, LENGTH and KEYTIME (zdbd/commands_get.c:62-72,
    zdbd/commands_dataset.c:18-28, 57-67, 187-197, 232-242). -/
def readChecks (c : Ctx) (argv : List Bytes) (k : Bytes → Reply) : Reply :=
  match argsValidate argv 2 with
  | some e => e
  | none =>
    match argv with
    | [_, key] =>
      if key.length > 255 then .err "Invalid key"
      else if c.conf.isFrozen then errFrozen
      else k key
    | _ => errArgs

/-- `command_get`, zdbd/commands_get.c:59-75. -/
def cmdGet (c : Ctx) (br : Branches) (s : Store) (argv : List Bytes) : Reply :=
  readChecks c argv (getSingle c br s)

/-- `command_mget`, zdbd/commands_get.c:77-111. -/
def cmdMget (c : Ctx) (br : Branches) (s : Store) (argv : List Bytes) : Reply :=
  match argv with
  | _ :: k :: ks =>
    if (k :: ks).any (fun k => decide (k.length > 255)) then .err "Invalid key"
    else if c.conf.isFrozen then errFrozen
    else .arr ((k :: ks).map (getSingle c br s))
  | _ => .err "Invalid arguments"

/-- `command_exists`, zdbd/commands_dataset.c:15-52. -/
def cmdExists (c : Ctx) (br : Branches) (s : Store) (argv : List Bytes) : Reply :=
  readChecks c argv fun key =>
    match indexGet br s c.u key with
    | none => .int 0
    | some _ => .int 1

/-- `command_check`, zdbd/commands_dataset.c:54-102. -/
def cmdCheck (c : Ctx) (br : Branches) (s : Store) (argv : List Bytes) : Reply :=
  readChecks c argv fun key =>
    match indexGet br s c.u key with
    | none => .nil
    | some e => .int (dataCheck s e.offset e.dataid)

/-- `command_length`, zdbd/commands_dataset.c:184-227. -/
def cmdLength (c : Ctx) (br : Branches) (s : Store) (argv : List Bytes) : Reply :=
  readChecks c argv fun key =>
    match indexGet br s c.u key with
    | none => .nil
    | some e => .int e.length

/-- `command_keytime`, zdbd/commands_dataset.c:229-272. -/
def cmdKeytime (c : Ctx) (br : Branches) (s : Store) (argv : List Bytes) : Reply :=
  readChecks c argv fun key =>
    match indexGet br s c.u key with
    | none => .nil
    | some e => .int e.timestamp

/-- `command_del`, zdbd/commands_dataset.c:104-182. -/
def cmdDel (c : Ctx) (br : Branches) (s : Store) (argv : List Bytes) : Branches × Store × Reply :=
  match argv with
  | [_, key, _] => if c.admin then body key else (br, s, errDenied)
  | _ =>
    match argsValidate argv 2 with
    | some e => (br, s, e)
    | none =>
      match argv with
      | [_, key] => body key
      | _ => (br, s, errArgs)
where
  body (key : Bytes) : Branches × Store × Reply :=
    if key.length > 255 then (br, s, .err "Invalid key")
    else if !c.writable then (br, s, errReadOnly)
    else if c.conf.isFrozen then (br, s, errFrozen)
    else if c.conf.isLocked then (br, s, errLocked)
    else
      match indexGet br s c.u key with
      | none => (br, s, .err "Key not found")
      | some e =>
        if c.conf.worm then
          (br, s, .err "Cannot delete a key when namespace is in worm mode")
        else
          let ts := timestampFromSet c.now argv 2
          let (s, off) := dataInsert s c.io e.id [] 1 0 ts
          if off = 0 then (br, s, .err "Cannot delete key (data)")
          else
            let (br, s, ok) := indexDelete br s c.u c.io e
            if ok then (br, s, .ok) else (br, s, .err "Cannot delete key (index)")

/-- A buffer printed with `%.*s`: the bytes up to the first NUL. -/
def cstr (b : Bytes) : Bytes := b.takeWhile (· != 0)

/-- `tolower` of the C locale. -/
def lower (b : UInt8) : UInt8 := if 65 ≤ b ∧ b ≤ 90 then b + 32 else b

/-- `strcasecmp(a, b) == 0` for C strings. -/
def strCaseEq (a b : Bytes) : Bool := a.map lower == b.map lower

/-- `command_args_validate_min(client, n)`, zdbd/commands.c:49-65. -/
def argsValidateMin (argv : List Bytes) (n : Nat) : Option Reply :=
  if argv.length < n then some (.err "Missing arguments")
  else if argv.any (·.isEmpty) then some errArg
  else none

/-- `command_args_overflow(client, i, COMMAND_MAXLEN)` followed by `sprintf` of the argument into a buffer of
    `COMMAND_MAXLEN` = 256 bytes (zdbd/commands.c:84-93, zdbd/commands_system.c:246-249): an argument of 256
    bytes is let through and its final NUL is written beyond the buffer. -/
def maxlenArg (b : Bytes) (k : Bytes → Reply) : Reply :=
  if b.length > 256 then .err "Argument too long"
  else if (cstr b).length = 256 then .crash
  else k (cstr b)

/-- What INDEX and DATA do before looking at the subcommand, zdbd/commands_system.c:236-251, 345-358. -/
def subcommand (c : Ctx) (argv : List Bytes) (k : Bytes → Reply) : Reply :=
  if !c.admin then errDenied
  else
    match argsValidateMin argv 2 with
    | some e => e
    | none =>
      match argv with
      | _ :: sub :: _ => maxlenArg sub k
      | _ => errArg

/-- The word `DIRTY`. -/
def wordDirty : Bytes := [68, 73, 82, 84, 89]
/-- The word `RESET`. -/
def wordReset : Bytes := [82, 69, 83, 69, 84]
/-- The word `RAW`. -/
def wordRaw : Bytes := [82, 65, 87]

/-- `command_index` and `command_index_dirty`, zdbd/commands_system.c:186-254: the reply. -/
def replyIndex (c : Ctx) (s : Store) (argv : List Bytes) : Reply :=
  subcommand c argv fun sub =>
    if strCaseEq sub wordDirty then
      match argv with
      | [_, _, w] =>
        maxlenArg w fun w => if strCaseEq w wordReset then .ok else .err "Unknown INDEX DIRTY subcommand"
      | _ => .arr ((dirtyList s.dirty).map (fun (i : Nat) => .int i))
    else .err "Unknown INDEX subcommand"

/-- The same command, the effect: `INDEX DIRTY RESET` clears the map. -/
def cmdIndex (c : Ctx) (s : Store) (argv : List Bytes) : Store × Reply :=
  let r := replyIndex c s argv
  match r with
  | .simple _ => ({ s with dirty := dirtyReset s.dirty }, r)
  | _ => (s, r)

/-- `data_raw_get` and `data_raw_get_real`, libzdb/data.c:325-409. -/
inductive Raw where
  /-- the file cannot be opened: everything is zero -/
  | zero
  | eof
  | unexpected
  | found (h : DHdr) (id payload : Bytes)

def dataRaw (s : Store) (dataid : Nat) (off : Int) : Raw :=
  match s.dfiles[dataid]? with
  | none => .zero
  | some f =>
    if off ≥ f.length then .eof
    else if off < 0 then .unexpected
    else
      let o := off.toNat
      match readExact f o dhdrLen with
      | none => .unexpected
      | some b =>
        let h := decDHdr b
        if h.datalength > 2 ^ 23 then .unexpected
        else
          match readExact f (o + dhdrLen) h.idlength, readExact f (o + dhdrLen + h.idlength) h.datalength with
          | some id, some p => if isDeleted h.flags then .unexpected else .found h id p
          | _, _ => .unexpected

/-- `printf("0x%08x")`. -/
def hex8 (n : Nat) : Bytes :=
  let d := (Nat.toDigits 16 n).map (fun c => UInt8.ofNat c.toNat)
  [48, 120] ++ List.replicate (8 - d.length) 48 ++ d

/-- `command_data` and `command_data_raw`, zdbd/commands_system.c:256-363. -/
def cmdData (c : Ctx) (s : Store) (argv : List Bytes) : Reply :=
  subcommand c argv fun sub =>
    if strCaseEq sub wordRaw then
      match argsValidateMin argv 4 with
      | some e => e
      | none =>
        match argv with
        | _ :: _ :: file :: off :: _ =>
          match dataRaw s (atoll (cstr file) % 2 ^ 32).toNat (atoll (cstr off)) with
          | .zero => .err "Invalid Request"
          | .eof => .err "EOF"
          | .unexpected => .err "Unexpected Internal Error"
          | .found h id p =>
            if h.datalength = 0 then .err "Invalid Request"
            else .arr [.bulk id, .int h.previous, .bulk (hex8 h.integrity), .int h.flags, .int h.timestamp, .bulk p]
        | _ => errArg
    else .err "Unknown DATA subcommand"

/-- `command_dbsize`, zdbd/commands_namespace.c:600-607. -/
def cmdDbsize (s : Store) : Reply := .int s.entries

end Zdb
