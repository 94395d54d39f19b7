/-
The daemon: namespaces, clients and the commands of zdbd/commands.c, commands_namespace.c, commands_auth.c,
commands_system.c, commands_replicate.c; libzdb/namespace.c; the client list of zdbd/redis.c.
-/
import Verif.Model.Engine
namespace Zdb

/-! ### settings, namespaces, clients -/

/-- `zdb_settings_t` and `zdbd_settings_t` as far as commands read them (zdbd/zdbd.c:20-60, 330-490).  No hook
    program is configured.  `protect` needs an admin password (zdbd/zdbd.c:483-486).  The index and data
    directories are assumed not to contain `zdb-index-` or `zdb-data-` in their paths (see `cmdFlush`). -/
structure Settings where
  /-- `mode`, `none` for `ZDB_MODE_MIX` -/
  cfg : Option Mode
  /-- `datasize` -/
  limit : Nat
  /-- `adminpwd`, a C string -/
  adminpwd : Option Bytes
  protect : Bool
  /-- `--maxsize`, applied to the default namespace, 0 if not given -/
  maxsize : Nat
  /-- `zdb_hash_password(salt, password)`, libzdb/security.c:41-66: the hexadecimal SHA-1 of `salt:password`.
      The digest is left abstract. -/
  hash : Bytes → Bytes → Bytes

/-- One `namespace_t` (libzdb/namespace.h) with its files.  `uid` stands for the pointer. -/
structure NsRec where
  uid : Nat
  conf : NsConf
  store : Store
  /-- contents of the file `zdb-namespace` -/
  desc : Bytes

/-- `watching`, `watchtime`, `watchtimeout` of a client: number of the awaited command in the table, time in
    microseconds, timeout in milliseconds. -/
structure Watch where
  cmd : Nat
  since : Nat
  timeout : Nat
deriving DecidableEq, Repr

/-- `redis_client_t`, zdbd/redis.h, without its socket, buffers and pending replies. -/
structure Client where
  ns : Option Nat
  writable : Bool
  admin : Bool
  master : Bool
  mirror : Bool
  nonce : Option Bytes
  /-- number in the table of the last command executed -/
  executed : Option Nat
  watching : Option Watch
deriving DecidableEq, Repr

/-- The memory and the files of the process: `nsroot` (libzdb/namespace.c:24) and `clients` (zdbd/redis.c). -/
structure Node where
  br : Branches
  /-- `nsroot->namespaces` -/
  slots : List (Option NsRec)
  /-- `nsroot->effective` -/
  effective : Nat
  /-- `clients.list`, indexed by file descriptor -/
  clients : List (Option Client)

/-- `namespace_iter` and `namespace_iter_next`, libzdb/namespace.c:35-46: nothing is found if slot 0 is empty. -/
def nsIter : List (Option NsRec) → List NsRec
  | some r :: l => r :: l.filterMap id
  | _ => []

/-- `namespace_get`, libzdb/namespace.c:57-66. -/
def nsGet (n : Node) (name : Bytes) : Option NsRec := (nsIter n.slots).find? (fun r => r.conf.name == name)

/-- Following a `namespace_t` pointer; `none` is a dangling one. -/
def nsDeref (n : Node) (u : Nat) : Option NsRec := (n.slots.filterMap id).find? (fun r => r.uid == u)

/-- Writing through a `namespace_t` pointer. -/
def nsUpdate (n : Node) (u : Nat) (f : NsRec → NsRec) : Node :=
  { n with slots := n.slots.map (Option.map (fun r => if r.uid == u then f r else r)) }

/-- `namespace_push`, libzdb/namespace.c:293-331: the first empty slot, or a new one. -/
def pushSlot (r : NsRec) : List (Option NsRec) → List (Option NsRec)
  | [] => [some r]
  | none :: l => some r :: l
  | some x :: l => some x :: pushSlot r l

/-- `namespace_kick_slot`, libzdb/namespace.c:540-548. -/
def kickSlot (u : Nat) : List (Option NsRec) → List (Option NsRec)
  | [] => []
  | none :: l => none :: kickSlot u l
  | some r :: l => if r.uid == u then none :: l else some r :: kickSlot u l

/-- `clients.list[fd]`. -/
def getClient (n : Node) (fd : Nat) : Option Client := (n.clients[fd]?).join

/-- Storing into `clients.list[fd]`, growing the list if needed (zdbd/redis.c:835-850). -/
def putClient (n : Node) (fd : Nat) (c : Option Client) : Node :=
  { n with clients := (n.clients ++ List.replicate (fd + 1 - n.clients.length) none).set fd c }

/-! ### messages -/

/-- What NSINFO prints, zdbd/commands_namespace.c:262-372, without floating point and statistics lines. -/
structure Info where
  name : Bytes
  entries : Nat
  isPublic : Bool
  worm : Bool
  locked : Bool
  password : Bool
  datasize : Nat
  maxsize : Nat
  nextentry : Nat
  mode : Mode
  /-- `space_available` -/
  available : Option Nat
  /-- `password_raw`, sent to master clients only -/
  passwordRaw : Option Bytes
  /-- `data_current_id` and `data_current_offset`, sent to admins only -/
  position : Option (Nat × Nat)

/-- What a client receives. -/
inductive Msg where
  | reply (r : Reply)
  /-- an array header announcing `n` elements, followed by the elements `l` -/
  | stream (n : Nat) (l : List Reply)
  | nsinfo (i : Info)
  /-- the text of INFO, not modelled -/
  | server
  /-- `+` and a challenge -/
  | challenge (nonce : Bytes)
  /-- the notification of WAIT: `+` and a command name -/
  | notice (cmd : Bytes)
  /-- a request forwarded to a mirror, contents not modelled -/
  | mirrored

def errMsg (s : String) : Option Msg := some (.reply (.err s))

/-- `resp_status_t` as far as the event loop acts on it. -/
inductive Status where
  | keep
  /-- `RESP_STATUS_DISCARD`: the client is disconnected -/
  | discard
  /-- `RESP_STATUS_SHUTDOWN`: the process stops -/
  | shutdown
deriving DecidableEq, Repr

/-- Result of a handler run by a client. -/
inductive Out where
  | done (n : Node) (c : Client) (m : Option Msg) (st : Status)
  /-- the process exits on an error -/
  | exit
  /-- undefined behaviour -/
  | crash
  /-- a situation that is not modelled -/
  | outside

/-- What a request finds outside the process. -/
structure Env where
  /-- `gettimeofday` in microseconds -/
  us : Nat
  io : Io
  slice : Nat
  /-- what `zdb_challenge` returns, libzdb/security.c:15-35 -/
  nonce : Bytes
  /-- address `malloc` returns for a new namespace -/
  uid : Nat
  /-- `request->owner`, which is not initialised for clients other than masters (zdbd/redis.c:605-613) -/
  owner : Nat

/-- `time(NULL)`. -/
def Env.now (e : Env) : Nat := e.us / 1000000

/-! ### names -/

/-- `default` -/
def nameDefault : Bytes := [100, 101, 102, 97, 117, 108, 116]
/-- `.lockfile`, libzdb/bootstrap.c:127-132 -/
def nameLockfile : Bytes := [46, 108, 111, 99, 107, 102, 105, 108, 101]
/-- `SECURE` -/
def wordSecure : Bytes := [83, 69, 67, 85, 82, 69]
/-- `CHALLENGE` -/
def wordChallenge : Bytes := [67, 72, 65, 76, 76, 69, 78, 71, 69]
/-- `zdb-index-` -/
def wordZdbIndex : Bytes := [122, 100, 98, 45, 105, 110, 100, 101, 120, 45]
/-- `zdb-data-` -/
def wordZdbData : Bytes := [122, 100, 98, 45, 100, 97, 116, 97, 45]
/-- `*` -/
def wordStar : Bytes := [42]

/-- `strncasecmp(key, word, length of key) == 0` where `word` is a C string without its final NUL: the
    comparison stops at the end of the key, and after a NUL found in both. -/
def strnCaseEq : Bytes → Bytes → Bool
  | [], _ => true
  | a :: _, [] => a == 0
  | a :: as, b :: bs => lower a == lower b && strnCaseEq as bs

/-- `namespace_valid_name`, libzdb/namespace.c:370-383. -/
def validName (name : Bytes) : Bool :=
  !(name == [46] || name == [46, 46] || name.contains 47 || name == nameDefault)

/-- `command_args_namespace(client, 1)` and the copy into `target`, zdbd/commands.c:96-107. -/
def nsArg (argv : List Bytes) : Except String Bytes :=
  match argv[1]? with
  | none => .error "Invalid argument"
  | some a => if a.length > 128 then .error "Namespace too long" else .ok (cstr a)

/-! ### the descriptor file -/

/-- `ns_header_t`, libzdb/namespace.h:32-39. -/
structure DescHeader where
  version : Nat
  namelength : Nat
  passlength : Nat
  maxsize : Nat
  flags : Nat
deriving DecidableEq, Repr

def descLen : Nat := 15

def encDescHeader (h : DescHeader) : Bytes :=
  toLE 4 h.version ++ toLE 1 h.namelength ++ toLE 1 h.passlength ++ toLE 8 h.maxsize ++ toLE 1 h.flags

def decDescHeader (b : Bytes) : DescHeader where
  version := fromLE (b.take 4)
  namelength := fromLE ((b.drop 4).take 1)
  passlength := fromLE ((b.drop 5).take 1)
  maxsize := fromLE ((b.drop 6).take 8)
  flags := fromLE ((b.drop 14).take 1)

/-- The bytes written by `namespace_descriptor_update`, libzdb/namespace.c:69-98: header, name, password.  The
    two lengths are stored in one byte, and that byte counts how much is written. -/
def encDesc (c : NsConf) : Bytes :=
  let pass := c.password.getD []
  encDescHeader { version := 1, namelength := c.name.length, passlength := pass.length, maxsize := c.maxsize
                  flags := 4 + (if c.isPublic then 1 else 0) + (if c.worm then 2 else 0) }
    ++ c.name.take (c.name.length % 256) ++ pass.take (pass.length % 256)

/-- `namespace_commit`, libzdb/namespace.c:171-188: the file is overwritten from its start and not truncated. -/
def commitNs (r : NsRec) : NsRec := { r with desc := pwrite r.desc 0 (encDesc r.conf) }

/-- Settings before the descriptor is read, libzdb/namespace.c:236-259. -/
def defaultConf (name : Bytes) : NsConf :=
  { name := name, password := none, isPublic := true, worm := false, maxsize := 0, lock := .unlocked }

/-- `namespace_descriptor_load`, libzdb/namespace.c:116-157: the settings and the file afterwards, `none` if the
    version is not supported.  A file shorter than the header is taken for a new one and the descriptor is
    written behind what was read. -/
def loadDesc (name desc : Bytes) : Option (NsConf × Bytes) :=
  let c := defaultConf name
  if desc.length < descLen then some (c, desc ++ encDesc c)
  else
    let h := decDescHeader desc
    if h.version ≠ 1 then none
    else
      let pass := if h.passlength = 0 then none
        else some (cstr ((desc.drop (descLen + h.namelength)).take h.passlength))
      some ({ c with password := pass, maxsize := h.maxsize, isPublic := h.flags % 2 == 1
                     worm := h.flags / 2 % 2 == 1 }, desc)

/-! ### handlers -/

/-- The table `commands_handlers`, zdbd/commands.c:111-158. -/
inductive Handler where
  | asterisk | wait | mirror | master
  | ping | time | auth | hooks
  | ds (d : DsCmd)
  | info | stop
  | nsnew | nsdel | nslist | nsset | nsinfo | select | reload | flush
deriving DecidableEq, Repr

def handlers : List (Bytes × Handler) :=
  [
    (/- * -/ [42], .asterisk),
    (/- WAIT -/ [87, 65, 73, 84], .wait),
    (/- MIRROR -/ [77, 73, 82, 82, 79, 82], .mirror),
    (/- MASTER -/ [77, 65, 83, 84, 69, 82], .master),
    (/- PING -/ [80, 73, 78, 71], .ping),
    (/- TIME -/ [84, 73, 77, 69], .time),
    (/- AUTH -/ [65, 85, 84, 72], .auth),
    (/- HOOKS -/ [72, 79, 79, 75, 83], .hooks),
    (/- INDEX -/ [73, 78, 68, 69, 88], .ds .index),
    (/- DATA -/ [68, 65, 84, 65], .ds .data),
    (/- SET -/ [83, 69, 84], .ds .set),
    (/- SETX -/ [83, 69, 84, 88], .ds .set),
    (/- GET -/ [71, 69, 84], .ds .get),
    (/- MGET -/ [77, 71, 69, 84], .ds .mget),
    (/- DEL -/ [68, 69, 76], .ds .del),
    (/- EXISTS -/ [69, 88, 73, 83, 84, 83], .ds .«exists»),
    (/- CHECK -/ [67, 72, 69, 67, 75], .ds .check),
    (/- SCAN -/ [83, 67, 65, 78], .ds .scan),
    (/- SCANX -/ [83, 67, 65, 78, 88], .ds .scan),
    (/- RSCAN -/ [82, 83, 67, 65, 78], .ds .rscan),
    (/- KSCAN -/ [75, 83, 67, 65, 78], .ds .kscan),
    (/- HISTORY -/ [72, 73, 83, 84, 79, 82, 89], .ds .history),
    (/- KEYCUR -/ [75, 69, 89, 67, 85, 82], .ds .keycur),
    (/- LENGTH -/ [76, 69, 78, 71, 84, 72], .ds .length),
    (/- KEYTIME -/ [75, 69, 89, 84, 73, 77, 69], .ds .keytime),
    (/- INFO -/ [73, 78, 70, 79], .info),
    (/- STOP -/ [83, 84, 79, 80], .stop),
    (/- DBSIZE -/ [68, 66, 83, 73, 90, 69], .ds .dbsize),
    (/- NSNEW -/ [78, 83, 78, 69, 87], .nsnew),
    (/- NSDEL -/ [78, 83, 68, 69, 76], .nsdel),
    (/- NSLIST -/ [78, 83, 76, 73, 83, 84], .nslist),
    (/- NSSET -/ [78, 83, 83, 69, 84], .nsset),
    (/- NSINFO -/ [78, 83, 73, 78, 70, 79], .nsinfo),
    (/- NSJUMP -/ [78, 83, 74, 85, 77, 80], .ds .nsjump),
    (/- SELECT -/ [83, 69, 76, 69, 67, 84], .select),
    (/- RELOAD -/ [82, 69, 76, 79, 65, 68], .reload),
    (/- FLUSH -/ [70, 76, 85, 83, 72], .flush) ]

/-- The loop of `redis_dispatcher` and of `command_wait`, zdbd/commands.c:184-195, 220-225: number of the first
    command of the table matching the word. -/
def lookupCmd (key : Bytes) : Option Nat := handlers.findIdx? (fun h => strnCaseEq key h.1)

/-- The name printed for an entry of the table. -/
def cmdName (i : Nat) : Bytes := ((handlers[i]?).map (·.1)).getD []

/-- `zdbd_password_check`, zdbd/auth.c:10-21. -/
def passwordCheck (input expected : Bytes) : Bool := cstr input == expected

/-- Replying without any other effect. -/
def say (n : Node) (c : Client) (m : Option Msg) : Out := .done n c m .keep

def sayErr (n : Node) (c : Client) (s : String) : Out := say n c (errMsg s)

def sayOk (n : Node) (c : Client) : Out := say n c (some (.reply .ok))

/-- `command_nsnew`, zdbd/commands_namespace.c:18-57, and `namespace_create`, libzdb/namespace.c:350-368.  The
    directory of the new namespace does not exist.  A name that is empty once cut at its first NUL gives a
    namespace living in the root directories themselves: not modelled. -/
def cmdNsnew (S : Settings) (e : Env) (n : Node) (c : Client) (argv : List Bytes) : Out :=
  if !c.admin then say n c (some (.reply errDenied))
  else
    match argsValidate argv 2 with
    | some r => say n c (some (.reply r))
    | none =>
      match nsArg argv with
      | .error s => sayErr n c s
      | .ok name =>
        if !validName name then sayErr n c "This name is not allowed"
        else if (nsGet n name).isSome then sayErr n c "This namespace is not available"
        else if name == nameLockfile then sayErr n c "Could not create namespace"
        else if name.isEmpty then .outside
        else
          let conf := defaultConf name
          match freshNs S.cfg n.br e.uid with
          | .ok br s =>
            sayOk { n with br := br, effective := n.effective + 1
                           slots := pushSlot { uid := e.uid, conf := conf, store := s, desc := encDesc conf } n.slots } c
          | .exit => .exit
          | .ub => .crash

/-- `redis_detach_clients`, zdbd/redis.c:945-957. -/
def detach (u : Nat) (l : List (Option Client)) : List (Option Client) :=
  l.map (Option.map (fun c => if c.ns = some u then { c with ns := none } else c))

/-- `index_clean_namespace`, libzdb/index.c:715-771: nothing is done in a mode without branches. -/
def cleanNs (br : Branches) (r : NsRec) : Branches :=
  match r.store.mode with
  | .user => brClean br r.uid
  | .seq => br

/-- `command_nsdel`, zdbd/commands_namespace.c:61-107, and `namespace_delete`, libzdb/namespace.c:668-696. -/
def cmdNsdel (n : Node) (c : Client) (argv : List Bytes) : Out :=
  if !c.admin then say n c (some (.reply errDenied))
  else
    match argsValidate argv 2 with
    | some r => say n c (some (.reply r))
    | none =>
      match nsArg argv with
      | .error s => sayErr n c s
      | .ok name =>
        if name == nameDefault then sayErr n c "Cannot remove default namespace"
        else
          match nsGet n name with
          | none => sayErr n c "This namespace doesn't exists"
          | some r =>
            if c.ns = some r.uid then sayErr n c "Cannot remove namespace you're currently using."
            else
              sayOk { n with br := cleanNs n.br r, slots := kickSlot r.uid n.slots, effective := n.effective - 1
                             clients := detach r.uid n.clients } c

/-- Access given by SELECT to a namespace that has a password, zdbd/commands_namespace.c:136-220: writable or
    not, or an error. -/
def selectAccess (S : Settings) (c : Client) (conf : NsConf) (pwd : Bytes) (argv : List Bytes) : Except String Bool :=
  match argv with
  | [_, _] => if conf.isPublic then .ok false else .error "Namespace protected and private"
  | [_, _, p] =>
    if p.length > 255 then .error "Password too long"
    else if cstr p == pwd then .ok true
    else .error "Access denied"
  | [_, _, w, h] =>
    if !strnCaseEq w wordSecure then .error "Only SECURE extra method supported"
    else
      match c.nonce with
      | none => .error "No CHALLENGE requested, secure authentication not available"
      | some nonce =>
        if h.length ≠ 40 then .error "Invalid hash length"
        else if passwordCheck h (S.hash nonce pwd) then .ok true
        else .error "Access denied"
  | _ => .error "Too many arguments"

/-- The same for any namespace. -/
def accessOf (S : Settings) (c : Client) (conf : NsConf) (argv : List Bytes) : Except String Bool :=
  match conf.password with
  | none => .ok true
  | some pwd => selectAccess S c conf pwd argv

/-- `command_select`, zdbd/commands_namespace.c:112-231. -/
def cmdSelect (S : Settings) (n : Node) (c : Client) (argv : List Bytes) : Out :=
  match nsArg argv with
  | .error s => sayErr n c s
  | .ok name =>
    match nsGet n name with
    | none => sayErr n c "Namespace not found"
    | some r =>
      match accessOf S c r.conf argv with
      | .error s => sayErr n c s
      | .ok w => sayOk n { c with ns := some r.uid, writable := w }

/-- `command_nslist`, zdbd/commands_namespace.c:235-252. -/
def cmdNslist (n : Node) (c : Client) : Out :=
  say n c (some (.stream n.effective ((nsIter n.slots).map (fun r => .bulk r.conf.name))))

/-- The text of `command_nsinfo`, zdbd/commands_namespace.c:285-360. -/
def infoOf (c : Client) (r : NsRec) : Info where
  name := r.conf.name
  entries := r.store.entries
  isPublic := r.conf.isPublic
  worm := r.conf.worm
  locked := r.conf.isLocked
  password := r.conf.password.isSome
  datasize := r.store.datasize
  maxsize := r.conf.maxsize
  nextentry := r.store.nextentry
  mode := r.store.mode
  available := if r.conf.maxsize > 0 then some ((r.conf.maxsize + 2 ^ 64 - r.store.datasize % 2 ^ 64) % 2 ^ 64) else none
  passwordRaw := if c.master then r.conf.password else none
  position := if c.admin then some (r.store.dataid, fileLen r.store.dfiles r.store.dataid) else none

/-- `command_nsinfo`, zdbd/commands_namespace.c:256-375. -/
def cmdNsinfo (n : Node) (c : Client) (argv : List Bytes) : Out :=
  match argsValidate argv 2 with
  | some r => say n c (some (.reply r))
  | none =>
    match nsArg argv with
    | .error s => sayErr n c s
    | .ok name =>
      match nsGet n name with
      | none => sayErr n c "Namespace not found"
      | some r => say n c (some (.nsinfo (infoOf c r)))

/-- `namespace_is_fresh`, libzdb/namespace.c:559-576. -/
def isFresh (s : Store) : Bool := s.nextentry == 0 && s.nextid == 0 && s.indexid == 0

/-- `command_nsset_mode`, zdbd/commands_namespace.c:418-458: `index_switch_mode` and `index_rehash`. -/
def setMode (s : Store) (m : Mode) : Store := rehash (switchMode { s with mode := m })

/-- The property changes of `command_nsset`, zdbd/commands_namespace.c:378-558: the namespace afterwards, or an
    error. -/
def nsProperty (S : Settings) (r : NsRec) (target prop value : Bytes) : Except String NsRec :=
  let on := value.head? == some 49
  if prop == /- mode -/ [109, 111, 100, 101] then
    if S.cfg.isSome then .error "This server instance is configured to use a single runtime mode"
    else if !isFresh r.store then .error "Cannot change mode of used namespace"
    else if value == /- user -/ [117, 115, 101, 114] then .ok { r with store := setMode r.store .user }
    else if value == /- seq -/ [115, 101, 113] then .ok { r with store := setMode r.store .seq }
    else .error "Invalid property value (expected: user, seq)"
  else if prop == /- lock -/ [108, 111, 99, 107] then
    .ok { r with conf := { r.conf with lock := if on then .locked else .unlocked } }
  else if prop == /- freeze -/ [102, 114, 101, 101, 122, 101] then
    .ok { r with conf := { r.conf with lock := if on then .frozen else .unlocked } }
  else if target == nameDefault then .error "Cannot update default namespace"
  else if prop == /- maxsize -/ [109, 97, 120, 115, 105, 122, 101] then
    .ok { r with conf := { r.conf with maxsize := (atoll value % 2 ^ 64).toNat } }
  else if prop == /- password -/ [112, 97, 115, 115, 119, 111, 114, 100] then
    .ok { r with conf := { r.conf with password := if value == wordStar then none else some value } }
  else if prop == /- public -/ [112, 117, 98, 108, 105, 99] then
    .ok { r with conf := { r.conf with isPublic := on } }
  else if prop == /- worm -/ [119, 111, 114, 109] then
    .ok { r with conf := { r.conf with worm := on } }
  else .error "Invalid property"

/-- `command_nsset`, zdbd/commands_namespace.c:487-583.  A property of 256 bytes overflows its buffer. -/
def cmdNsset (S : Settings) (n : Node) (c : Client) (argv : List Bytes) : Out :=
  if !c.admin then say n c (some (.reply errDenied))
  else
    match argsValidate argv 4 with
    | some r => say n c (some (.reply r))
    | none =>
      match nsArg argv with
      | .error s => sayErr n c s
      | .ok target =>
        match argv with
        | [_, _, prop, value] =>
          if prop.length > 256 then sayErr n c "Argument too long"
          else if value.length > 63 then sayErr n c "Argument too long"
          else if (cstr prop).length = 256 then .crash
          else
            match nsGet n target with
            | none => sayErr n c "Namespace not found"
            | some r =>
              match nsProperty S r target (cstr prop) (cstr value) with
              | .error s => sayErr n c s
              | .ok r' => sayOk (nsUpdate n r.uid (fun _ => commitNs r')) c
        | _ => say n c (some (.reply errArgs))

/-- `namespace_reload`, libzdb/namespace.c:605-622, of a namespace of the table. -/
def reloadRec (S : Settings) (n : Node) (c : Client) (r : NsRec) : Out :=
  match reloadNs S.cfg n.br r.uid r.store with
  | .ok br s => sayOk (nsUpdate { n with br := br } r.uid (fun r => { r with store := s })) c
  | .exit => .exit
  | .ub => .crash

/-- `command_reload`, zdbd/commands_namespace.c:609-643. -/
def cmdReload (S : Settings) (n : Node) (c : Client) (argv : List Bytes) : Out :=
  if !c.admin then say n c (some (.reply errDenied))
  else
    match argsValidate argv 2 with
    | some r => say n c (some (.reply r))
    | none =>
      match nsArg argv with
      | .error s => sayErr n c s
      | .ok name =>
        match nsGet n name with
        | none => sayErr n c "Namespace not found"
        | some r => reloadRec S n c r

/-- `strstr(l, pat) != NULL`. -/
def hasInfix (pat : Bytes) : Bytes → Bool
  | [] => pat.isEmpty
  | b :: l => pat.isPrefixOf (b :: l) || hasInfix pat l

/-- `command_flush`, zdbd/commands_namespace.c:645-661, and `namespace_flush`, libzdb/namespace.c:629-656.
    `dir_clean_cb` (libzdb/filesystem.c:73-91) unlinks the files whose path has `zdb-data-` or `zdb-index-` at a
    fixed distance from its end; index and data files have not been named like that since version 2, so no file
    is removed, unless the namespace itself has such a name, which is not modelled. -/
def cmdFlush (S : Settings) (n : Node) (c : Client) (r : NsRec) : Out :=
  if r.conf.isPublic || r.conf.password.isNone then sayErr n c "Flushing public namespace denied"
  else if hasInfix wordZdbIndex r.conf.name || hasInfix wordZdbData r.conf.name then .outside
  else reloadRec S n c r

/-- `command_auth_secure` and `command_auth_challenge`, zdbd/commands_auth.c:17-39, 76-143. -/
def cmdAuthSecure (S : Settings) (e : Env) (n : Node) (c : Client) (argv : List Bytes) : Out :=
  match argsValidate argv 3 with
  | some r => say n c (some (.reply r))
  | none =>
    match argv with
    | [_, w, h] =>
      if !strnCaseEq w wordSecure then sayErr n c "Only SECURE extra method supported"
      else if strnCaseEq h wordChallenge then
        say n { c with nonce := some e.nonce } (some (.challenge e.nonce))
      else
        match S.adminpwd with
        | none => sayErr n c "Authentication disabled"
        | some pwd =>
          match c.nonce with
          | none => sayErr n c "No CHALLENGE requested, secure authentication not available"
          | some nonce =>
            if h.length ≠ 40 then sayErr n c "Invalid hash length"
            else if passwordCheck h (S.hash nonce pwd) then sayOk n { c with admin := true, nonce := none }
            else sayErr n { c with nonce := none } "Access denied"
    | _ => say n c (some (.reply errArgs))

/-- `command_auth_regular`, zdbd/commands_auth.c:42-73. -/
def cmdAuthRegular (S : Settings) (n : Node) (c : Client) (argv : List Bytes) : Out :=
  match S.adminpwd with
  | none => sayErr n c "Authentication disabled"
  | some pwd =>
    match argsValidate argv 2 with
    | some r => say n c (some (.reply r))
    | none =>
      match argv with
      | [_, p] =>
        if p.length > 128 then sayErr n c "Password too long"
        else if passwordCheck p pwd then sayOk n { c with admin := true }
        else sayErr n c "Access denied"
      | _ => say n c (some (.reply errArgs))

/-- `command_auth`, zdbd/commands_auth.c:145-158. -/
def cmdAuth (S : Settings) (e : Env) (n : Node) (c : Client) (argv : List Bytes) : Out :=
  if argv.length = 2 then cmdAuthRegular S n c argv
  else if argv.length = 3 then cmdAuthSecure S e n c argv
  else say n c (some (.reply errArgs))

/-- `command_wait`, zdbd/commands.c:208-258.  Nothing is sent until the watch ends. -/
def cmdWait (e : Env) (n : Node) (c : Client) (argv : List Bytes) : Out :=
  let watch (key : Bytes) (timeout : Option Nat) : Out :=
    match lookupCmd key with
    | none => sayErr n c "Unknown command to watch"
    | some i =>
      match timeout with
      | none => sayErr n c "Invalid timeout"
      | some t =>
        if t < 100 ∨ t > 1800000 then sayErr n c "Invalid timeout"
        else say n { c with watching := some { cmd := i, since := e.us, timeout := t } } none
  match argv with
  | [_, key] => watch key (some 5000)
  | [_, key, t] => watch key (if t.length > 16 then none else some ((atoll (cstr t) % 2 ^ 64).toNat))
  | _ => sayErr n c "Invalid arguments"

/-- The context of a dataset handler. -/
def ctxOf (S : Settings) (e : Env) (c : Client) (r : NsRec) : Ctx :=
  { limit := S.limit, now := e.now, u := r.uid, conf := r.conf, admin := c.admin, writable := c.writable
    io := e.io, slice := e.slice }

/-- The keys a command hands to `index_get`, once its checks have passed: zdbd/commands_set.c:302-340,
    zdbd/commands_get.c:19, 62-72, 85-104, zdbd/commands_dataset.c:18-30, 57-69, 107-139, 187-199, 232-244,
    zdbd/commands_scan.c:338-349, zdbd/commands_history.c:145-175. -/
def lookedUp (c : Ctx) (d : DsCmd) (argv : List Bytes) : List Bytes :=
  let read := match argsValidate argv 2, argv with
    | none, [_, key] => if key.length > 255 ∨ c.conf.isFrozen then [] else [key]
    | _, _ => []
  let write (key : Bytes) := if key.length > 255 ∨ !c.writable ∨ c.conf.isFrozen ∨ c.conf.isLocked then [] else [key]
  match d with
  | .get | .exists | .check | .length | .keytime => read
  | .mget =>
    match argv with
    | _ :: ks => if ks.any (fun k => decide (k.length > 255)) ∨ c.conf.isFrozen then [] else ks
    | _ => []
  | .set =>
    match argv with
    | [_, key, _] => write key
    | [_, key, _, _] => if c.admin then write key else []
    | _ => []
  | .del =>
    match argsValidate argv 2, argv with
    | _, [_, key, _] => if c.admin then write key else []
    | none, [_, key] => write key
    | _, _ => []
  | .keycur =>
    match argsValidate argv 2, argv with
    | none, [_, key] => if c.conf.isFrozen then [] else [key8 key]
    | _, _ => []
  | .history =>
    match argv with
    | [_, key] => if c.conf.isFrozen then [] else [key8 key]
    | _ => []
  | _ => []

/-- `index_get_handler_sequential` copies the id of the item it read, as long as the item tells, out of a buffer with
    room for 8 bytes (libzdb/index_get.c:37-42); `redis_set_handler_sequential` then copies it over an 8-byte variable
    (zdbd/commands_set.c:189-198). -/
def seqOverrun (s : Store) (id : Bytes) : Bool :=
  match s.mode, s.seqmap with
  | .seq, some m =>
    if id.length ≠ 8 then false
    else
      match seqSearch m (fromLE id) with
      | none => false
      | some (sid, fid) =>
        match itemGetDisk s fid (seqOffset (seqRelative (fromLE id) sid % 2 ^ 32) % 2 ^ 32) 8 with
        | none => false
        | some it => decide (8 < it.idlength)
  | _, _ => false

/-- Handlers working on the namespace of the client. -/
def cmdDs (S : Settings) (e : Env) (n : Node) (c : Client) (r : NsRec) (d : DsCmd) (argv : List Bytes) : Out :=
  if (lookedUp (ctxOf S e c r) d argv).any (seqOverrun r.store) then .crash
  else
    match dsCommand (ctxOf S e c r) n.br r.store d argv with
    | (_, _, .crash) => .crash
    | (br, s, rep) =>
      say (nsUpdate { n with br := br } r.uid (fun r => { r with store := s })) c (some (.reply rep))

/-- Running a handler for a client whose namespace is `r`.  STOP as in a debug build
    (zdbd/commands_system.c:51-59); HOOKS as without a hook program (123-184). -/
def runHandler (S : Settings) (e : Env) (n : Node) (c : Client) (r : NsRec) (h : Handler) (argv : List Bytes) : Out :=
  match h with
  | .asterisk => sayErr n c "This is not a valid command"
  | .wait => cmdWait e n c argv
  | .mirror =>
    if c.admin then say n { c with mirror := true } (some (.reply (.simple "Starting mirroring")))
    else say n c (some (.reply errDenied))
  | .master =>
    if c.admin then say n { c with master := true } (some (.reply (.simple "Hello, master")))
    else say n c (some (.reply errDenied))
  | .ping => say n c (some (.reply (.simple "PONG")))
  | .time => say n c (some (.reply (.arr [.bulk (decBytes e.now), .bulk (decBytes (e.us % 1000000))])))
  | .auth => cmdAuth S e n c argv
  | .hooks =>
    if c.admin then say n c (some (.stream 0 []))
    else say n c (some (.reply errDenied))
  | .ds d => cmdDs S e n c r d argv
  | .info => say n c (some .server)
  | .stop => .done n c (some (.reply (.simple "Stopping"))) .shutdown
  | .nsnew => cmdNsnew S e n c argv
  | .nsdel => cmdNsdel n c argv
  | .nslist => cmdNslist n c
  | .nsset => cmdNsset S n c argv
  | .nsinfo => cmdNsinfo n c argv
  | .select => cmdSelect S n c argv
  | .reload => cmdReload S n c argv
  | .flush => cmdFlush S n c r

/-- `redis_dispatcher`, zdbd/commands.c:160-205.  An empty list is what is left of the single argument of a master
    client: the memory was just freed. -/
def dispatch (S : Settings) (e : Env) (n : Node) (c : Client) (argv : List Bytes) : Out :=
  match c.ns with
  | none =>
    .done n c (errMsg "Your active namespace is not available anymore (probably removed).") .discard
  | some u =>
    match argv with
    | [] => .crash
    | key :: _ =>
      match lookupCmd key with
      | none => sayErr n { c with executed := none } "Command not supported"
      | some i =>
        match nsDeref n u, handlers[i]? with
        | some r, some h => runHandler S e n { c with executed := some i } r h.2 argv
        | _, _ => .crash

/-! ### waiting clients -/

/-- What `redis_posthandler_client` does to another client, zdbd/redis.c:1143-1174: the client afterwards and what
    it is sent. -/
def notifyOne (e : Env) (ns : Option Nat) (exec : Nat) (k : Client) : Client × Option Msg :=
  if k.mirror then (k, if e.owner = 0 then none else some .mirrored)
  else
    match k.watching with
    | none => (k, none)
    | some w =>
      if k.ns = ns ∧ (w.cmd = exec ∨ w.cmd = 0) then ({ k with watching := none }, some (.notice (cmdName exec)))
      else (k, none)

/-- The loop of `redis_posthandler_client` over the other clients, from number `i` on. -/
def notifyAll (e : Env) (me : Nat) (ns : Option Nat) (exec : Nat) :
    Nat → List (Option Client) → List (Option Client) × List (Nat × Msg)
  | _, [] => ([], [])
  | i, none :: l => let (l, ms) := notifyAll e me ns exec (i + 1) l; (none :: l, ms)
  | i, some k :: l =>
    let (l, ms) := notifyAll e me ns exec (i + 1) l
    if i = me then (some k :: l, ms)
    else
      match notifyOne e ns exec k with
      | (k, none) => (some k :: l, ms)
      | (k, some m) => (some k :: l, (i, m) :: ms)

/-- `timeval_delta_ms`, zdbd/redis.c:1052-1057, on times in microseconds. -/
def deltaMs (a b : Nat) : Nat :=
  ((((b / 1000000 : Nat) - (a / 1000000 : Nat) : Int) * 1000
    + ((b % 1000000 : Nat) - (a % 1000000 : Nat) : Int).tdiv 1000) % 2 ^ 64).toNat

/-- The loop of `redis_watch_timeout`, zdbd/redis.c:1059-1089. -/
def timeoutAll (us : Nat) : Nat → List (Option Client) → List (Option Client) × List (Nat × Msg)
  | _, [] => ([], [])
  | i, k :: l =>
    let (l, ms) := timeoutAll us (i + 1) l
    match k with
    | some c =>
      match c.watching with
      | some w =>
        if deltaMs w.since us > w.timeout then
          (some { c with watching := none } :: l, (i, .reply (.err "Timeout")) :: ms)
        else (k :: l, ms)
      | none => (k :: l, ms)
    | none => (k :: l, ms)

/-! ### starting the process -/

/-- One directory found at startup: name and files of a namespace.  `uid` is the address it will get. -/
structure Dir where
  uid : Nat
  name : Bytes
  ifiles : List Bytes
  dfiles : List Bytes
  desc : Bytes

def NsRec.dir (r : NsRec) : Dir :=
  { uid := r.uid, name := r.conf.name, ifiles := r.store.ifiles, dfiles := r.store.dfiles, desc := r.desc }

/-- Result of loading directories. -/
inductive BootRes where
  | ok (br : Branches) (l : List NsRec)
  | exit
  | ub

/-- The loop of `namespace_scanload`, libzdb/namespace.c:388-424; a namespace whose descriptor is refused is
    skipped.  The order is that of `readdir`. -/
def loadDirs (S : Settings) : Branches → List Dir → BootRes
  | br, [] => .ok br []
  | br, d :: ds =>
    match loadDesc d.name d.desc with
    | none => loadDirs S br ds
    | some (conf, desc) =>
      match loadNs S.cfg br d.uid d.ifiles d.dfiles with
      | .ok br s =>
        match loadDirs S br ds with
        | .ok br l => .ok br ({ uid := d.uid, conf := conf, store := s, desc := desc } :: l)
        | r => r
      | .exit => .exit
      | .ub => .ub

/-- Startup settings of the default namespace, zdbd/zdbd.c:242-252. -/
def startConf (S : Settings) (c : NsConf) : NsConf :=
  { c with password := if S.protect then S.adminpwd else c.password
           maxsize := if S.maxsize ≠ 0 then S.maxsize else c.maxsize }

/-- `namespaces_init`, libzdb/namespace.c:481-501, and the start of the daemon.  `d` is the directory of the
    default namespace, `ds` the other ones. -/
def boot (S : Settings) (d : Dir) (ds : List Dir) : Option Node :=
  match loadDesc d.name d.desc with
  | none => none
  | some _ =>
    match loadDirs S (fun _ => []) (d :: ds) with
    | .ok br (r :: l) =>
      some { br := br, slots := some { r with conf := startConf S r.conf } :: l.map some
             effective := l.length + 1, clients := [] }
    | _ => none

/-- `socket_client_new`, zdbd/redis.c:832-912. -/
def newClient (S : Settings) (n : Node) : Client :=
  { ns := match n.slots with
      | some r :: _ => some r.uid
      | _ => none
    writable := !S.protect, admin := S.adminpwd.isNone, master := false, mirror := false, nonce := none
    executed := none, watching := none }

/-! ### events -/

inductive Event where
  | connect (fd : Nat)
  | disconnect (fd : Nat)
  | request (fd : Nat) (e : Env) (argv : List Bytes)
  /-- `redis_watch_timeout` at the given time -/
  | tick (us : Nat)
  /-- `redis_files_rotate` changing the file of one namespace -/
  | rotate (u : Nat)
  /-- the process stops and starts; directories are read in the given order, given by the addresses of the
      namespaces after the default one -/
  | restart (order : List Nat)

/-- Result of an event: the node afterwards, what clients are sent, and what becomes of the requesting client. -/
inductive Res where
  | ok (n : Node) (sent : List (Nat × Msg)) (st : Status)
  | exit
  | crash
  | outside

/-- `strtoul(s, NULL, 10)`: a number that is too large gives the largest one, a sign negates modulo 2^64. -/
def strtoul (s : Bytes) : Nat :=
  match atollSkip s with
  | 45 :: bs => if atollDigits 0 bs ≥ 2 ^ 64 then 2 ^ 64 - 1 else (2 ^ 64 - atollDigits 0 bs) % 2 ^ 64
  | 43 :: bs => min (atollDigits 0 bs) (2 ^ 64 - 1)
  | bs => min (atollDigits 0 bs) (2 ^ 64 - 1)

/-- `redis_handle_resp_ownerid`, zdbd/redis.c:605-645: a master client sends the owner as last argument. `none` if the
    request is dropped. -/
def popOwner (e : Env) (c : Client) (argv : List Bytes) : Option (Env × List Bytes) :=
  if c.master then
    match argv.getLast? with
    | none => none
    | some o =>
      if o.length > 32 then none
      else some ({ e with owner := strtoul (cstr o) % 2 ^ 32 }, argv.dropLast)
  else some (e, argv)

/-- Sending a mirror the request of a client without namespace dereferences NULL (zdbd/redis.c:984). -/
def mirrorCrash (e : Env) (me : Nat) (c : Client) (l : List (Option Client)) : Bool :=
  c.executed.isSome && c.ns.isNone && e.owner ≠ 0 &&
    (List.range l.length).any (fun i => i ≠ me && ((l[i]?).join).any (·.mirror))

/-- `redis_posthandler_client`, zdbd/redis.c:1131-1178. -/
def post (e : Env) (fd : Nat) (n : Node) (c : Client) : Node × List (Nat × Msg) :=
  match c.executed with
  | none => (n, [])
  | some i =>
    let (l, ms) := notifyAll e fd c.ns i 0 n.clients
    ({ n with clients := l }, ms)

/-- `redis_handle_resp_finished`, zdbd/redis.c:649-677.  A request has at least one argument (zdbd/redis.c:436-439). -/
def request (S : Settings) (n : Node) (fd : Nat) (e : Env) (argv : List Bytes) : Res :=
  match getClient n fd with
  | none => .outside
  | some c =>
    if argv = [] then .outside
    else
    match popOwner e c argv with
    | none => .ok n [] .keep
    | some (e, argv) =>
      match dispatch S e n c argv with
      | .exit => .exit
      | .crash => .crash
      | .outside => .outside
      | .done n c m st =>
        if mirrorCrash e fd c n.clients then .crash
        else
          let (n, ms) := post e fd (putClient n fd (some c)) c
          .ok n ((m.toList.map (fun m => (fd, m))) ++ ms) st

/-- Directories at the time the process stops, default one apart. -/
def restartNode (S : Settings) (n : Node) (order : List Nat) : Option Node :=
  match n.slots with
  | some d :: l =>
    boot S d.dir (order.filterMap (fun u => ((l.filterMap id).find? (fun r => r.uid == u)).map NsRec.dir))
  | _ => none

/-- One event. -/
def nodeStep (S : Settings) (n : Node) : Event → Res
  | .connect fd => .ok (putClient n fd (some (newClient S n))) [] .keep
  | .disconnect fd => .ok (putClient n fd none) [] .keep
  | .request fd e argv => request S n fd e argv
  | .tick us =>
    let (l, ms) := timeoutAll us 0 n.clients
    .ok { n with clients := l } ms .keep
  | .rotate u => .ok (nsUpdate n u (fun r => { r with store := jump r.store })) [] .keep
  | .restart order =>
    match restartNode S n order with
    | some n => .ok n [] .keep
    | none => .exit

end Zdb
