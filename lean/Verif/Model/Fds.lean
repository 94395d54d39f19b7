/-
The file descriptors of a process: which are open, on what, and how every function of the server opens, uses and
closes them.

A function is written as a program over `open`, `close` and "some other call on a descriptor". What the files contain
and what the system answers is left open: wherever the code looks at such a thing, the program asks (`ask`, or the
answer of `io`) and any number may come back. An execution of the code is therefore an execution of the program, for
any content of the files and any failing call. Allocations are taken to succeed.

Beside the descriptor, each call names the file the code means by it; the code itself only has the number.
-/
namespace Zdb.Fds

/-- What a descriptor can be open on. -/
inductive Path where
  /-- standard input, output and error -/
  | std (n : Nat)
  /-- `.lockfile` of the index directory and of the data directory (libzdb/bootstrap.c:123-129) -/
  | lock (n : Nat)
  /-- a listening socket -/
  | listen (n : Nat)
  /-- the epoll instance (zdbd/socket_epoll.c:125) -/
  | epoll
  /-- the connection of a client; connections are numbered in the order they are accepted -/
  | client (k : Nat)
  /-- `i<id>` of a namespace -/
  | index (ns id : Nat)
  /-- `d<id>` of a namespace -/
  | data (ns id : Nat)
  /-- `zdb-namespace` of a namespace -/
  | desc (ns : Nat)
  /-- a file the process has still open although no variable of the code holds the descriptor any more -/
  | lost (p : Path)
deriving DecidableEq, Repr

/-- A program: the calls of a function on descriptors. -/
inductive Prog (α : Type) where
  | ret (a : α)
  /-- `open`, `socket`, `accept`: a descriptor, or a failure -/
  | openf (p : Path) (k : Option Nat → Prog α)
  /-- `close`; `none` is a negative descriptor -/
  | closef (fd : Option Nat) (p : Path) (k : Prog α)
  /-- any other call on a descriptor (`read`, `write`, `lseek`, `fsync`, …) and what it answers -/
  | iof (fd : Option Nat) (p : Path) (k : Nat → Prog α)
  /-- something the descriptors do not tell: content of a file or of memory, a request, an error number, a clock -/
  | askf (k : Nat → Prog α)
  /-- the last variable that holds the descriptor is overwritten or goes out of scope while it is open -/
  | lose (fd : Option Nat) (p : Path) (k : Prog α)
  /-- `exit` -/
  | die

namespace Prog

/-- One program after another. -/
def bind {α β : Type} : Prog α → (α → Prog β) → Prog β
  | .ret a, f => f a
  | .openf p k, f => .openf p fun r => (k r).bind f
  | .closef fd p k, f => .closef fd p (k.bind f)
  | .iof fd p k, f => .iof fd p fun r => (k r).bind f
  | .askf k, f => .askf fun r => (k r).bind f
  | .lose fd p k, f => .lose fd p (k.bind f)
  | .die, _ => .die

instance : Monad Prog where
  pure := .ret
  bind := Prog.bind

end Prog

/-- `open`. -/
def openp (p : Path) : Prog (Option Nat) := .openf p .ret
/-- `close`. -/
def close (fd : Option Nat) (p : Path) : Prog Unit := .closef fd p (.ret ())
/-- A call on a descriptor. -/
def io (fd : Option Nat) (p : Path) : Prog Nat := .iof fd p .ret
/-- A question to files, memory, clients or the clock. -/
def ask : Prog Nat := .askf .ret
/-- A descriptor is forgotten. -/
def lose (fd : Option Nat) (p : Path) : Prog Unit := .lose fd p (.ret ())

/-- The descriptor table of the process. -/
abbrev Fdt := Nat → Option Path

/-- A descriptor is taken. -/
def Fdt.set (T : Fdt) (fd : Nat) (p : Path) : Fdt := fun n => if n = fd then some p else T n
/-- A descriptor is given back. -/
def Fdt.clear (T : Fdt) (fd : Nat) : Fdt := fun n => if n = fd then none else T n

/-- How an execution ends. -/
inductive Res (α : Type) where
  /-- the function returns -/
  | done (a : α) (T : Fdt)
  /-- the process has ended itself -/
  | died
  /-- the code has used or closed a descriptor that was not open, or was open on something else -/
  | bad

/-- The executions of a program. `open` answers with any number that is free, or fails. A call on a negative descriptor
    is refused by the kernel and does nothing. With `l = false`, executions that forget a descriptor are left out. -/
inductive Exec (l : Bool) {α : Type} : Prog α → Fdt → Res α → Prop
  | ret (a T) : Exec l (.ret a) T (.done a T)
  | opened (p k T fd r) : T fd = none → Exec l (k (some fd)) (T.set fd p) r → Exec l (.openf p k) T r
  | refused (p k T r) : Exec l (k none) T r → Exec l (.openf p k) T r
  | closed (fd p k T r) : T fd = some p → Exec l k (T.clear fd) r → Exec l (.closef (some fd) p k) T r
  | closedNeg (p k T r) : Exec l k T r → Exec l (.closef none p k) T r
  | closedBad (fd p k T) : T fd ≠ some p → Exec l (.closef (some fd) p k) T .bad
  | used (fd p k T a r) : T fd = some p → Exec l (k a) T r → Exec l (.iof (some fd) p k) T r
  | usedNeg (p k T a r) : Exec l (k a) T r → Exec l (.iof none p k) T r
  | usedBad (fd p k T) : T fd ≠ some p → Exec l (.iof (some fd) p k) T .bad
  | asked (k T a r) : Exec l (k a) T r → Exec l (.askf k) T r
  | lost (fd p k T r) : l = true → Exec l k (T.set fd (.lost p)) r → Exec l (.lose (some fd) p k) T r
  | lostNeg (p k T r) : Exec l k T r → Exec l (.lose none p k) T r
  | died (T) : Exec l .die T .died

/-- The descriptors of a namespace: `index_root_t` and `data_root_t` (`indexid`, `indexfd`, `dataid`, `datafd`); a
    negative descriptor is `none`. -/
structure Root where
  ns : Nat
  idxId : Nat
  idxFd : Option Nat
  datId : Nat
  datFd : Option Nat

/-- `root->indexfile`. -/
def Root.idxPath (r : Root) : Path := .index r.ns r.idxId
/-- `root->datafile`. -/
def Root.datPath (r : Root) : Path := .data r.ns r.datId

/-- `n` calls on a descriptor. -/
def ios (fd : Option Nat) (p : Path) : Nat → Prog Unit
  | 0 => pure ()
  | n + 1 => do
    let _ ← io fd p
    ios fd p n

/-! ### data files -/

/-- `data_sync_check`, libzdb/data.c:46-59. -/
def dataSyncCheck (fd : Option Nat) (p : Path) : Prog Unit := do
  let due ← ask
  if due = 0 then pure () else do
    let _ ← io fd p
    pure ()

/-- `data_write`, libzdb/data.c:71-101. -/
def dataWrite (fd : Option Nat) (p : Path) (syncer : Bool) : Prog Bool := do
  let a ← io fd p
  if a = 0 then pure false else do
    if syncer then dataSyncCheck fd p
    pure true

/-- `data_open_id_mode`, libzdb/data.c:129-160: a missing file is asked for once through the hook. -/
def dataOpenId (ns id : Nat) : Prog (Option Nat) := do
  let fd ← openp (.data ns id)
  match fd with
  | some fd => pure (some fd)
  | none => do
    let hook ← ask
    if hook = 0 then pure none else openp (.data ns id)

/-- `data_grab_dataid`, libzdb/data.c:219-231. -/
def dataGrab (r : Root) (id : Nat) : Prog (Option Nat) :=
  if r.datId ≠ id then dataOpenId r.ns id else pure r.datFd

/-- `data_release_dataid`, libzdb/data.c:233-240. -/
def dataRelease (r : Root) (id : Nat) (fd : Option Nat) : Prog Unit :=
  if r.datId ≠ id then close fd (.data r.ns id) else pure ()

/-- `data_initialize`, libzdb/data.c:245-276. -/
def dataInitialize (r : Root) : Prog Unit := do
  let fd ← openp r.datPath
  match fd with
  | none => do
    let rofs ← ask
    if rofs = 0 then .die else pure ()
  | some fd => do
    let _ ← io (some fd) r.datPath          -- fallocate
    let ok ← dataWrite (some fd) r.datPath true
    if ok then close (some fd) r.datPath else .die

/-- `data_open_final`, libzdb/data.c:283-317; the loop over the entries makes any number of calls. -/
def dataOpenFinal (r : Root) : Prog Root := do
  let fd ← openp r.datPath
  let fd ← match fd with
    | some fd => pure (some fd)
    | none => do
      let rofs ← ask
      if rofs = 0 then .die else do
        let fd ← openp r.datPath
        match fd with
        | some fd => pure (some fd)
        | none => .die
  let _ ← io fd r.datPath
  let n ← ask
  ios fd r.datPath n
  pure { r with datFd := fd }

/-- `data_jump_next`, libzdb/data.c:413-447. -/
def dataJumpNext (r : Root) (newid : Nat) : Prog Root := do
  let secure ← ask
  if secure ≠ 0 then
    let _ ← io r.datFd r.datPath
  close r.datFd r.datPath
  let r := { r with datId := newid }
  dataInitialize r
  dataOpenFinal r

/-- `data_get`, libzdb/data.c:509-528, `data_check`, libzdb/data.c:575-588, and `data_raw_get`, libzdb/data.c:390-409:
    the three differ in the calls made between `data_grab_dataid` and `data_release_dataid`, of which there are any
    number here. -/
def dataFetch (r : Root) (id : Nat) : Prog Unit := do
  let fd ← dataGrab r id
  match fd with
  | none => pure ()
  | some fd => do
    let n ← ask
    ios (some fd) (.data r.ns id) n
    dataRelease r id (some fd)

/-- `data_insert`, libzdb/data.c:594-633. -/
def dataInsert (r : Root) : Prog Bool := do
  let _ ← io r.datFd r.datPath
  let ok ← dataWrite r.datFd r.datPath false
  if ok then dataWrite r.datFd r.datPath true else pure false

/-- `data_destroy`, libzdb/data.c:680-686: only a descriptor above 0 is closed. -/
def dataDestroy (r : Root) : Prog Unit :=
  match r.datFd with
  | some (n + 1) => close (some (n + 1)) r.datPath
  | _ => pure ()

/-- `data_init`, libzdb/data.c:708-718. -/
def dataInit (r : Root) : Prog Root := do
  dataInitialize r
  dataOpenFinal r

/-! ### index files -/

/-- `index_write`, libzdb/index.c:95-129. -/
def indexWrite (fd : Option Nat) (p : Path) : Prog Bool := do
  let a ← io fd p
  if a = 0 then pure false else do
    let due ← ask
    if due = 0 then pure true else do
      let _ ← io fd p
      pure true

/-- `index_initialize`, libzdb/index_loader.c:85-104. -/
def indexInitialize (fd : Option Nat) (p : Path) : Prog Unit := do
  let ok ← indexWrite fd p
  if ok then pure () else .die

/-- `index_open_final`, libzdb/index.c:288-304: when the file cannot be opened, the server goes on with a negative
    descriptor. -/
def indexOpenFinal (r : Root) : Prog Root := do
  let fd ← openp r.idxPath
  pure { r with idxFd := fd }

/-- `index_jump_next`, libzdb/index.c:341-399. -/
def indexJumpNext (r : Root) : Prog Root := do
  let secure ← ask
  if secure ≠ 0 then
    let _ ← io r.idxFd r.idxPath
  close r.idxFd r.idxPath
  let r := { r with idxId := (r.idxId + 1) % 2 ^ 32 }
  let r ← indexOpenFinal r
  indexInitialize r.idxFd r.idxPath
  pure r

/-- `index_grab_fileid`, libzdb/index.c:251-263. -/
def indexGrab (r : Root) (id : Nat) : Prog (Option Nat) :=
  if r.idxId ≠ id then openp (.index r.ns id) else pure r.idxFd

/-- `index_release_fileid`, libzdb/index.c:265-272. -/
def indexRelease (r : Root) (id : Nat) (fd : Option Nat) : Prog Unit :=
  if r.idxId ≠ id then close fd (.index r.ns id) else pure ()

/-- `index_item_get_disk`, libzdb/index.c:453-483. -/
def indexItemGetDisk (r : Root) (id : Nat) : Prog Bool := do
  let fd ← openp (.index r.ns id)
  match fd with
  | none => pure false
  | some fd => do
    let _ ← io (some fd) (.index r.ns id)
    let a ← io (some fd) (.index r.ns id)
    if a = 0 then do
      close (some fd) (.index r.ns id)
      pure false
    else do
      close (some fd) (.index r.ns id)
      pure true

/-- `index_entry_delete_disk`, libzdb/index.c:536-589; `index_seq_overwrite`, libzdb/index_set.c:55-110, and
    `index_switch_mode`, libzdb/index_loader.c:657-691, make the same calls: open, seek, read, seek, write, close. -/
def indexOverwrite (r : Root) (id : Nat) : Prog Bool := do
  let fd ← openp (.index r.ns id)
  match fd with
  | none => pure false
  | some fd => do
    let _ ← io (some fd) (.index r.ns id)
    let a ← io (some fd) (.index r.ns id)
    if a = 0 then do
      close (some fd) (.index r.ns id)
      pure false
    else do
      let _ ← io (some fd) (.index r.ns id)
      let w ← io (some fd) (.index r.ns id)
      if w = 0 then do
        close (some fd) (.index r.ns id)
        pure false
      else do
        close (some fd) (.index r.ns id)
        pure true

/-- `index_append_entry_on_disk`, libzdb/index_set.c:136-164. -/
def indexAppend (r : Root) : Prog Bool := do
  let _ ← io r.idxFd r.idxPath
  indexWrite r.idxFd r.idxPath

/-- `index_get`, libzdb/index_get.c:68-86: in user-key mode from memory, in sequential mode from a file
    (libzdb/index_get.c:16-58). -/
def indexGet (r : Root) : Prog Bool := do
  let seq ← ask
  if seq = 0 then do
    let a ← ask
    pure (a ≠ 0)
  else do
    let id ← ask
    indexItemGetDisk r id

/-- `index_set`, libzdb/index_set.c:411-420: in user-key mode the old entry is marked and the new one appended
    (libzdb/index_set.c:304-324), in sequential mode the old one is appended and overwritten in its place
    (libzdb/index_set.c:326-357); a new key is appended (libzdb/index_set.c:368-394). -/
def indexSet (r : Root) (existing : Bool) : Prog Bool := do
  if existing then do
    let seq ← ask
    if seq = 0 then do
      let id ← ask
      let _ ← indexOverwrite r id
      indexAppend r
    else do
      let ok ← indexAppend r
      if ok then do
        let id ← ask
        let _ ← indexOverwrite r id
        pure true
      else pure false
  else indexAppend r

/-- What a pass of a scan answers. -/
inductive ScanStatus where
  | success
  | unexpected
  | noMore
  | deleted
  | move

/-- The four functions `index_…_header_real` (libzdb/index_scan.c): calls on the descriptor, and a status. -/
def scanReal (fd : Option Nat) (p : Path) : Prog ScanStatus := do
  let n ← ask
  ios fd p n
  let s ← ask
  match s with
  | 0 => pure .success
  | 1 => pure .unexpected
  | 2 => pure .noMore
  | 3 => pure .deleted
  | _ => pure .move

/-- `index_next_header` and `index_first_header` (`up`), `index_previous_header` and `index_last_header`
    (libzdb/index_scan.c:181-224, 288-340, 391-433, 500-543). The loop has no bound in the code; an execution that
    returns makes some number of passes. -/
def scanLoop (r : Root) (up : Bool) : Nat → Nat → Prog Bool
  | 0, _ => .die
  | n + 1, id => do
    let fd ← indexGrab r id
    match fd with
    | none => pure false
    | some fd => do
      let st ← scanReal (some fd) (.index r.ns id)
      indexRelease r id (some fd)
      match st with
      | .success => pure true
      | .unexpected => pure false
      | .noMore => pure false
      | .deleted => scanLoop r up n id
      | .move => scanLoop r up n (if up then (id + 1) % 2 ^ 32 else (id + 2 ^ 32 - 1) % 2 ^ 32)

/-- `index_try_rootindex`, libzdb/index_loader.c:106-140; the first result tells whether there is a file. -/
def indexTryRoot (r : Root) : Prog (Bool × Root) := do
  let fd ← openp r.idxPath
  match fd with
  | some fd => pure (true, { r with idxFd := some fd })
  | none => do
    let rofs ← ask
    if rofs = 0 then .die else do
      let fd ← openp r.idxPath
      match fd with
      | some fd => pure (true, { r with idxFd := some fd })
      | none => do
        let noent ← ask
        if noent = 0 then .die else pure (false, { r with idxFd := none })

/-- What `index_load_file` answers: `0`, the file was empty or missing; `length`, it was loaded; `1` after a failing
    read, with the descriptor still open. -/
inductive Loaded where
  | zero
  | length
  | failed

/-- `index_load_file`, libzdb/index_loader.c:181-384. `fresh`: the caller has just found that there is no such file,
    so that nothing can be read from it. -/
def indexLoadFile (r : Root) (fresh : Bool) : Prog (Loaded × Root) := do
  let (there, r) ← indexTryRoot r
  if !there then pure (.zero, r) else do
    let a ← io r.idxFd r.idxPath
    match a with
    | 0 => pure (.failed, r)                       -- libzdb/index_loader.c:197-204
    | 1 =>                                          -- nothing read
      if r.idxId > 0 then do
        close r.idxFd r.idxPath
        pure (.zero, r)
      else do
        indexInitialize r.idxFd r.idxPath
        let n ← ask
        ios r.idxFd r.idxPath n
        close r.idxFd r.idxPath
        pure (.zero, r)
    | 2 => .die                                     -- part of a header
    | _ =>
      if fresh then .die else do
        let n ← ask
        ios r.idxFd r.idxPath n
        let ok ← ask
        if ok = 0 then .die else do
          close r.idxFd r.idxPath
          pure (.length, r)

/-- The loop of `index_internal_load` over the files found, libzdb/index_loader.c:427-436. After a failing read the
    next `open` overwrites `root->indexfd`. -/
def indexLoadLoop (r : Root) : Nat → Nat → Prog Root
  | 0, _ => pure r
  | n + 1, id => do
    let (st, r) ← indexLoadFile { r with idxId := id } false
    match st with
    | .zero => pure r
    | .length => indexLoadLoop r n (id + 1)
    | .failed => do
      lose r.idxFd r.idxPath
      indexLoadLoop r n (id + 1)

/-- `index_internal_load`, libzdb/index_loader.c:406-468; the number of files found (libzdb/index_loader.c:387-404) is
    asked for, they are looked at with `stat`. -/
def indexInternalLoad (r : Root) : Prog Root := do
  let maxfile ← ask
  if maxfile > 0 then do
    let r ← indexLoadLoop r maxfile 0
    indexOpenFinal r
  else do
    let (st, r) ← indexLoadFile { r with idxId := 0 } true
    match st with
    | .zero => indexOpenFinal r
    | _ => pure r

/-- `index_destroy`, libzdb/index_loader.c:616-631. -/
def indexDestroy (r : Root) : Prog Unit :=
  match r.idxFd with
  | some (n + 1) => close (some (n + 1)) r.idxPath
  | _ => pure ()

/-! ### namespaces -/

/-- `namespace_descriptor_load`, libzdb/namespace.c:119-165, with `namespace_descriptor_update`
    (libzdb/namespace.c:68-100); the result tells whether the namespace may be loaded. -/
def descriptorLoad (ns : Nat) : Prog Bool := do
  let fd ← openp (.desc ns)
  match fd with
  | none => pure false
  | some fd => do
    let a ← io (some fd) (.desc ns)
    if a = 0 then do
      let n ← ask
      ios (some fd) (.desc ns) n
      close (some fd) (.desc ns)
      pure true
    else do
      let version ← ask
      if version = 0 then do
        lose (some fd) (.desc ns)                 -- libzdb/namespace.c:133-136
        pure false
      else do
        let n ← ask
        ios (some fd) (.desc ns) n
        close (some fd) (.desc ns)
        pure true

/-- `namespace_commit`, libzdb/namespace.c:179-194. -/
def namespaceCommit (ns : Nat) : Prog Unit := do
  let fd ← openp (.desc ns)
  match fd with
  | none => pure ()
  | some fd => do
    let n ← ask
    ios (some fd) (.desc ns) n
    close (some fd) (.desc ns)

/-- `namespace_load_lazy`, libzdb/namespace.c:227-234: the index, then the data file with the number of the index. -/
def loadLazy (ns : Nat) : Prog Root := do
  let r ← indexInternalLoad { ns := ns, idxId := 0, idxFd := none, datId := 0, datFd := none }
  dataInit { r with datId := r.idxId }

/-- `namespace_load`, libzdb/namespace.c:274-285. -/
def namespaceLoad (ns : Nat) : Prog (Option Root) := do
  let dirs ← ask
  if dirs = 0 then pure none else do
    let ok ← descriptorLoad ns
    if ok then do
      let r ← loadLazy ns
      pure (some r)
    else pure none

/-- `namespace_reload`, libzdb/namespace.c:605-623, and `namespace_flush`, libzdb/namespace.c:630-656. -/
def namespaceReload (r : Root) : Prog Root := do
  indexDestroy r
  dataDestroy r
  loadLazy r.ns

/-- `namespace_delete`, libzdb/namespace.c:674-702. -/
def namespaceDelete (r : Root) : Prog Unit := do
  indexDestroy r
  dataDestroy r

/-! ### commands -/

/-- `index_jump_next` and `data_jump_next` (zdbd/commands_set.c:370-373, zdbd/commands_namespace.c:592-593,
    zdbd/redis.c:1106-1107). -/
def jump (r : Root) : Prog Root := do
  let r ← indexJumpNext r
  dataJumpNext r r.idxId

/-- The commands that touch files of the namespace of the client. -/
inductive Cmd where
  | get
  | check
  /-- EXISTS, LENGTH, KEYTIME -/
  | lookup
  | set
  | del
  | scan (up : Bool)
  | history
  | nsinfo
  | dataRaw
  | nsset
  | nsjump
  /-- any command that touches no file -/
  | other

/-- `command_set`, zdbd/commands_set.c:306-380, with its two handlers (zdbd/commands_set.c:73-163, 165-262). -/
def cmdSet (r : Root) : Prog Root := do
  let named ← ask
  let existing ← if named = 0 then pure false else indexGet r
  let refused ← ask                                  -- worm, size limit
  if refused ≠ 0 then pure r else do
    let _ ← io r.datFd r.datPath                     -- data_next_offset
    let full ← ask
    let r ← if full ≠ 0 then jump r else pure r
    let same ← ask
    if existing && same ≠ 0 then do
      let id ← ask
      dataFetch r id                                 -- data_compare_matching
    let write ← ask
    if write = 0 then pure r else do
      let ok ← dataInsert r
      if ok then do
        let _ ← indexSet r existing
        pure r
      else pure r

/-- `command_del`, zdbd/commands_dataset.c:100-172. -/
def cmdDel (r : Root) : Prog Root := do
  let found ← indexGet r
  let worm ← ask
  if found && worm = 0 then do
    let ok ← dataInsert r
    if ok then do
      let id ← ask
      let _ ← indexOverwrite r id
      pure r
    else pure r
  else pure r

/-- The passes of SCAN and RSCAN within their time slice, zdbd/commands_scan.c:248-266, 305-323. -/
def scanMany (r : Root) (up : Bool) : Nat → Prog Unit
  | 0 => pure ()
  | n + 1 => do
    let id ← ask
    let fuel ← ask
    let ok ← scanLoop r up fuel id
    if ok then scanMany r up n else pure ()

/-- `command_scan`, zdbd/commands_scan.c:219-274, and `command_rscan`, zdbd/commands_scan.c:279-331. -/
def cmdScan (r : Root) (up : Bool) : Prog Root := do
  let argc ← ask
  let go ← if argc = 0 then do
      let fuel ← ask
      scanLoop r up fuel (if up then 0 else r.idxId)
    else do
      let id ← ask
      indexItemGetDisk r id
  if go then do
    let n ← ask
    scanMany r up n
    pure r
  else pure r

/-- `command_history`, zdbd/commands_history.c:133-227. -/
def cmdHistory (r : Root) : Prog Root := do
  let argc ← ask
  let ok ← if argc = 0 then do
      let found ← indexGet r
      if found then do
        let id ← ask
        indexItemGetDisk r id
      else pure false
    else do
      let id ← ask
      indexItemGetDisk r id
  let fits ← ask
  if ok && fits ≠ 0 then do
    let id ← ask
    dataFetch r id
    pure r
  else pure r

/-- A command in its namespace; refusals (arguments, rights, locked or frozen namespace) are answered before any file
    is touched. -/
def Cmd.prog (c : Cmd) (r : Root) : Prog Root := do
  let refused ← ask
  if refused ≠ 0 then pure r else
    match c with
    | .get => do
      let found ← indexGet r
      if found then do
        let id ← ask
        dataFetch r id
        pure r
      else pure r
    | .check => do
      let found ← indexGet r
      if found then do
        let id ← ask
        dataFetch r id
        pure r
      else pure r
    | .lookup => do
      let _ ← indexGet r
      pure r
    | .set => cmdSet r
    | .del => cmdDel r
    | .scan up => cmdScan r up
    | .history => cmdHistory r
    | .nsinfo => do
      let _ ← io r.datFd r.datPath                   -- zdbd/commands_namespace.c:365
      pure r
    | .dataRaw => do
      let id ← ask
      dataFetch r id
      pure r
    | .nsset => do
      let mode ← ask
      if mode ≠ 0 then
        let _ ← indexOverwrite r 0                   -- index_switch_mode
      namespaceCommit r.ns
      pure r
    | .nsjump => jump r
    | .other => pure r

/-! ### the server -/

/-- A client: its descriptor (`client->fd`) and its connection. -/
structure Client where
  fd : Nat
  conn : Nat

/-- What the process keeps descriptors in. -/
structure Srv where
  /-- `zdb_settings->indexlock` and `zdb_settings->datalock` -/
  ilock : Nat
  dlock : Nat
  /-- `nsroot->namespaces` -/
  roots : List Root
  /-- `redis.mainfd` -/
  main : List Nat
  /-- `handler->evfd` -/
  evfd : Option Nat
  /-- `clients.list` -/
  clients : List Client
  /-- connections accepted so far; the kernel's count, the code has none -/
  conns : Nat

/-- What the server is told. -/
inductive Ev where
  /-- a connection waits on a listening socket -/
  | connect (i : Nat)
  /-- a client has gone, or has broken the protocol -/
  | gone (conn : Nat)
  /-- a command of a client, in the namespace the client has selected -/
  | cmd (conn ns : Nat) (c : Cmd)
  | nsnew (conn ns : Nat)
  | nsdel (conn ns : Nat)
  /-- RELOAD and FLUSH -/
  | reload (conn ns : Nat)
  /-- `redis_idle_process` -/
  | idle

/-- The client of a connection reads its request from the socket or writes its reply to it (`redis_chunk_read`,
    zdbd/redis.c:683-812; `redis_delayed_write`). -/
def talk (s : Srv) (conn : Nat) : Prog Unit :=
  match s.clients.find? (·.conn = conn) with
  | none => pure ()
  | some c => do
    let n ← ask
    ios (some c.fd) (.client c.conn) n

/-- `namespace_get`, libzdb/namespace.c:56-66, and the program for what is found; the entry is updated in place. -/
def onRoot (f : Root → Prog Root) (ns : Nat) : List Root → Prog (List Root)
  | [] => pure []
  | r :: rs =>
    if r.ns = ns then do
      let r' ← f r
      pure (r' :: rs)
    else do
      let rs' ← onRoot f ns rs
      pure (r :: rs')

/-- `namespace_delete` on the namespace found; the entry leaves the list (libzdb/namespace.c:551-560). -/
def dropRoot (ns : Nat) : List Root → Prog (List Root)
  | [] => pure []
  | r :: rs =>
    if r.ns = ns then do
      namespaceDelete r
      pure rs
    else do
      let rs' ← dropRoot ns rs
      pure (r :: rs')

/-- `redis_files_rotate`, zdbd/redis.c:1091-1111. -/
def rotate : List Root → Prog (List Root)
  | [] => pure []
  | r :: rs => do
    let due ← ask
    let r' ← if due ≠ 0 then jump r else pure r
    let rs' ← rotate rs
    pure (r' :: rs')

/-- `socket_client_free`, zdbd/redis.c:914-939. -/
def clientFree (conn : Nat) : List Client → Prog (List Client)
  | [] => pure []
  | c :: cs =>
    if c.conn = conn then do
      close (some c.fd) (.client c.conn)
      pure cs
    else do
      let cs' ← clientFree conn cs
      pure (c :: cs')

/-- `socket_client_accept`, zdbd/socket_epoll.c:20-52. A connection `epoll_ctl` refuses stays in the list. -/
def accept (s : Srv) (i : Nat) : Prog Srv :=
  match s.main[i]? with
  | none => pure s
  | some m => do
    let _ ← io (some m) (.listen i)
    let fd ← openp (.client s.conns)
    match fd with
    | none => pure s
    | some fd => do
      let n ← ask
      ios (some fd) (.client s.conns) n
      let _ ← io s.evfd .epoll
      pure { s with clients := ⟨fd, s.conns⟩ :: s.clients, conns := s.conns + 1 }

/-- `socket_event`, zdbd/socket_epoll.c:54-113, and `redis_idle_process`, zdbd/redis.c:1115-1124. -/
def Ev.prog (e : Ev) (s : Srv) : Prog Srv := do
  let _ ← io s.evfd .epoll                            -- epoll_wait
  match e with
  | .connect i => accept s i
  | .gone k => do
    talk s k
    let cs ← clientFree k s.clients
    pure { s with clients := cs }
  | .cmd k ns c => do
    talk s k
    let rs ← onRoot (fun r => c.prog r) ns s.roots
    talk s k
    pure { s with roots := rs }
  | .nsnew k ns => do
    talk s k
    if s.roots.any (·.ns = ns) then do
      talk s k
      pure s
    else do
      let r ← namespaceLoad ns
      talk s k
      match r with
      | none => pure s
      | some r => pure { s with roots := s.roots ++ [r] }
  | .nsdel k ns => do
    talk s k
    if ns = 0 then pure s else do
      let rs ← dropRoot ns s.roots
      talk s k
      pure { s with roots := rs }
  | .reload k ns => do
    talk s k
    let rs ← onRoot namespaceReload ns s.roots
    talk s k
    pure { s with roots := rs }
  | .idle => do
    let rs ← rotate s.roots
    pure { s with roots := rs }

/-- A run of the server: one event after another. -/
def runEvs : List Ev → Srv → Prog Srv
  | [], s => pure s
  | e :: es, s => do
    let s' ← e.prog s
    runEvs es s'

/-! ### start and end -/

/-- `zdb_lock`, libzdb/bootstrap.c:72-93. `flock` answers `0`: the lock is taken; `1`: another process has it; else
    the file cannot be locked, and the function answers 1 in the place of a descriptor. -/
def zdbLock (n : Nat) : Prog (Option Nat) := do
  let fd ← openp (.lock n)
  match fd with
  | none => pure none
  | some fd => do
    let a ← io (some fd) (.lock n)
    match a with
    | 0 => pure (some fd)
    | 1 => do
      lose (some fd) (.lock n)
      pure none
    | _ => do
      lose (some fd) (.lock n)
      pure (some 1)

/-- `namespace_scanload`, libzdb/namespace.c:382-420: a directory is listed once, none has the name of a namespace
    loaded already. -/
def scanload : Nat → List Root → Prog (List Root)
  | 0, rs => pure rs
  | n + 1, rs => do
    let ns ← ask
    if rs.any (·.ns = ns) then scanload n rs else do
      let r ← namespaceLoad ns
      match r with
      | none => scanload n rs
      | some r => scanload n (rs ++ [r])

/-- `zdb_open`, libzdb/bootstrap.c:95-145, with `namespaces_init` (libzdb/namespace.c:480-498): the default namespace
    (0) and those found in the directory. `none`: the process gives up. -/
def zdbOpen : Prog (Option Srv) := do
  let i ← zdbLock 0
  match i with
  | none => pure none
  | some i => do
    let d ← zdbLock 1
    match d with
    | none => pure none
    | some d => do
      let r ← namespaceLoad 0
      match r with
      | none => .die
      | some r => do
        let n ← ask
        let rs ← scanload n [r]
        pure (some { ilock := i, dlock := d, roots := rs, main := [], evfd := none, clients := [], conns := 0 })

/-- The listening sockets, zdbd/redis.c:1330-1358 (`socket` in zdbd/redis.c:1200, 1219): a failure ends the process. -/
def listenAll : Nat → Nat → Prog (List Nat)
  | 0, _ => pure []
  | n + 1, i => do
    let fd ← openp (.listen i)
    match fd with
    | none => .die
    | some fd => do
      let k ← ask
      ios (some fd) (.listen i) k
      let fds ← listenAll n (i + 1)
      pure (fd :: fds)

/-- `redis_listen` (zdbd/redis.c:1316-1358) up to the loop of `socket_handler` (zdbd/socket_epoll.c:115-139). -/
def listenOn (n : Nat) (s : Srv) : Prog Srv := do
  let fds ← listenAll n 0
  let ev ← openp .epoll
  match ev with
  | none => .die
  | some ev => do
    ios (some ev) .epoll n
    pure { s with main := fds, evfd := some ev }

/-- Closing the listening sockets (zdbd/socket_epoll.c:100-101, zdbd/redis.c:1375-1376). -/
def closeMain : List Nat → Nat → Prog Unit
  | [], _ => pure ()
  | fd :: fds, i => do
    close (some fd) (.listen i)
    closeMain fds (i + 1)

/-- `socket_client_free` on every client, zdbd/redis.c:1371-1373. -/
def closeClients : List Client → Prog Unit
  | [] => pure ()
  | c :: cs => do
    close (some c.fd) (.client c.conn)
    closeClients cs

/-- STOP: `socket_event` closes the listening sockets (zdbd/socket_epoll.c:97-104), then `redis_listen` closes the
    clients and the listening sockets (zdbd/redis.c:1371-1376). -/
def stop (s : Srv) : Prog Unit := do
  closeMain s.main 0
  closeClients s.clients
  closeMain s.main 0

/-- The part of `namespaces_destroy` about descriptors, libzdb/namespace.c:510-549: `namespaces_emergency`
    (libzdb/namespace.c:721-739) syncs, then the files are closed. -/
def destroyAll : List Root → Prog Unit
  | [] => pure ()
  | r :: rs => do
    indexDestroy r
    dataDestroy r
    destroyAll rs

/-- `namespaces_emergency`, libzdb/namespace.c:721-739. -/
def emergency : List Root → Prog Unit
  | [] => pure ()
  | r :: rs => do
    let loaded ← ask
    if loaded ≠ 0 then do
      let _ ← io r.idxFd r.idxPath
      let _ ← io r.datFd r.datPath
      pure ()
    emergency rs

/-- `zdb_close`, libzdb/bootstrap.c:147-162. -/
def zdbClose (s : Srv) : Prog Unit := do
  emergency s.roots
  destroyAll s.roots
  close (some s.ilock) (.lock 0)
  close (some s.dlock) (.lock 1)

/-- The table of a process as it is started: three standard descriptors. -/
def stdTable : Fdt := fun n => if n < 3 then some (.std n) else none

end Zdb.Fds
