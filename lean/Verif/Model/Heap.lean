/-
The memory of the server: which blocks are allocated, which variable holds each, and how every function allocates,
uses and frees them.

A function is written as a program over `malloc`, `free` and "the block behind this pointer is read or written".
Everything else the code looks at (files, requests, clocks) is asked for and any number may come back, so that an
execution of the code is an execution of the program. Sizes are left out: what is said is which blocks are alive, not
which of their bytes are touched. Allocations succeed, except where a request can ask for more than any machine has
(the argument array and the argument buffers, zdbd/redis.c:453, 518). The entries of the table of keys have a model of
their own (`Verif.Model.Table`), and so have the hooks
(`Verif.Model.Hook`, and for their memory `Verif.Model.HookHeap`): here no hook program is set.
-/
namespace Zdb.Heap

/-- The places where the code follows a pointer it must not follow. -/
inductive Hazard where
  /-- `redis_dispatcher` reads the first argument although it has been popped and freed as the owner of the request
      (zdbd/redis.c:640-641, zdbd/commands.c:179) -/
  | owner
  /-- HISTORY follows the result of `index_item_get_disk` without looking whether it is NULL
      (zdbd/commands_history.c:179-181) -/
  | history
  /-- `redis_mirror_client` reads the name of the namespace of a client that has none any more (zdbd/redis.c:988) -/
  | mirror
  /-- `libzdb_hooks_cleanup` follows an empty slot of the list of hooks (libzdb/hook.c:225-229) -/
  | hooks
deriving DecidableEq, Repr

/-- A program: what a function does to memory. A pointer is `none` when it is NULL. -/
inductive Prog (α : Type) where
  | ret (a : α)
  /-- `malloc`, `calloc`, `strdup`, `asprintf` -/
  | alloc (k : Nat → Prog α)
  /-- `free` -/
  | free (p : Option Nat) (k : Prog α)
  /-- the block is read or written -/
  | use (p : Option Nat) (k : Prog α)
  /-- something memory does not tell: a file, a request, a clock -/
  | askf (k : Nat → Prog α)
  /-- the last variable that holds the block is overwritten or goes out of scope -/
  | lose (b : Nat) (k : Prog α)
  /-- the code goes on to one of the places above; the node has no effect -/
  | hazard (h : Hazard) (k : Prog α)
  /-- `exit` -/
  | die

namespace Prog

/-- One program after another. -/
def bind {α β : Type} : Prog α → (α → Prog β) → Prog β
  | .ret a, f => f a
  | .alloc k, f => .alloc fun r => (k r).bind f
  | .free p k, f => .free p (k.bind f)
  | .use p k, f => .use p (k.bind f)
  | .askf k, f => .askf fun r => (k r).bind f
  | .lose b k, f => .lose b (k.bind f)
  | .hazard h k, f => .hazard h (k.bind f)
  | .die, _ => .die

instance : Monad Prog where
  pure := .ret
  bind := Prog.bind

end Prog

/-- `malloc`. -/
def malloc : Prog Nat := .alloc .ret
/-- `free`. -/
def free (p : Option Nat) : Prog Unit := .free p (.ret ())
/-- `free` of a pointer that is not NULL. -/
def freeb (b : Nat) : Prog Unit := .free (some b) (.ret ())
/-- A pointer is followed. -/
def use (p : Option Nat) : Prog Unit := .use p (.ret ())
/-- A pointer that is not NULL is followed. -/
def useb (b : Nat) : Prog Unit := .use (some b) (.ret ())
/-- A question to files, clients or the clock. -/
def ask : Prog Nat := .askf .ret
/-- A block is forgotten. -/
def lose (b : Nat) : Prog Unit := .lose b (.ret ())
/-- A place where a pointer is followed that must not be. -/
def hazard (h : Hazard) : Prog Unit := .hazard h (.ret ())
/-- `realloc` of a block: it may move. -/
def realloc (b : Nat) : Prog Nat := do
  useb b
  freeb b
  malloc
/-- `realloc` of a pointer that can be NULL. -/
def reallocp (p : Option Nat) : Prog Nat :=
  match p with
  | none => malloc
  | some b => realloc b
/-- The same for each element of a list. -/
def each {α : Type} (f : α → Prog Unit) : List α → Prog Unit
  | [] => pure ()
  | a :: as => do
    f a
    each f as

/-- A block: free, held by some variable, or alive without one. -/
inductive Cell where
  | gone
  | live
  | lost
deriving DecidableEq, Repr

/-- Memory. -/
abbrev Mem := Nat → Cell

/-- A block changes. -/
def Mem.set (M : Mem) (b : Nat) (c : Cell) : Mem := fun n => if n = b then c else M n

/-- How an execution ends. -/
inductive Res (α : Type) where
  /-- the function returns -/
  | done (a : α) (M : Mem)
  /-- the process has ended itself -/
  | died
  /-- the code has followed NULL or a pointer to a block that is not alive, or has freed such a block -/
  | bad

/-- Which executions are looked at: those that forget no block, those that may, and those that may also come to one of
    the places of `Hazard`. -/
inductive Level where
  | clean
  | leaky
  | any
deriving DecidableEq

/-- The executions of a program. `malloc` answers with any block that is free. -/
inductive Exec (l : Level) {α : Type} : Prog α → Mem → Res α → Prop
  | ret (a M) : Exec l (.ret a) M (.done a M)
  | alloc (k M b r) : M b = .gone → Exec l (k b) (M.set b .live) r → Exec l (.alloc k) M r
  | freed (b k M r) : M b = .live → Exec l k (M.set b .gone) r → Exec l (.free (some b) k) M r
  | freeNull (k M r) : Exec l k M r → Exec l (.free none k) M r
  | freeBad (b k M) : M b ≠ .live → Exec l (.free (some b) k) M .bad
  | used (b k M r) : M b = .live → Exec l k M r → Exec l (.use (some b) k) M r
  | useNull (k M) : Exec l (.use none k) M .bad
  | useBad (b k M) : M b ≠ .live → Exec l (.use (some b) k) M .bad
  | asked (k M a r) : Exec l (k a) M r → Exec l (.askf k) M r
  | lost (b k M r) : l ≠ .clean → M b = .live → Exec l k (M.set b .lost) r → Exec l (.lose b k) M r
  | hazard (h k M r) : l = .any → Exec l k M r → Exec l (.hazard h k) M r
  | died (M) : Exec l .die M .died

/-! ### what is kept in memory -/

/-- An argument of a request: `resp_object_t` and its buffer, NULL until its length is known (zdbd/redis.c:499-522). -/
structure Arg where
  obj : Nat
  buf : Option Nat

/-- A reply that waits: `redis_response_t` and its buffer (zdbd/redis.c:120-132). -/
structure Resp where
  node : Nat
  buf : Nat

/-- `request->state`. -/
inductive Phase where
  | empty
  | header
  | payload
deriving DecidableEq

/-- A client: `redis_client_t`, its read buffer, its request and what hangs on them (zdbd/redis.c:832-912). `args` are the
    slots of `argv` that have been filled in; the slots behind are NULL. `ns` is the pointer to the namespace. -/
structure Client where
  fd : Nat
  self : Nat
  buf : Nat
  req : Nat
  nonce : Option Nat
  phase : Phase
  argc : Nat
  argv : Option Nat
  args : List Arg
  resp : List Resp
  ns : Option Nat
  master : Bool
  mirror : Bool
  watching : Bool

/-- A namespace: `namespace_t` with its strings, `index_root_t` with its file name, dirty map and map of files
    (sequential mode), `data_root_t` with its file name. -/
structure Space where
  self : Nat
  name : Nat
  ipath : Nat
  dpath : Nat
  pass : Option Nat
  iroot : Nat
  ifile : Nat
  dirty : Nat
  /-- `root->mode` is sequential -/
  seqMode : Bool
  seq : Option (Nat × Nat)
  droot : Nat
  dfile : Nat

/-- The process: `clients.list`, `nsroot` and its array, the branches, the two variables all indexes share
    (`index_transition`, `index_reusable_entry`), clients and namespaces. -/
structure Srv where
  clist : Nat
  nsroot : Nat
  nslist : Nat
  branches : Option Nat
  trans : Nat
  reuse : Nat
  clients : List Client
  spaces : List Space

/-! ### replies -/

/-- `redis_response_push`, zdbd/redis.c:144-157. -/
def push (q : List Resp) (r : Resp) : Prog (List Resp) := do
  match q.getLast? with
  | none => pure ()
  | some t => useb t.node
  useb r.node
  pure (q ++ [r])

/-- `redis_reply_stack`, zdbd/redis.c:285-333, with `redis_send_response` (zdbd/redis.c:162-206): the text is on the
    stack, what cannot be sent at once is copied. -/
def replyStack (q : List Resp) : Prog (List Resp) := do
  let sent ← if q.isEmpty then ask else pure 0
  if sent ≠ 0 then pure q else do
    let b ← malloc
    useb b
    let r ← malloc
    push q ⟨r, b⟩

/-- `redis_reply_heap`, zdbd/redis.c:254-277: the buffer now belongs to the reply. -/
def replyHeap (q : List Resp) (b : Nat) : Prog (List Resp) := do
  let r ← malloc
  useb r
  useb b
  let sent ← if q.isEmpty then ask else pure 0
  if sent ≠ 0 then do
    freeb b
    freeb r
    pure q
  else push q ⟨r, b⟩

/-- `redis_bulk`, zdbd/redis.c:343-376. -/
def bulk : Prog Nat := do
  let b ← malloc
  useb b
  pure b

/-- `redis_delayed_write`, zdbd/redis.c:211-249. -/
def delayedWrite : List Resp → Prog (List Resp)
  | [] => pure []
  | r :: q => do
    useb r.node
    useb r.buf
    let sent ← ask
    if sent = 0 then pure (r :: q) else do
      freeb r.buf
      freeb r.node
      delayedWrite q

/-! ### the arguments of a request -/

/-- The argument in slot `k` of `argv` is read. A slot that is NULL, or behind the array, is a bad pointer. -/
def arg (c : Client) (k : Nat) : Prog Unit := do
  use c.argv
  match c.args[k]? with
  | none => use none
  | some a => do
    useb a.obj
    use a.buf

/-- The arguments from slot `k` on, `n` of them. -/
def argsFrom (c : Client) : Nat → Nat → Prog Unit
  | _, 0 => pure ()
  | k, n + 1 => do
    arg c k
    argsFrom c (k + 1) n

/-- `real_command_args_validate`, zdbd/commands.c:26-45; `true`: the command goes on. -/
def validate (c : Client) (expected : Nat) (nullAllowed : Bool) (q : List Resp) : Prog (Bool × List Resp) := do
  if c.argc ≠ expected then do
    let q ← replyStack q
    pure (false, q)
  else if nullAllowed then pure (true, q)
  else do
    argsFrom c 0 c.argc
    let fine ← ask
    if fine ≠ 0 then pure (true, q) else do
      let q ← replyStack q
      pure (false, q)

/-- `command_args_validate_min`, zdbd/commands.c:49-64. -/
def validateMin (c : Client) (expected : Nat) (q : List Resp) : Prog (Bool × List Resp) := do
  if c.argc < expected then do
    let q ← replyStack q
    pure (false, q)
  else do
    argsFrom c 0 c.argc
    let fine ← ask
    if fine ≠ 0 then pure (true, q) else do
      let q ← replyStack q
      pure (false, q)

/-- A test of an argument or of the rights of the client, with a refusal when it fails: `command_admin_authorized`,
    `command_args_overflow`, `command_args_namespace` (zdbd/commands.c:74-106), key length, frozen, locked, worm. -/
def check (q : List Resp) : Prog (Bool × List Resp) := do
  let fine ← ask
  if fine ≠ 0 then pure (true, q) else do
    let q ← replyStack q
    pure (false, q)

/-- `timestamp_from_set`, zdbd/commands_set.c:16-29. -/
def timestampFrom (c : Client) (field : Nat) : Prog Unit := do
  if c.argc = field then pure () else do
    arg c field
    let t ← malloc
    useb t
    freeb t

/-! ### data files -/

/-- `data_get`, libzdb/data.c:464-528: the payload, or NULL. -/
def dataGet (sp : Space) : Prog (Option Nat) := do
  useb sp.droot
  let opened ← ask
  if opened = 0 then pure none else do
    let b ← malloc
    let read ← ask
    if read ≠ 0 then pure (some b) else do
      freeb b
      pure none

/-- `data_check`, libzdb/data.c:533-588. -/
def dataCheck (sp : Space) : Prog Unit := do
  useb sp.droot
  let opened ← ask
  if opened = 0 then pure () else do
    let header ← ask
    if header = 0 then pure () else do
      let b ← malloc
      useb b
      freeb b

/-- `data_insert`, libzdb/data.c:594-633. -/
def dataInsert (sp : Space) : Prog Bool := do
  useb sp.droot
  let h ← malloc
  useb h
  let written ← ask
  if written = 0 then do
    freeb h
    pure false
  else do
    freeb h
    let payload ← ask
    pure (payload ≠ 0)

/-- What `data_raw_get` answers: nothing usable, or the id and the payload (NULL both when the file cannot be
    opened). -/
inductive Raw where
  | error
  | got (id payload : Option Nat)

/-- `data_raw_get`, libzdb/data.c:390-409, with `data_raw_get_real` (libzdb/data.c:325-387) and `data_raw_error`
    (libzdb/data.c:317-323). -/
def dataRawGet (sp : Space) : Prog Raw := do
  useb sp.droot
  let opened ← ask
  if opened = 0 then pure (.got none none) else do
    let header ← ask
    if header = 0 then do
      free none
      free none
      pure .error
    else do
      let id ← malloc
      let idRead ← ask
      if idRead = 0 then do
        freeb id
        free none
        pure .error
      else do
        let b ← malloc
        let read ← ask
        if read = 0 then do
          freeb id
          freeb b
          pure .error
        else pure (.got (some id) (some b))

/-! ### index files -/

/-- `index_item_get_disk`, libzdb/index.c:453-483. -/
def itemGetDisk (sp : Space) : Prog (Option Nat) := do
  useb sp.iroot
  let item ← malloc
  let opened ← ask
  if opened = 0 then do
    freeb item
    pure none
  else do
    let read ← ask
    if read ≠ 0 then pure (some item) else do
      freeb item
      pure none

/-- `index_get`, libzdb/index_get.c:68-86: by the table of keys, or through the map of files
    (libzdb/index_get.c:16-59), the entry then copied into the shared `index_reusable_entry`. -/
def indexGet (s : Srv) (sp : Space) : Prog Bool := do
  useb sp.iroot
  if sp.seqMode then
    match sp.seq with
    | none => do
      use none
      pure false
    | some (h, m) => do
      useb h
      let known ← ask
      if known = 0 then pure false else do
        useb m
        let item ← itemGetDisk sp
        match item with
        | none => pure false
        | some i => do
          useb i
          useb s.reuse
          freeb i
          let deleted ← ask
          pure (deleted = 0)
  else do
    let found ← ask
    pure (found ≠ 0)

/-- `index_dirty_resize`, libzdb/index.c:800-829. -/
def dirtyResize (b : Nat) : Prog Nat := do
  let grow ← ask
  if grow = 0 then pure b else do
    let b ← realloc b
    useb b
    pure b

/-- `index_seqid_push`, libzdb/index_seq.c:50-65. -/
def seqPush (p : Nat × Nat) : Prog (Nat × Nat) := do
  useb p.1
  let grow ← ask
  let m ← if grow = 0 then pure p.2 else realloc p.2
  useb m
  pure (p.1, m)

/-- `index_jump_next` and `data_jump_next`, libzdb/index.c:341-399, libzdb/data.c:413-447. -/
def jump (sp : Space) : Prog Space := do
  useb sp.iroot
  useb sp.ifile
  let d ← dirtyResize sp.dirty
  let seq ← match sp.seq with
    | none => pure none
    | some p => do
      let p ← seqPush p
      pure (some p)
  useb sp.droot
  useb sp.dfile
  pure { sp with dirty := d, seq := seq }

/-- `index_scan_error`, libzdb/index_scan.c:18-27. -/
def scanError (header : Option Nat) : Prog Unit := free header

/-- What one pass of a scan gives. -/
inductive Scan where
  | success (header : Nat)
  | over
  | again

/-- `index_next_header_real` and its siblings (libzdb/index_scan.c:79-179, 226-295, 341-387, 432-500): the header is NULL
    until the entry has been found to be alive. -/
def scanReal : Prog Scan := do
  let alive ← ask
  match alive with
  | 0 => do
    scanError none
    pure .over
  | 1 => do
    scanError none
    pure .again
  | _ => do
    let h ← malloc
    useb h
    let read ← ask
    if read ≠ 0 then pure (.success h) else do
      scanError (some h)
      pure .over

/-- `index_next_header` and its siblings, libzdb/index_scan.c:181-223, 297-339, 390-430, 503-545; a loop the code does not
    bound. -/
def scanLoop (sp : Space) : Nat → Prog (Option Nat)
  | 0 => .die
  | n + 1 => do
    useb sp.iroot
    let opened ← ask
    if opened = 0 then do
      scanError none
      pure none
    else do
      let r ← scanReal
      match r with
      | .success h => pure (some h)
      | .over => pure none
      | .again => scanLoop sp n

/-- `index_entry_deserialize`, libzdb/index.c:636-676. -/
def deserialize (sp : Space) : Prog (Option Nat) := do
  let ok ← ask
  if ok = 0 then pure none else do
    let item ← itemGetDisk sp
    match item with
    | none => pure none
    | some i => do
      useb i
      let same ← ask
      if same = 0 then do
        freeb i
        pure none
      else do
        let e ← malloc
        useb e
        useb i
        freeb i
        pure (some e)

/-! ### commands on data -/

/-- `command_get_single`, zdbd/commands_get.c:15-57. -/
def getSingle (s : Srv) (sp : Space) (q : List Resp) : Prog (List Resp) := do
  let found ← indexGet s sp
  if !found then replyStack q else do
    let p ← dataGet sp
    match p with
    | none => do
      let q ← replyStack q
      free none
      pure q
    | some b => do
      useb b
      let r ← bulk
      let q ← replyHeap q r
      freeb b
      pure q

/-- `command_get`, zdbd/commands_get.c:59-75. -/
def cmdGet (s : Srv) (c : Client) (sp : Space) (q : List Resp) : Prog (List Resp) := do
  let (ok, q) ← validate c 2 false q
  if !ok then pure q else do
    arg c 1
    let (ok, q) ← check q
    if !ok then pure q else getSingle s sp q

/-- The loop of MGET, zdbd/commands_get.c:105-107. -/
def mgetLoop (s : Srv) (c : Client) (sp : Space) : Nat → Nat → List Resp → Prog (List Resp)
  | _, 0, q => pure q
  | k, n + 1, q => do
    arg c k
    let q ← getSingle s sp q
    mgetLoop s c sp (k + 1) n q

/-- `command_mget`, zdbd/commands_get.c:77-111. -/
def cmdMget (s : Srv) (c : Client) (sp : Space) (q : List Resp) : Prog (List Resp) := do
  if c.argc < 2 then replyStack q else do
    argsFrom c 1 (c.argc - 1)
    let (ok, q) ← check q
    if !ok then pure q else do
      let q ← replyStack q
      mgetLoop s c sp 1 (c.argc - 1) q

/-- EXISTS, LENGTH, KEYTIME (zdbd/commands_dataset.c:15-52, 184-272) and KEYCUR (zdbd/commands_scan.c:335-372). -/
def cmdLookup (s : Srv) (c : Client) (sp : Space) (q : List Resp) : Prog (List Resp) := do
  let (ok, q) ← validate c 2 false q
  if !ok then pure q else do
    arg c 1
    let (ok, q) ← check q
    if !ok then pure q else do
      let _ ← indexGet s sp
      replyStack q

/-- `command_check`, zdbd/commands_dataset.c:54-102. -/
def cmdCheck (s : Srv) (c : Client) (sp : Space) (q : List Resp) : Prog (List Resp) := do
  let (ok, q) ← validate c 2 false q
  if !ok then pure q else do
    arg c 1
    let (ok, q) ← check q
    if !ok then pure q else do
      let found ← indexGet s sp
      if !found then replyStack q else do
        dataCheck sp
        replyStack q

/-- `command_del`, zdbd/commands_dataset.c:104-182; `index_entry_delete` works in `index_transition`. -/
def cmdDel (s : Srv) (c : Client) (sp : Space) (q : List Resp) : Prog (List Resp) := do
  let (ok, q) ← if c.argc = 3 then check q else validate c 2 false q
  if !ok then pure q else do
    arg c 1
    let (ok, q) ← check q
    if !ok then pure q else do
      let found ← indexGet s sp
      if !found then replyStack q else do
        let (ok, q) ← check q
        if !ok then pure q else do
          timestampFrom c 2
          let written ← dataInsert sp
          if written then useb s.trans
          replyStack q

/-- `data_compare_matching`, zdbd/commands_set.c:52-74: the payload is read and forgotten. -/
def compareMatching (sp : Space) : Prog Bool := do
  let length ← ask
  if length = 0 then pure false else do
    let p ← dataGet sp
    match p with
    | none => pure false
    | some b => do
      useb b
      let same ← ask
      lose b
      pure (same ≠ 0)

/-- `redis_set_handler_userkey` and `redis_set_handler_sequential`, zdbd/commands_set.c:76-171, 173-283. -/
def setHandler (s : Srv) (c : Client) (sp : Space) (existing : Bool) (q : List Resp) : Prog (List Resp) := do
  arg c 1
  let (ok, q) ← check q
  if !ok then pure q else do
    arg c 2
    timestampFrom c 3
    let crc ← ask
    let same ← if existing && crc ≠ 0 then compareMatching sp else pure false
    if same then replyStack q else do
      let written ← dataInsert sp
      if !written then replyStack q else do
        useb s.trans                                  -- index_set writes through index_transition
        let (ok, q) ← check q
        if !ok then pure q else do
          let r ← bulk
          replyHeap q r

/-- `command_set`, zdbd/commands_set.c:292-380. -/
def cmdSet (s : Srv) (c : Client) (sp : Space) (q : List Resp) : Prog (Space × List Resp) := do
  let (ok, q) ← if c.argc = 4 then check q else validate c 3 true q
  if !ok then pure (sp, q) else do
    arg c 1
    let (ok, q) ← check q
    if !ok then pure (sp, q) else do
      let named ← ask
      let existing ← if named = 0 then pure false else indexGet s sp
      arg c 2
      let (ok, q) ← check q
      if !ok then pure (sp, q) else do
        let full ← ask
        let sp ← if full = 0 then pure sp else jump sp
        let q ← setHandler s c sp existing q
        pure (sp, q)

/-- `scan_list_t`: the array of headers, the array of positions, the headers. -/
structure ScanList where
  items : Option Nat
  infos : Option Nat
  heads : List Nat
  room : Nat

/-- `scanlist_append`, zdbd/commands_scan.c:34-50. -/
def scanAppend (l : ScanList) (h : Nat) : Prog ScanList := do
  let l ← if l.heads.length + 1 > l.room then do
      let i ← reallocp l.items
      let n ← reallocp l.infos
      pure { l with items := some i, infos := some n, room := l.room + 32 }
    else pure l
  use l.items
  use l.infos
  pure { l with heads := l.heads ++ [h] }

/-- `scanlist_free`, zdbd/commands_scan.c:56-62. -/
def scanFree (l : ScanList) : Prog Unit := do
  each freeb l.heads
  free l.items
  free l.infos

/-- The passes of SCAN and RSCAN, zdbd/commands_scan.c:248-266, 305-323. -/
def scanMany (sp : Space) : Nat → ScanList → Prog ScanList
  | 0, l => pure l
  | n + 1, l => do
    let fuel ← ask
    let h ← scanLoop sp fuel
    match h with
    | none => pure l
    | some h => do
      useb h
      let l ← scanAppend l h
      scanMany sp n l

/-- `command_scan_send_scanlist`, zdbd/commands_scan.c:91-154. -/
def scanSend (l : ScanList) (q : List Resp) : Prog (List Resp) := do
  if l.heads.isEmpty then replyStack q else do
    let r ← malloc
    use l.items
    use l.infos
    each useb l.heads
    useb r
    replyHeap q r

/-- `command_scan` and `command_rscan`, zdbd/commands_scan.c:221-273, 278-330, with `scan_initial_info` and
    `scan_initial_get` (zdbd/commands_scan.c:156-206). -/
def cmdScan (c : Client) (sp : Space) (q : List Resp) : Prog (List Resp) := do
  let (ok, q) ← check q
  if !ok then pure q else do
    if c.argc = 1 then do
      let fuel ← ask
      let h ← scanLoop sp fuel
      match h with
      | none => replyStack q
      | some h => do
        let l ← scanAppend ⟨none, none, [], 0⟩ h
        let n ← ask
        let l ← scanMany sp n l
        let q ← scanSend l q
        scanFree l
        pure q
    else do
      arg c 1
      let (ok, q) ← check q
      if !ok then pure q else do
        let e ← deserialize sp
        match e with
        | none => replyStack q
        | some e => do
          useb e
          freeb e
          let n ← ask
          let l ← scanMany sp n ⟨none, none, [], 0⟩
          let q ← scanSend l q
          scanFree l
          pure q

/-- The array of the keys KSCAN finds (`list_append`, zdbd/commands_scan.c:376-388); the keys themselves are in the
    table. -/
def kscanFill : Nat → Option Nat → Prog (Option Nat)
  | 0, p => pure p
  | n + 1, p => do
    let grow ← ask
    let p ← if grow = 0 then pure p else do
        let b ← reallocp p
        pure (some b)
    kscanFill n p

/-- `command_kscan`, zdbd/commands_scan.c:451-498, with `command_kscan_send_list` (zdbd/commands_scan.c:409-449). -/
def cmdKscan (c : Client) (sp : Space) (q : List Resp) : Prog (List Resp) := do
  useb sp.iroot
  if sp.seqMode then replyStack q else do
    let (ok, q) ← validate c 2 false q
    if !ok then pure q else do
      arg c 1
      let n ← ask
      let p ← kscanFill n none
      let none' ← ask
      let q ← if none' = 0 then replyStack q else do
          let r ← malloc
          useb r
          replyHeap q r
      free p
      pure q

/-- `history_send_array`, zdbd/commands_history.c:52-98. -/
def historyArray (payload : Nat) (q : List Resp) : Prog (List Resp) := do
  let r ← malloc
  useb r
  useb payload
  let q ← replyStack q
  freeb r
  pure q

/-- `history_send`, zdbd/commands_history.c:100-128: when the payload cannot be read the item is forgotten. -/
def historySend (sp : Space) (item : Option Nat) (q : List Resp) : Prog (List Resp) := do
  use item
  let p ← dataGet sp
  match p with
  | none => do
    let q ← replyStack q
    free none
    match item with
    | none => pure q
    | some i => do
      lose i
      pure q
  | some b => do
    use item
    let q ← historyArray b q
    freeb b
    free item
    pure q

/-- `command_history`, zdbd/commands_history.c:133-226. -/
def cmdHistory (s : Srv) (c : Client) (sp : Space) (q : List Resp) : Prog (List Resp) := do
  if c.argc ≠ 2 ∧ c.argc ≠ 3 then replyStack q else do
    let (ok, q) ← check q
    if !ok then pure q else do
      if c.argc = 2 then do
        arg c 1
        let found ← indexGet s sp
        if !found then replyStack q else do
          let item ← itemGetDisk sp
          match item with
          | none => do
            hazard .history
            historySend sp none q
          | some i => historySend sp (some i) q
      else do
        arg c 2
        let (ok, q) ← check q
        if !ok then pure q else do
          arg c 1
          let item ← itemGetDisk sp
          match item with
          | none => replyStack q
          | some i => do
            useb i
            let same ← ask
            if same = 0 then do
              freeb i
              replyStack q
            else historySend sp (some i) q

/-! ### commands on the system and on namespaces -/

/-- PING, TIME, STOP, DBSIZE, `*` and everything that answers with a text of its own (zdbd/commands_system.c:16-59,
    zdbd/commands_namespace.c:600-607). -/
def cmdText (sp : Space) (q : List Resp) : Prog (List Resp) := do
  useb sp.iroot
  replyStack q

/-- `command_info`, zdbd/commands_system.c:61-123. -/
def cmdInfo (q : List Resp) : Prog (List Resp) := do
  let r ← bulk
  let q ← replyStack q
  freeb r
  pure q

/-- `command_hooks`, zdbd/commands_system.c:125-180. -/
def cmdHooks (q : List Resp) : Prog (List Resp) := do
  let (ok, q) ← check q
  if !ok then pure q else do
    let r ← malloc
    useb r
    replyHeap q r

/-- `command_index` and `command_index_dirty`, zdbd/commands_system.c:182-250. -/
def cmdIndex (c : Client) (sp : Space) (q : List Resp) : Prog (List Resp) := do
  let (ok, q) ← check q
  if !ok then pure q else do
    let (ok, q) ← validateMin c 2 q
    if !ok then pure q else do
      arg c 1
      let dirty ← ask
      if dirty = 0 then replyStack q else
        if c.argc = 3 then do
          arg c 2
          let reset ← ask
          if reset ≠ 0 then do
            useb sp.iroot
            useb sp.dirty
          replyStack q
        else do
          useb sp.iroot
          let l ← malloc                              -- index_dirty_list
          useb sp.dirty
          let r ← malloc
          useb l
          useb r
          let q ← replyHeap q r
          freeb l
          pure q

/-- `command_data` and `command_data_raw`, zdbd/commands_system.c:252-362. -/
def cmdData (c : Client) (sp : Space) (q : List Resp) : Prog (List Resp) := do
  let (ok, q) ← check q
  if !ok then pure q else do
    let (ok, q) ← validateMin c 2 q
    if !ok then pure q else do
      arg c 1
      let raw ← ask
      if raw = 0 then replyStack q else do
        let (ok, q) ← validateMin c 4 q
        if !ok then pure q else do
          arg c 2
          let t ← malloc
          useb t
          freeb t
          arg c 3
          let t ← malloc
          useb t
          freeb t
          let r ← dataRawGet sp
          match r with
          | .error => replyStack q
          | .got id payload => do
            let valid ← ask
            if valid = 0 ∨ id = none then do
              free payload
              free id
              replyStack q
            else do
              let r ← malloc
              use id
              use payload
              useb r
              free payload
              free id
              replyHeap q r

/-- `command_nsinfo`, zdbd/commands_namespace.c:270-384, on the namespace found. -/
def nsinfo (sp : Space) (q : List Resp) : Prog (List Resp) := do
  let i ← malloc
  useb sp.self
  useb sp.name
  useb sp.iroot
  useb sp.droot
  useb sp.ipath
  useb sp.dpath
  useb i
  let r ← bulk
  let q ← replyStack q
  freeb r
  freeb i
  pure q

/-- `index_rehash`, libzdb/index_loader.c:557-587. -/
def rehash (seqMode : Bool) (seq : Option (Nat × Nat)) : Prog (Option (Nat × Nat)) :=
  if seqMode then
    match seq with
    | some p => pure (some p)
    | none => do
      let h ← malloc
      let m ← malloc
      let p ← seqPush (h, m)
      pure (some p)
  else pure seq

/-- The index of a namespace while it is loaded. -/
structure Loading where
  dirty : Nat
  seqMode : Bool
  seq : Option (Nat × Nat)

/-- The mode a header gives, if there is one. -/
def headerMode (mode : Nat) (old : Bool) : Bool :=
  match mode with
  | 0 => false
  | 1 => true
  | _ => old

/-- `index_load_file`, libzdb/index_loader.c:183-384, on `n` files: the mode is taken from the header, each file is read
    into a buffer of its own. -/
def loadFiles : Nat → Loading → Prog Loading
  | 0, l => pure l
  | n + 1, l => do
    let d ← dirtyResize l.dirty
    let mode ← ask
    let seq ← rehash (headerMode mode l.seqMode) l.seq
    let b ← malloc
    useb b
    let seq ← match headerMode mode l.seqMode, seq with
      | true, some p => do
        let p ← seqPush p
        pure (some p)
      | _, s => pure s
    freeb b
    loadFiles n ⟨d, headerMode mode l.seqMode, seq⟩

/-- `namespace_load_lazy`, libzdb/namespace.c:227-234, with `index_init` (libzdb/index_loader.c:522-612) and `data_init`
    (libzdb/data.c:688-718). -/
def loadLazy (self name ipath dpath : Nat) (pass : Option Nat) : Prog Space := do
  let iroot ← malloc
  let ifile ← malloc
  let dirty ← malloc
  let mode ← ask
  let seq ← rehash (mode ≠ 0) none
  let n ← ask
  let l ← loadFiles n ⟨dirty, mode ≠ 0, seq⟩
  let droot ← malloc
  let dfile ← malloc
  pure { self := self, name := name, ipath := ipath, dpath := dpath, pass := pass, iroot := iroot, ifile := ifile,
         dirty := l.dirty, seqMode := l.seqMode, seq := l.seq, droot := droot, dfile := dfile }

/-- `namespace_load`, libzdb/namespace.c:238-285: when a directory cannot be made the object is forgotten. -/
def namespaceLoad : Prog (Option Space) := do
  let self ← malloc
  let name ← malloc
  let ipath ← malloc
  let dpath ← malloc
  let ensured ← ask
  if ensured = 0 then do
    lose self
    lose name
    lose ipath
    lose dpath
    pure none
  else do
    let desc ← ask
    match desc with
    | 0 => do
      freeb name
      freeb ipath
      freeb dpath
      free none
      freeb self
      pure none
    | 1 => do
      let sp ← loadLazy self name ipath dpath none
      pure (some sp)
    | _ => do
      let p ← malloc
      useb p
      let sp ← loadLazy self name ipath dpath (some p)
      pure (some sp)

/-- `index_destroy`, libzdb/index_loader.c:616-630, and `data_destroy`, libzdb/data.c:680-686. -/
def destroy (sp : Space) : Prog Unit := do
  useb sp.iroot
  freeb sp.ifile
  freeb sp.dirty
  match sp.seq with
  | none => pure ()
  | some (h, m) => do
    useb h
    freeb m
    freeb h
  freeb sp.iroot
  useb sp.droot
  freeb sp.dfile
  freeb sp.droot

/-- `namespace_free`, libzdb/namespace.c:498-504. -/
def namespaceFree (sp : Space) : Prog Unit := do
  useb sp.self
  freeb sp.name
  freeb sp.ipath
  freeb sp.dpath
  free sp.pass
  freeb sp.self

/-- `namespace_reload`, libzdb/namespace.c:605-622. -/
def reload (sp : Space) : Prog Space := do
  useb sp.self
  destroy sp
  loadLazy sp.self sp.name sp.ipath sp.dpath sp.pass

/-- `namespace_flush`, libzdb/namespace.c:629-653. -/
def flush (sp : Space) : Prog Space := do
  useb sp.iroot
  let i ← malloc
  useb sp.droot
  let d ← malloc
  destroy sp
  useb i
  useb d
  let sp ← loadLazy sp.self sp.name sp.ipath sp.dpath sp.pass
  freeb i
  freeb d
  pure sp

/-- `command_nsset_password`, zdbd/commands_namespace.c:395-410: a new password takes the place of the old one, which is
    forgotten. -/
def nssetPassword (sp : Space) : Prog Space := do
  let clear ← ask
  if clear ≠ 0 then do
    free sp.pass
    pure { sp with pass := none }
  else do
    let p ← malloc
    match sp.pass with
    | none => pure { sp with pass := some p }
    | some old => do
      lose old
      pure { sp with pass := some p }

/-- `command_nsset` (zdbd/commands_namespace.c:493-583) on the namespace found. -/
def nsset (sp : Space) (q : List Resp) : Prog (Space × List Resp) := do
  useb sp.self
  let what ← ask
  match what with
  | 0 => do                                           -- mode
    let (ok, q) ← check q
    if !ok then pure (sp, q) else do
      let m ← ask
      useb sp.iroot
      let seq ← rehash (m ≠ 0) sp.seq
      let q ← replyStack q
      pure ({ sp with seqMode := m ≠ 0, seq := seq }, q)
  | 1 => do                                           -- password
    let sp ← nssetPassword sp
    use (some sp.ipath)                               -- namespace_commit
    let q ← replyStack q
    pure (sp, q)
  | _ => do
    let q ← replyStack q
    pure (sp, q)

/-- `namespace_get`, libzdb/namespace.c:58-67: the names are compared one after the other. -/
def namespaceGet : List Space → Prog (Option Nat)
  | [] => pure none
  | sp :: l => do
    useb sp.self
    useb sp.name
    let same ← ask
    if same ≠ 0 then pure (some sp.self) else namespaceGet l

/-- `f` on the namespace behind a pointer. A pointer to none of them is followed and is bad. -/
def onSpace {α : Type} (p : Nat) (f : Space → Prog (Space × α)) : List Space → Prog (List Space × α)
  | [] => do
    use none
    .die
  | sp :: l =>
    if sp.self = p then do
      let (sp', a) ← f sp
      pure (sp' :: l, a)
    else do
      let (l', a) ← onSpace p f l
      pure (sp :: l', a)

/-- `namespace_delete`, libzdb/namespace.c:671-699; the slot is emptied. -/
def dropSpace (p : Nat) : List Space → Prog (List Space)
  | [] => do
    use none
    .die
  | sp :: l =>
    if sp.self = p then do
      useb sp.self
      destroy sp
      useb sp.ipath
      useb sp.dpath
      namespaceFree sp
      pure l
    else do
      let l' ← dropSpace p l
      pure (sp :: l')

/-- `redis_detach_clients`, zdbd/redis.c:945-957. -/
def detach (p : Nat) : List Client → List Client
  | [] => []
  | c :: l => (if c.ns = some p then { c with ns := none } else c) :: detach p l

/-- `command_nsnew`, zdbd/commands_namespace.c:18-57, with `namespace_create` and `namespace_push`
    (libzdb/namespace.c:291-365). -/
def cmdNsnew (s : Srv) (c : Client) (q : List Resp) : Prog (Srv × List Resp) := do
  let (ok, q) ← check q
  if !ok then pure (s, q) else do
    let (ok, q) ← validate c 2 false q
    if !ok then pure (s, q) else do
      arg c 1
      let (ok, q) ← check q
      if !ok then pure (s, q) else do
        let found ← namespaceGet s.spaces
        match found with
        | some _ => do
          let q ← replyStack q
          pure (s, q)
        | none => do
          useb s.nsroot
          let sp ← namespaceLoad
          match sp with
          | none => do
            let q ← replyStack q
            pure (s, q)
          | some sp => do
            let room ← ask
            let nl ← if room ≠ 0 then pure s.nslist else realloc s.nslist
            useb nl
            let q ← replyStack q
            pure ({ s with nslist := nl, spaces := s.spaces ++ [sp] }, q)

/-- `command_nsdel`, zdbd/commands_namespace.c:61-109. -/
def cmdNsdel (s : Srv) (c : Client) (q : List Resp) : Prog (Srv × List Resp) := do
  let (ok, q) ← check q
  if !ok then pure (s, q) else do
    let (ok, q) ← validate c 2 false q
    if !ok then pure (s, q) else do
      arg c 1
      let (ok, q) ← check q
      if !ok then pure (s, q) else do
        let found ← namespaceGet s.spaces
        match found with
        | none => do
          let q ← replyStack q
          pure (s, q)
        | some p =>
          if c.ns = some p then do
            let q ← replyStack q
            pure (s, q)
          else do
            useb s.clist
            each (fun d : Client => useb d.self) s.clients
            let cl := detach p s.clients
            let l ← dropSpace p s.spaces
            let q ← replyStack q
            pure ({ s with clients := cl, spaces := l }, q)

/-- NSSET, NSINFO and RELOAD: the namespace of a name, and the command on it (zdbd/commands_namespace.c:270-384, 493-583,
    609-640). -/
def named (s : Srv) (c : Client) (n : Nat) (f : Space → List Resp → Prog (Space × List Resp)) (q : List Resp) :
    Prog (Srv × List Resp) := do
  let (ok, q) ← check q
  if !ok then pure (s, q) else do
    let (ok, q) ← validate c n false q
    if !ok then pure (s, q) else do
      argsFrom c 1 (n - 1)
      let (ok, q) ← check q
      if !ok then pure (s, q) else do
        let found ← namespaceGet s.spaces
        match found with
        | none => do
          let q ← replyStack q
          pure (s, q)
        | some p => do
          let (l, q) ← onSpace p (fun sp => f sp q) s.spaces
          pure ({ s with spaces := l }, q)

/-- The password of a namespace is compared with the one given, SELECT, zdbd/commands_namespace.c:137-231. -/
def selectCheck (c : Client) (sp : Space) (q : List Resp) : Prog (Bool × List Resp) := do
  useb sp.self
  match sp.pass with
  | none => pure (true, q)
  | some pw =>
    if c.argc < 3 then check q
    else if c.argc > 4 then do
      let q ← replyStack q
      pure (false, q)
    else if c.argc = 3 then do
      arg c 2
      useb pw
      check q
    else do
      arg c 2
      let (ok, q) ← check q
      if !ok then pure (false, q) else
        match c.nonce with
        | none => do
          let q ← replyStack q
          pure (false, q)
        | some n => do
          arg c 3
          let (ok, q) ← check q
          if !ok then pure (false, q) else do
            useb n                                    -- zdb_hash_password
            useb pw
            let t ← malloc
            useb t
            freeb t
            let e ← malloc
            useb e
            let same ← ask
            if same = 0 then do
              freeb e
              let q ← replyStack q
              pure (false, q)
            else do
              freeb e
              pure (true, q)

/-- `command_select`, zdbd/commands_namespace.c:114-245. -/
def cmdSelect (s : Srv) (c : Client) (q : List Resp) : Prog (Option Nat × List Resp) := do
  if c.argc < 2 then do
    let q ← replyStack q
    pure (c.ns, q)
  else do
    arg c 1
    let (ok, q) ← check q
    if !ok then pure (c.ns, q) else do
      let found ← namespaceGet s.spaces
      match found with
      | none => do
        let q ← replyStack q
        pure (c.ns, q)
      | some p => do
        let (_, r) ← onSpace p (fun sp => do
          let r ← selectCheck c sp q
          pure (sp, r)) s.spaces
        if !r.1 then pure (c.ns, r.2) else do
          let q ← replyStack r.2
          pure (some p, q)

/-- `command_auth`, zdbd/commands_auth.c:157-170, and its three parts (zdbd/commands_auth.c:19-155): the new nonce of the
    client. -/
def cmdAuth (c : Client) (q : List Resp) : Prog (Option Nat × List Resp) := do
  if c.argc = 2 then do
    let (ok, q) ← check q
    if !ok then pure (c.nonce, q) else do
      let (ok, q) ← validate c 2 false q
      if !ok then pure (c.nonce, q) else do
        arg c 1
        let q ← replyStack q
        pure (c.nonce, q)
  else do
    let (ok, q) ← validate c 3 false q
    if !ok then pure (c.nonce, q) else do
      arg c 1
      let (ok, q) ← check q
      if !ok then pure (c.nonce, q) else do
        arg c 2
        let challenge ← ask
        if challenge ≠ 0 then do
          let entropy ← ask
          if entropy = 0 then do
            let q ← replyStack q
            pure (c.nonce, q)
          else do
            let n ← malloc
            useb n
            free c.nonce
            useb n
            let q ← replyStack q
            pure (some n, q)
        else do
          let (ok, q) ← check q
          if !ok then pure (c.nonce, q) else
            match c.nonce with
            | none => do
              let q ← replyStack q
              pure (none, q)
            | some n => do
              useb n
              let (ok, q) ← check q
              if !ok then pure (some n, q) else do
                useb n                                -- zdb_hash_password, libzdb/security.c:40-63
                let t ← malloc
                useb t
                freeb t
                let e ← malloc
                useb e
                let q ← replyStack q
                freeb e
                freeb n
                pure (none, q)

/-- `command_wait`, zdbd/commands.c:211-260: is the client waiting? -/
def cmdWait (c : Client) (q : List Resp) : Prog (Bool × List Resp) := do
  if c.argc ≠ 2 ∧ c.argc ≠ 3 then do
    let q ← replyStack q
    pure (c.watching, q)
  else do
    arg c 1
    let (ok, q) ← check q
    if !ok then pure (c.watching, q) else do
      if c.argc = 3 then arg c 2
      let (ok, q) ← check q
      if !ok then pure (c.watching, q) else pure (true, q)

/-- The commands (zdbd/commands.c:111-158). -/
inductive Cmd where
  | wait | mirror | master | auth | hooks | index | data | set | get | mget | del | lookup | check | scan | kscan
  | history | info | text | nsnew | nsdel | nsset | nsinfo | nsjump | select | reload | flush | nslist
deriving DecidableEq

/-- The table of commands; SCAN and RSCAN, EXISTS, LENGTH, KEYTIME and KEYCUR, and the commands that only answer with a
    text, are one each. -/
def commands : List Cmd :=
  [.wait, .mirror, .master, .auth, .hooks, .index, .data, .set, .get, .mget, .del, .lookup, .check, .scan, .kscan,
   .history, .info, .text, .nsnew, .nsdel, .nsset, .nsinfo, .nsjump, .select, .reload, .flush, .nslist]

/-- NSLIST, zdbd/commands_namespace.c:249-266. -/
def nslist : List Space → List Resp → Prog (List Resp)
  | [], q => pure q
  | sp :: l, q => do
    useb sp.self
    useb sp.name
    let q ← replyStack q
    nslist l q

/-- A command on the namespace of the client. -/
def inSpace (s : Srv) (c : Client) (p : Nat) (f : Space → List Resp → Prog (Space × List Resp)) : Prog (Srv × Client) := do
  let (l, q) ← onSpace p (fun sp => f sp c.resp) s.spaces
  pure ({ s with spaces := l }, { c with resp := q })

/-- A command that leaves the namespace as it is. -/
def reads (f : Space → List Resp → Prog (List Resp)) (sp : Space) (q : List Resp) : Prog (Space × List Resp) := do
  useb sp.self
  let q ← f sp q
  pure (sp, q)

/-- A command: the server without the client, the client, its namespace. -/
def Cmd.prog (k : Cmd) (s : Srv) (c : Client) (p : Nat) : Prog (Srv × Client) :=
  match k with
  | .wait => do
    let (w, q) ← cmdWait c c.resp
    pure (s, { c with watching := w, resp := q })
  | .mirror => do
    let (ok, q) ← Heap.check c.resp
    if !ok then pure (s, { c with resp := q }) else do
      let q ← replyStack q
      pure (s, { c with mirror := true, resp := q })
  | .master => do
    let (ok, q) ← Heap.check c.resp
    if !ok then pure (s, { c with resp := q }) else do
      let q ← replyStack q
      pure (s, { c with master := true, resp := q })
  | .auth => do
    let (n, q) ← cmdAuth c c.resp
    pure (s, { c with nonce := n, resp := q })
  | .hooks => do
    let q ← cmdHooks c.resp
    pure (s, { c with resp := q })
  | .index => inSpace s c p (reads fun sp q => cmdIndex c sp q)
  | .data => inSpace s c p (reads fun sp q => cmdData c sp q)
  | .set => inSpace s c p fun sp q => cmdSet s c sp q
  | .get => inSpace s c p (reads fun sp q => cmdGet s c sp q)
  | .mget => inSpace s c p (reads fun sp q => cmdMget s c sp q)
  | .del => inSpace s c p (reads fun sp q => cmdDel s c sp q)
  | .lookup => inSpace s c p (reads fun sp q => cmdLookup s c sp q)
  | .check => inSpace s c p (reads fun sp q => cmdCheck s c sp q)
  | .scan => inSpace s c p (reads fun sp q => cmdScan c sp q)
  | .kscan => inSpace s c p (reads fun sp q => cmdKscan c sp q)
  | .history => inSpace s c p (reads fun sp q => cmdHistory s c sp q)
  | .info => do
    let q ← cmdInfo c.resp
    pure (s, { c with resp := q })
  | .text => inSpace s c p (reads cmdText)
  | .nsnew => do
    let (s, q) ← cmdNsnew s c c.resp
    pure (s, { c with resp := q })
  | .nsdel => do
    let (s, q) ← cmdNsdel s c c.resp
    pure (s, { c with resp := q })
  | .nsset => do
    let (s, q) ← named s c 4 Heap.nsset c.resp
    pure (s, { c with resp := q })
  | .nsinfo => do
    let (s, q) ← named s c 2 (reads Heap.nsinfo) c.resp
    pure (s, { c with resp := q })
  | .nsjump => inSpace s c p fun sp q => do
      let (ok, q) ← Heap.check q
      if !ok then pure (sp, q) else do
        let sp ← jump sp
        let q ← replyStack q
        pure (sp, q)
  | .select => do
    let (n, q) ← cmdSelect s c c.resp
    pure (s, { c with ns := n, resp := q })
  | .reload => do
    let (s, q) ← named s c 2 (fun sp q => do
      let sp ← Heap.reload sp
      let q ← replyStack q
      pure (sp, q)) c.resp
    pure (s, { c with resp := q })
  | .flush => inSpace s c p fun sp q => do
      useb sp.self
      let (ok, q) ← Heap.check q
      if !ok then pure (sp, q) else do
        let sp ← Heap.flush sp
        let q ← replyStack q
        pure (sp, q)
  | .nslist => do
    useb s.nsroot
    let q ← replyStack c.resp
    let q ← Heap.nslist s.spaces q
    pure (s, { c with resp := q })

/-! ### requests -/

/-- What becomes of a client: it stays, it is dropped at once, or it is to be dropped but data that has already been read
    is worked on first and may change that (`value` is overwritten, zdbd/redis.c:736-797). -/
inductive Fate where
  | stays
  | dropped
  | doomed
deriving DecidableEq

/-- `redis_dispatcher`, zdbd/commands.c:160-208. -/
def dispatch (s : Srv) (c : Client) : Prog (Srv × Client × Fate) := do
  use c.argv
  match c.ns with
  | none => do
    let q ← replyStack c.resp
    pure (s, { c with resp := q }, .doomed)
  | some p => do
    if c.argc = 0 then hazard .owner
    arg c 0
    let k ← ask
    match commands[k]? with
    | none => do
      let q ← replyStack c.resp
      pure (s, { c with resp := q }, .stays)
    | some k => do
      let (s, c) ← k.prog s c p
      pure (s, c, .stays)

/-- `redis_mirror_client`, zdbd/redis.c:960-1027, to a client with the queue `q`. -/
def mirrorTo (s : Srv) (c : Client) (q : List Resp) : Prog (List Resp) := do
  let owner ← ask
  if owner = 0 then pure q else
    match c.ns with
    | none => do
      hazard .mirror
      use none
      pure q
    | some p => do
      let (_, _) ← onSpace p (fun sp => do
        useb sp.self
        useb sp.name
        pure (sp, ())) s.spaces
      argsFrom c 0 c.argc
      let b ← malloc
      useb b
      argsFrom c 0 c.argc
      replyHeap q b

/-- The loop of `redis_posthandler_client`, zdbd/redis.c:1139-1175, over the other clients. -/
def postLoop (s : Srv) (c : Client) : List Client → Prog (List Client)
  | [] => pure []
  | d :: l => do
    useb d.self
    if d.mirror then do
      let q ← mirrorTo s c d.resp
      let l ← postLoop s c l
      pure ({ d with resp := q } :: l)
    else do
      let hit ← ask
      if d.watching && hit ≠ 0 then do
        let q ← replyStack d.resp
        let l ← postLoop s c l
        pure ({ d with resp := q, watching := false } :: l)
      else do
        let l ← postLoop s c l
        pure (d :: l)

/-- `redis_posthandler_client`, zdbd/redis.c:1131-1178. -/
def post (s : Srv) (c : Client) : Prog Srv := do
  let executed ← ask
  if executed = 0 then pure s else do
    useb s.clist
    let l ← postLoop s c s.clients
    pure { s with clients := l }

/-- An argument is freed. -/
def freeArg (a : Arg) : Prog Unit := do
  useb a.obj
  free a.buf
  freeb a.obj

/-- `redis_free_request`, zdbd/redis.c:388-403. -/
def freeRequest (c : Client) : Prog Client := do
  useb c.req
  match c.argv with
  | none => pure { c with argc := 0, argv := none, args := [] }
  | some v => do
    useb v
    each freeArg (c.args.take c.argc)
    freeb v
    pure { c with argc := 0, argv := none, args := [] }

/-- `redis_handle_resp_ownerid`, zdbd/redis.c:604-647: the last argument of a request that comes from a master is its
    owner. `true`: the request is dropped. The slot of the argument keeps its pointer. -/
def ownerid (c : Client) : Prog (Client × Bool) := do
  if !c.master then pure (c, false) else do
    use c.argv
    match c.args[c.argc - 1]? with
    | none => do
      use none
      pure (c, true)
    | some a => do
      useb a.obj
      let long ← ask
      if long ≠ 0 then pure (c, true) else do
        use a.buf
        free a.buf
        freeb a.obj
        pure ({ c with argc := c.argc - 1 }, false)

/-- `redis_handle_resp_finished`, zdbd/redis.c:649-677. -/
def finished (s : Srv) (c : Client) : Prog (Srv × Client × Fate) := do
  let (c, drop) ← ownerid c
  if drop then do
    let c ← freeRequest c
    pure (s, { c with phase := .empty }, .stays)
  else do
    let (s, c, gone) ← dispatch s c
    let s ← post s c
    let c ← freeRequest c
    pure (s, { c with phase := .empty }, gone)

/-- `redis_handle_resp_empty`, zdbd/redis.c:405-466. The flag: go on with this request. -/
def respEmpty (c : Client) : Prog (Client × Bool × Fate) := do
  useb c.buf
  let line ← ask
  match line with
  | 0 => pure (c, false, .stays)
  | 1 => do                                           -- not an array
    let q ← replyStack c.resp
    pure ({ c with resp := q }, false, .dropped)
  | 2 => do                                           -- no argument, or too many of them
    let n ← ask
    let q ← replyStack c.resp
    pure ({ c with argc := n, resp := q }, false, .stays)
  | 3 => do                                           -- a negative number of arguments
    let q ← replyStack c.resp
    pure ({ c with resp := q }, false, .dropped)
  | n => do
    let v ← malloc
    pure ({ c with argc := n - 3, argv := some v, args := [], phase := .header }, true, .stays)

/-- `redis_handle_resp_header`, zdbd/redis.c:468-530. -/
def respHeader (c : Client) : Prog (Client × Bool × Fate) := do
  useb c.buf
  let line ← ask
  match line with
  | 0 => pure (c, false, .stays)
  | 1 => do                                           -- not a string
    let q ← replyStack c.resp
    pure ({ c with resp := q }, false, .stays)
  | _ => do
    let o ← malloc
    use c.argv
    useb o
    let length ← ask
    if length = 0 then do                             -- too big, or no memory for it
      let q ← replyStack c.resp
      pure ({ c with args := c.args ++ [⟨o, none⟩], resp := q }, false, .dropped)
    else do
      let b ← malloc
      pure ({ c with args := c.args ++ [⟨o, some b⟩], phase := .payload }, true, .stays)

/-- `redis_handle_resp_payload`, zdbd/redis.c:532-598. -/
def respPayload (c : Client) : Prog (Client × Bool × Fate) := do
  useb c.buf
  use c.argv
  match c.args.getLast? with
  | none => do
    use none
    pure (c, false, .stays)
  | some a => do
    useb a.obj
    use a.buf
    let enough ← ask
    if enough = 0 then pure (c, false, .stays)
    else pure ({ c with phase := .header }, true, .stays)

/-- One turn of the loop of `redis_chunk_read`, zdbd/redis.c:736-789. An argument that is complete leaves the state at the
    next header; with the last one the request is complete. -/
def turn (s : Srv) (c : Client) : Prog (Srv × Client × Fate) := do
  let (c, on, fate) ← if c.phase = .empty then respEmpty c else pure (c, true, .stays)
  if !on then pure (s, c, fate) else do
    let (c, on, fate) ← if c.phase = .header then respHeader c else pure (c, true, .stays)
    if !on then pure (s, c, fate) else do
      let (c, on, fate) ← if c.phase = .payload then respPayload c else pure (c, true, .stays)
      if !on then pure (s, c, fate) else
        if c.phase = .header ∧ c.args.length = c.argc then finished s c
        else pure (s, c, .stays)

/-- `redis_chunk_read`, zdbd/redis.c:681-812: as many turns as there is data for; `true`: the client is to be freed. -/
def chunk : Nat → Srv → Client → Prog (Srv × Client × Bool)
  | 0, s, c => do
    let closed ← ask                                  -- nothing more to read, or the connection is closed
    pure (s, c, closed ≠ 0)
  | n + 1, s, c => do
    useb c.self
    useb c.req
    let (s, c, fate) ← turn s c
    match fate with
    | .stays => chunk n s c
    | .dropped => pure (s, c, true)
    | .doomed => do
      let more ← ask
      if more = 0 then pure (s, c, true) else chunk n s c

/-! ### the server -/

/-- `socket_client_new`, zdbd/redis.c:832-912. -/
def clientNew (s : Srv) (fd : Nat) : Prog Srv := do
  let grow ← ask
  let l ← if grow = 0 then pure s.clist else realloc s.clist
  let self ← malloc
  useb self
  let buf ← malloc
  let req ← malloc
  useb req
  useb l
  useb s.nslist
  let ns := s.spaces.head?.map (·.self)               -- namespace_get_default
  pure { s with clist := l, clients := s.clients ++
           [{ fd := fd, self := self, buf := buf, req := req, nonce := none, phase := .empty, argc := 0, argv := none,
              args := [], resp := [], ns := ns, master := false, mirror := false, watching := false }] }

/-- A reply that is never sent: nothing points to it any more. -/
def loseResp (r : Resp) : Prog Unit := do
  lose r.buf
  lose r.node

/-- `socket_client_free`, zdbd/redis.c:915-940: the replies that wait are forgotten. -/
def clientFree (c : Client) : Prog Unit := do
  useb c.self
  let c ← freeRequest c
  freeb c.buf
  free c.nonce
  freeb c.req
  each loseResp c.resp
  freeb c.self

/-- The client behind a descriptor, and the others. -/
def takeClient (fd : Nat) : List Client → Option (Client × List Client)
  | [] => none
  | c :: l =>
    if c.fd = fd then some (c, l)
    else
      match takeClient fd l with
      | none => none
      | some (d, l') => some (d, c :: l')

/-- What the server is told. -/
inductive Ev where
  /-- a connection is accepted -/
  | connect (fd : Nat)
  /-- the connection has an error (`EPOLLERR`, `EPOLLHUP`) -/
  | error (fd : Nat)
  /-- data can be read -/
  | input (fd : Nat)
  /-- data can be written -/
  | output (fd : Nat)
  /-- `redis_idle_process` -/
  | idle

/-- `redis_watch_timeout`, zdbd/redis.c:1061-1089. -/
def timeouts : List Client → Prog (List Client)
  | [] => pure []
  | c :: l => do
    useb c.self
    let due ← ask
    if c.watching && due ≠ 0 then do
      let q ← replyStack c.resp
      let l ← timeouts l
      pure ({ c with resp := q, watching := false } :: l)
    else do
      let l ← timeouts l
      pure (c :: l)

/-- `redis_files_rotate`, zdbd/redis.c:1091-1110. -/
def rotate : List Space → Prog (List Space)
  | [] => pure []
  | sp :: l => do
    useb sp.self
    let due ← ask
    let sp ← if due = 0 then pure sp else jump sp
    let l ← rotate l
    pure (sp :: l)

/-- `socket_event`, zdbd/socket_epoll.c:54-115, and `redis_idle_process`, zdbd/redis.c:1115-1124. -/
def Ev.prog (e : Ev) (s : Srv) : Prog Srv :=
  match e with
  | .connect fd => clientNew s fd
  | .error fd =>
    match takeClient fd s.clients with
    | none => pure s
    | some (c, l) => do
      clientFree c
      pure { s with clients := l }
  | .input fd =>
    match takeClient fd s.clients with
    | none => pure s
    | some (c, l) => do
      let n ← ask
      let (s, c, gone) ← chunk n { s with clients := l } c
      if gone then do
        clientFree c
        pure s
      else pure { s with clients := c :: s.clients }
  | .output fd =>
    match takeClient fd s.clients with
    | none => pure s
    | some (c, l) => do
      useb c.self
      let q ← delayedWrite c.resp
      pure { s with clients := { c with resp := q } :: l }
  | .idle => do
    let cl ← timeouts s.clients
    let l ← rotate s.spaces
    pure { s with clients := cl, spaces := l }

/-- One event after another. -/
def runEvs : List Ev → Srv → Prog Srv
  | [], s => pure s
  | e :: es, s => do
    let s ← e.prog s
    runEvs es s

/-- `namespace_scanload`, libzdb/namespace.c:385-422. -/
def scanload : Nat → Nat → List Space → Prog (Nat × List Space)
  | 0, nl, l => pure (nl, l)
  | n + 1, nl, l => do
    let sp ← namespaceLoad
    match sp with
    | none => scanload n nl l
    | some sp => do
      let nl ← realloc nl
      scanload n nl (l ++ [sp])

/-- `namespaces_init` (libzdb/namespace.c:440-496) and the list of clients (zdbd/redis.c:1311-1316). The two variables all
    indexes share are allocated with the first index (libzdb/index_loader.c:522-587), here before it. -/
def start : Prog Srv := do
  let nsroot ← malloc
  let nslist ← malloc
  let keyed ← ask
  let branches ← if keyed = 0 then pure none else do
      let b ← malloc
      pure (some b)
  let trans ← malloc
  let reuse ← malloc
  let sp ← namespaceLoad
  match sp with
  | none => .die
  | some sp => do
    let n ← ask
    let (nl, l) ← scanload n nslist [sp]
    let clist ← malloc
    pure { clist := clist, nsroot := nsroot, nslist := nl, branches := branches, trans := trans, reuse := reuse,
           clients := [], spaces := l }

/-- The end: `redis_listen` frees the clients (zdbd/redis.c:1371-1379), `namespaces_destroy` the rest
    (libzdb/namespace.c:508-550). -/
def stop (s : Srv) : Prog Unit := do
  each clientFree s.clients
  freeb s.clist
  free s.branches
  each destroy s.spaces
  each namespaceFree s.spaces
  freeb s.trans
  freeb s.reuse
  freeb s.nslist
  freeb s.nsroot

/-- Memory as a process starts. -/
def blank : Mem := fun _ => .gone

end Zdb.Heap
