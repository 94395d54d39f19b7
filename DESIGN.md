# Formal model of 0-db in Lean 4

The source under study is `/repo` (0-db, C).  It is only read as text.  The model
lives in `lean/Verif`; the properties are listed in `properties.jsonl` and their
status in `MANIFEST.json`.

## Trusted base

* Lean 4.33.0 kernel.  Every theorem depends on no axioms other than `propext`,
  `Classical.choice` and `Quot.sound` (most use a subset).  No `sorry`, no own axiom, no
  `native_decide`, no `bv_decide`.
* The transcription of the C functions into Lean definitions.  Every definition cites
  the file and lines it transcribes and says where it simplifies.
* POSIX behaviour assumed of the system: `read` at an offset returns the bytes present
  (short at end of file), `write` on an `O_APPEND` descriptor appends, `pwrite`/`lseek+write`
  replaces in place, a process crash keeps the effects of completed `write` calls.
* Power losses (C63, C64): `fsync` puts the whole file and its existence on the disk; of a write that no `fsync` followed, any
  subset of its bytes may reach the disk, each write independently of the others; a file never synced may be gone.  The clock does
  not go back (C64) and one command has one time.
* Memory (C71): the allocator gives any block that is free and never fails; blocks have no size, so that only the life of a
  block is spoken of.  No hook program is set.
* The command line (C76, C66): `getopt_long_only` of glibc as its source and manual say, with POSIXLY_CORRECT not set; `strtold` is a
  parameter.
* One process serves the directory (the lock file of bootstrap.c) and the server is single
  threaded, so a command is executed without interleaving with another one.

## What is modelled

| area | C source | Lean |
|---|---|---|
| bytes, little-endian fields, packed structs | index.h, data.h, namespace.h | `Verif/Model/Bytes`, `Layout` |
| crc32c, table and hardware variants | crc32.c | `Verif/Model/Crc` |
| in-memory branches | index_branch.c, index.c | `Verif/Model/Store` |
| in-memory branches as linked lists | index_branch.c, index.c, namespaces_destroy in namespace.c | `Verif/Model/Table` |
| damage to old data files between commands | data_open_id_mode, data_get, data_check in data.c | `Verif/Model/Loss` |
| descriptors: every open, close and call on one | data.c, index.c, index_loader.c, index_get.c, index_set.c, index_scan.c, namespace.c, bootstrap.c, redis.c, socket_epoll.c, commands | `Verif/Model/Fds` |
| memory: every allocation, use and free | redis.c, socket_epoll.c, all commands, data.c, index.c, index_get.c, index_seq.c, index_loader.c, namespace.c | `Verif/Model/Heap` |
| memory of the replies of the library | api.c | `Verif/Model/ApiHeap` |
| memory of the hooks | hook.c | `Verif/Model/HookHeap` |
| background mode: descriptors and log | redis.c (`daemonize`) | `Verif/Model/Daemon` |
| buffers in which texts are made up, their sizes and the order of the copies | redis.c, commands_scan.c, commands_history.c, commands_system.c, commands_namespace.c, index.c, index_loader.c, data.c | `Verif/Model/Text` |
| hooks called at a change of files and at the end, with the list of modified files and its reset | index.c, data.c, namespace.c, hook.c, commands_set.c, commands_namespace.c | `Verif/Model/Backup` |
| data files missing in the directory, and the hook asked for them | data.c, commands_get.c, commands_set.c, commands_dataset.c, commands_system.c | `Verif/Model/Missing` |
| command lines of the server and of the namespace editor | zdbd.c, libzdb.c (`zdb_human_readable_parse`), redis.c (`redis_listen`), namespace-editor.c | `Verif/Model/Options`, `Verif/Model/EditorWords` |
| stops by a signal or STOP | zdbd.c (`sighandler`), namespace.c (`namespaces_emergency`), index.c, data.c | `Verif/Model/Stop` |
| namespace-dump | tools/namespace-dump/namespace-dump.c | `Verif/Model/NsDump` |
| what FLUSH unlinks | libzdb/filesystem.c:73-95 | `Verif/Model/Clean` |
| quick-compact | tools/quick-compaction/quick-compact.c | `Verif/Model/Compact` |
| data file reads/writes | data.c | `Verif/Model/Store` |
| index set/get/delete in both modes | index_set.c, index_get.c, index.c, index_seq.c | `Verif/Model/Store` |
| loader | index_loader.c, data.c, namespace.c | `Verif/Model/Loader` |
| scan, rscan, cursors, history | index_scan.c, commands_scan.c, commands_history.c | `Verif/Model/Scan` |
| namespaces | namespace.c, commands_namespace.c | `Verif/Model/Node` |
| dispatcher, rights, auth | commands.c, commands_auth.c, auth.c | `Verif/Model/Node` |
| RESP parser, reply queue, watchers | redis.c, commands.c | `Verif/Model/Resp`, `Reply`, `Node` |
| bytes of the replies, mirror stream, event loop | redis.c, socket_epoll.c, commands_*.c | `Verif/Model/Wire`, `Server` |
| dirty bitmap, hook table | index.c, hook.c | `Verif/Model/Dirty`, `Hooks` |
| rebuild tool | tools/index-rebuild | `Verif/Model/Rebuild` |
| integrity-check tool | tools/integrity-check | `Verif/Model/Integrity` |
| index-dump tool | tools/index-dump | `Verif/Model/IndexDump` |
| namespace-editor tool | tools/namespace-editor | `Verif/Model/Editor` |
| library API | api.c | `Verif/Model/Api` |
| system calls, page cache and disk, power loss | data.c, index.c, index_set.c | `Verif/Model/Sync` |
| SHA-1, digests, challenges | sha1.c, security.c | `Verif/Model/Sha1` |

Not modelled: logging and statistics counters, signals and daemonisation, socket set-up and TLS-less transport details,
hook process spawning (only the table, and the calls in C74), namespace
directory creation on disk (only the set of names and descriptor contents), random generation of challenges (a
parameter), time (a parameter).

## Modelling decisions

* A file is a list of bytes.  The index (data) files of a namespace are a list of files; file
  id = position.  Files are only ever created with consecutive numbers.
* Numbers are `Nat`; every store into a fixed-width field truncates explicitly (`% 2^32`).
* The shared in-memory table is a function from branch number to the list of entries in the
  branch.  Entries carry the namespace they belong to, as in C; a pointer to an entry
  is represented by the first match of (namespace, id) in its branch, which is what
  `index_entry_get` returns.  The namespace pointer is a number picked by the
  environment when a namespace is created, distinct from those in use (so reuse of a freed
  address is covered).
* Write failures: every write primitive takes an optional number of bytes after which
  the write fails.
* Death of the process during a command (`Model/Crash`): a point of death is one of the writes of the command with the
  number of bytes of it that reached the file; the later writes reach it with none.  The files left
  are those of the command with these write failures; the creation of the next index and data file, which has no
  write failure in the model, has its own two points.  The next process loads these files.
  In sequential mode the theorems about executions with deaths have the conditions of `Spec/Crash`: no part of an
  index record is left, no index file is left empty by a jump, and a new process finds items in the last index file.
* Failing writes (`Spec/Fault`): any of the five kinds of write may fail after any number of bytes, in any command.  The
  theorems follow the value of one key in memory and in the data files, independently of the index files.
* Modified files (`Spec/Dirty`): `ModRun` follows, beside an execution, the set of index files of which bytes written before
  were changed, from the bytes of the files only; INDEX DIRTY RESET and loading empty it.
* Hooks (`Model/Hook`): the table with its empty slots, and the children of the server as the operating system sees them.  A
  new process gets any number not used by a child; `waitpid` gives the terminated children in any order.
* Copies kept by hooks (`Model/Backup`, `Spec/Backup`): the handlers that change files, with the calls they make and the reset that
  follows a call; beside them a script which copies what it is told, or fails.  The script reads the files as they are when it is
  called: the server waits for `jump-index`, and after `namespace-closing` it writes nothing.
* Rebuild tool (`Model/Rebuild`): reads the records of the data files in order and calls the same index functions as the
  daemon.  `Lemmas/Rebuild` shows that the data files of an execution are a list of records of which the replay is the map;
  `Lemmas/RebuildPass` shows that the tool reaches a state of the invariant of the daemon with this map; with `--time T` with
  the map of the records that the tool processes (`cutAt`), which `Props/RebuildTime` (C59) turns into a past moment.  `Lemmas/SeqRebuild` and `Props/SeqRebuild` do
  the same for a sequential namespace, where the records of the log are replayed as numbered slots (`replaySlots`).
* Data log (`Spec/DataLog`): the format of the data files written out byte by byte, and the acknowledged writes of a trace.
  `Lemmas/Rebuild` (`DLog`, with the map `ULog`) keeps them along an execution, `Lemmas/SeqData` does so for a sequential
  namespace; `Lemmas/DataRaw` reads a record with DATA RAW.
* Directories and locks (`Model/Paths`): a tree of directories, files and symbolic links on which any number of processes run
  the steps of `zdb_open` in any order, die, run hooks, while others add names.  A lock belongs to the inode and is held by
  the process and its children.  The tree only grows: nothing is renamed or removed.  The walk of a path, `mkdir`,
  `realpath`, `open` and `flock` are those of POSIX and belong to the trusted base.
* Library calls (`Model/Api`): on the same table and files as the commands.  `Spec/Api` says which answer of a command a
  returned value corresponds to.
* SCAN's time slice is an arbitrary number of steps.
* Time and random challenges are parameters.  The digest is a parameter of the node; `Model/Sha1` models its code (the 80 macro
  calls are a table copied from the source), `Spec/Sha1` is the standard, and `RealHash` says that the parameter is the code.

* The node (`Model/Node`): the list of namespaces in the order of the C array, the shared table, the clients by
  descriptor.  `nodeStep` executes one event: a connection, a request, a disconnection, a clock tick, a rotation
  of files, a restart.  `Guard` states what is assumed of an event: a new namespace gets an address not in use, a
  restart reads each directory once (in any order), and in mixed mode the mode given to each namespace at a reload or
  restart is the one of its files.  `Fair` adds that arguments are at most 8 MiB.  Namespaces keep their
  address across a restart; addresses are only compared for equality, so this is a choice of names.
* `Life` cuts from an execution of the node what one namespace sees (`view`): its own commands, reloads, and foreign
  events, and `Life.userRun`, `SeqLife.seqRun` show that this is an execution covered by the store theorems.
* A request that makes the C code use memory wrongly is `crash`, one that makes it call `exit` is `exit`, and a
  few states that are not described further are `outside` (namespace with an empty name).
* The id of an item found by a sequential lookup is copied with the length the item tells; more than 8 bytes is a `crash` of the
  request (`seqOverrun`, `lookedUp`).  The theorems about a namespace alone have `NearKey` instead, which excludes it
  (`SLook.noOverrun`).

* The protocol (`Model/Resp`, `Model/Reply`): one client.  `parse` is the loop of `redis_chunk_read` on a buffer of 8192 bytes with any
  contents; the dispatcher is any function from the requests handed over so far to a status.  `recv` and `send` are lists of
  answers.
* `Model/Wire` writes messages as bytes, `Spec/Wire` is a reader of the protocol written independently.  `Model/Server` puts reading,
  running, writing and sending together: its events are what the kernel delivers (`recv` with any bytes, sockets becoming
  writable, new and broken connections, timers), and its log is an execution of `Model/Node` (`SrvInv`).  So every theorem about
  `NodeRun` speaks about what clients send and receive.  `parse_success`: what the dispatcher returns
  changes neither the requests handed over nor the bytes left, hence C27 applies though the dispatcher is here the node itself.

## Method per property

The store properties are refinements.  A ghost log (the list, per file, of index items with
their payload) represents the bytes of the files; an invariant relates the bytes,
the in-memory table and the counters to the log; each command preserves it and its reply is the
reply of a small specification (an association list for user mode, a list of slots for
sequential mode).

| id | plan |
|---|---|
| C01 | refinement of the user-mode engine to an ordered association list, all command sequences |
| C02 | RELOAD re-establishes the invariant with the same log, hence same spec state; for SCAN, RSCAN and KEYCUR simulation of the execution without restarts (same index files, data files of the same lengths, `Lemmas/Twin`), extended to HISTORY of keys created in the first file; counterexamples for KSCAN, DATA RAW, INDEX DIRTY and HISTORY of later keys |
| C03 | refinement of the sequential engine to a list of slots |
| C04 | consequence of C03 spec: id = number of slots, which only grows; across reload too |
| C05 | as C02; counterexample after a jump directly followed by restart; partial without empty files |
| C06 | invariant of one namespace only depends on entries with its tag; frame theorem on the whole node |
| C07 | part of the invariant (counters = length / sum over the live log) |
| C08 | decision logic + invariant on the node |
| C09-C13 | node-level step theorems, by cases on the command; C12 with protect mode in `Props/Protect` |
| C14-C16 | decision logic over all client states; negations for NUL bytes and SELECT SECURE |
| C17 | every step leaves every data file a prefix of its successor; on the node with all modes and failing index writes in `Props/Files` |
| C18 | chain invariant (every item of a key names the one before it, `Lemmas/History`); negation for keys created in file >= 1 (dataid is not stored); the others proved in full |
| C19-C22 | scan functions on the byte files against the live log |
| C23 | invariant; on the node in `Props/Files` |
| C24 | binary search on any sorted map |
| C25 | GF(2) linearity of crc32c; table proved equal to bitwise division |
| C26 | from the engine; negation for zdb_api_set (crc only) with a concrete collision |
| C27, C28 | incremental parser = one-shot parser by invariant; negation for negative bulk lengths |
| C29 | queue invariant |
| C30 | dispatcher over the whole table; negation for prefix matching |
| C31 | node invariants |
| C32 | node invariants; over the network a read that ends with a request returns what the dispatcher returned (`parse_last`); counterexamples when the read goes on, and with a mirror |
| C33 | descriptor codec; negation for a password starting with NUL |
| C34 | negation (FLUSH removes nothing: file names changed); exactly which paths `dir_clean_cb` unlinks |
| C35, C36 | the files left at any point of death are those of some log; negation for overwrite and torn index writes |
| C37 | watcher list |
| C38, C39 | bitmap and hook table invariants |
| C40 | codecs |
| C41 | rebuild parser on the data log |
| C55 | every command appends the record of its acknowledged write or none |
| C56 | DATA RAW at the place of a record |
| C57 | the macros step by step against the rounds of the standard; the context holds the rest of the message |
| C58 | count of the wrong records by induction on the records; the files of an execution are C55 |
| C59 | the same replay, of the records up to the limit |
| C42 | write failures; negation for index append failure; one failed command in sequential mode |
| C43 | negation by 32-bit aliasing; partial under 2^32 |
| C44 | api model against command model; negations |
| C45 | node invariant |
| C46 | from C01/C03; negation for two jumps in sequential mode |
| C47 | by definition unfolding of the handler loops |
| C48 | size invariant |
| C49 | step theorem |
| C50 | executions with deaths: the set of values a key may have; negation after an empty index file |
| C51 | branch walk |
| C52 | name validation; invariant of the processes and locks over all interleavings (`Lemmas/Locks`), the walk of a path is stable when names are added (`Lemmas/Paths`); negations for long paths, errors of `flock`, paths that cannot be created, the empty name |
| C53 | walks with fuel never run out of it; a crafted index, or a SET of an id never given out, makes RSCAN loop |
| C60 | invariant of the index items; negation with a byte of a checksum taken for a length |
| C61 | round trip of messages and a reader of the protocol (`readValue_msg`, `readValue_more`), then a refinement: the process with sockets runs the node (`SrvInv.step`) |
| C62 | every handler but WAIT says something (`runHandler_speaks`), invariants of a client since its connection (`Plainly`, `Counted`); negations with WAIT, a long owner, a mirror |
| C63 | the system calls of each command (`dsOps`, tied to the files of the model by `dsOps_files`), an invariant between the synced files and the log (`DInv`), the loader on an index whose deleted flags may be lost (`load_lossy`); negations for DEL, sequential mode, SCAN; in the middle of a command, the prefixes of its system calls (`command_mid`): the data file only grew, or an old item is being flagged, or all is done; in sequential mode with new ids only, nothing stays in the page cache (`AllSolid`) |
| C64 | the system calls of a SET have a fixed form (`SetForm`), so both files are synced or none; the disk holds an earlier state (`Snap`); with `--secure`, for any number of files, an earlier state but for deleted flags in the files left (`SnapS`, `AllOn`); in sequential mode an earlier state exactly (`SnapQ`, `SlotsOn`); a restart with one pair of files syncs both (`load_one`); negations after NSJUMP, after RELOAD, with overwrites in sequential mode, with DEL, with a torn write |
| C65 | an observer of all requests and replies (`Seen`), an invariant that ties it to the lives of the namespaces (`Obs`, from C45 and C01 on the node), the socket layer by C61 and C62 |
| C66 | descriptor round trip (`edit_load`), the directory scan of a start commutes with the edit (`loadDirs_edit`, `boot_edit`), the node invariant for the names |
| C67 | the loop lists the items of any file (`dumpLoop_items`); the log of C01 and C03 gives the items of a namespace |
| C68 | segments of linked cells (`Seg`); the invariant `Rep` ties memory to one list of (address, entry), preserved by each operation |
| C69 | a ghost store keeps the files as if never damaged and satisfies the invariant of the undamaged case; commands and reloads commute with replacing old data files; in sequential mode SET compares with the stored value, so the ghost store follows as long as these comparisons turn out as for the value told (`AsTold`) |
| C70 | functions as programs over a descriptor table, with every answer of the kernel left open; weakest preconditions with a frame for the descriptors of the other namespaces and clients |
| C71 | functions as programs over memory, with every other answer left open; weakest preconditions over a count of the owners of each block: a block is alive exactly when one variable owns it |
| C72 | decision logic: the reads of `data_raw_get_real` against the record as encoded, in both directions, for any bytes |
| C73 | each function that prints into a buffer as a sequence of steps that fail beyond its size; shown equal to the text of the reply (`Model/Wire`) |
| C74 | a script that copies what it is told, as a second machine beside the namespace; the invariant that a closed file is equal to its copy or listed, by induction over the run; the restart theorems of C12 give the restored namespace |
| C75 | the directory as a third machine beside the namespace and the copies; every command is shown to do the same as with all files there (refinement), by the invariant that a missing file has a right copy; with a failing script only the reply differs |
| C76 | a model of `getopt_long_only` with lemmas for one option in one spelling; induction over the words for the settings; an invariant of the settings for any words; C12 for the way from `--protect` to the clients |
| C77 | the disk of C63 followed beside a second one that syncs at every write: they differ only in the last files (`NearDisk`), so a stop makes them equal; one file: the disk as it is read is the store; sequential mode: files that were left are kept by a power loss (`Olds`), the loader only writes headers that are there |
| C78 | the descriptor of a reachable state is an encoding (invariant of C33), so what is loaded is what a start loads; the text is read back line by line |
| C79 | the pass over a file by induction on its items (invariant of C01); the files written are given by a separate layout, from which what is kept and the size follow |
| C80 | the calls of the library as programs over memory, as for C71, with the replies the caller has as further owners; a check that no call contains a place that forgets a block |
| C81 | the calls after the fork on a table of descriptors, for any kernel that answers with free numbers; the log as bytes with two positions, its length by induction over the messages |
| C82 | every event of a node against what an NSSET says, then by induction over executions in which the namespace goes on existing |
| C83 | (`Props/Secret`, `Props/SecretSet`) two servers that differ in one password take the same steps: a simulation, handler by handler, then by induction over executions |
| C84 | (`Props/Admin`) only AUTH and the start look at the password: both are compared with another one, then by induction over executions; with --protect together with C83; for bytes (`Props/AdminWire`) the loop that reads asks the dispatcher only about prefixes of the requests it hands over |

## Disagreements found between the code and the properties

(Each is proved as a negation theorem in Lean; see MANIFEST.json.)

* C05 (`C05_refuted`): sequential mode.  The loader records a first id only for index files which have
  items.  After NSJUMP and a restart the ids of the new file resolve to the previous file: an
  acknowledged SET is not found until the next restart.
* C02 (`C02_kscan_refuted`): KSCAN gives the keys of a branch in the order in which they were first stored, after a restart in the order of
  their last SET.  (`C02_refuted`): the first record of a data file points to the last record of the file before, but to 0 if there was a restart
  since the file change; DATA RAW shows it.  (`C02_dirty_refuted`): as C38.
  (`C02_history_refuted`): the oldest version HISTORY shows of a key created in a later file is read in data file 0 (C18);
  the bytes found there can contain the previous field of another record, which depends on restarts.
* C46 (`C46_refuted`): sequential mode.  Two jumps without a SET in between give two files the same
  first id; the search may stop at the empty one, and an acknowledged SET is not found.
* C43 (`C43_refuted`): sequential mode.  The position of an id in the index file is cut to 32 bits, so the id
  2^31, never given out, reads and deletes the key 0.
* C18 (`C18_refuted`): the index item of a new key is written with data id 0 whatever the data file; HISTORY
  reads this id from disk and looks for the first version in the wrong file.
* C19 (`C19_refuted`, `C19_time_refuted`): a SCAN call whose time slice is already over replies the end of the
  iteration; times from 2^31 on are printed as negative numbers.
* C20 (`C20_refuted`, `C20_middle_refuted`): RSCAN fails when the current index file is empty, and stops early at an empty file.
* C21, C22 (`C21_seq_refuted`): sequential mode.  A cursor carries the crc of the value; overwriting the value makes it
  invalid and the iteration cannot be resumed.
* C22 (`C22_refuted`): a cursor with an id length shorter than the one of the item makes the server read past a buffer.
* C53 (`C53_refuted`): RSCAN never ends on a crafted index file.
* C08 (`C08_seq_refuted`): sequential mode.  A SET of an id which points into the middle of an item finds a large length there, which is
  counted as freed: the limit of the namespace is passed.
* C09, C12, C25 (`Props/SeqJumps`): sequential mode with index files that hold no item (NSJUMP leaves them).  A value read in worm mode is not
  found after more file changes; a FLUSH by a read-only client, which reloads, makes GET find what it did not find before; CHECK finds no key just after SET.
* C60, C03, C04, C45, C53 (`Props/FarIds`): sequential mode.  As the position of an id is cut to 32 bits, a client chooses an id
  that points into the middle of index items, and the bytes there are taken for an item.
  `C60_refuted`: its id is 147 bytes long, which are copied over 8 bytes on the stack by SET.
  `C03_refuted`: its id is 0, so SET changes key 0, and the copy of the item is 4 bytes short: what is stored next cannot be read.
  `C04_refuted`, `C45_seq_refuted`: SET writes over the header of the index file; after a restart ids are given out again, or in
  mixed mode the namespace is a user-key one.  `C53_seq_refuted`: RSCAN never ends.
* C07 (`C07_seq_refuted`): sequential mode.  After NSJUMP in an empty namespace and a restart, DBSIZE counts keys no GET finds.
* C60 (`C60_cursor_refuted`): the same as C22, in an execution of the process.
* C11 (`C11_refuted`): KSCAN does not look at the freeze and lists the keys of a frozen namespace.
* C13 (`C13_refuted`): FLUSH needs no right and loads the namespace again from its files.
* C14, C15 (`C14_refuted`, `C15_refuted`): passwords and names are compared as C strings, so anything may follow a NUL;
  the word SECURE may be abbreviated.
* C16 (`C16_refuted`, `C16_length_refuted`): SELECT .. SECURE does not consume the challenge; AUTH SECURE with an answer of
  another length than a digest does not either.
* C33, C40 (`C33_refuted`, `C40_descriptor_refuted`): the descriptor does not tell an empty password from none; NSSET stores an
  empty password when the value begins with NUL.  It protects the namespace until the next restart.
* C34 (`C34_refuted`, `C34_flush_keeps_everything`): FLUSH does the same as RELOAD; nothing is removed.
* C32 (`C32_closed_refuted`): the loop that reads requests keeps only what its last turn returned, so a client whose namespace was removed
  stays connected if a part of another request follows in the same read.  (`C32_mirror_refuted`): the refused request of a master is
  forwarded to mirrors, with the name of its namespace, which is NULL.  (`C37_removed_refuted`): it also wakes up the clients of
  removed namespaces that wait for the last command its client ran.
* C37 (`C37_refuted`, `C37_mirror_refuted`): a command that fails wakes the clients waiting for it; a mirror in WAIT is never
  woken up; a client whose namespace was removed counts as running its last command at each request.
* C30 (`C30_refuted`): the dispatcher compares only as many bytes as the request has, so `GE` runs GET.
* C27 (`C27_refuted`): a read that fills the 8192 byte buffer exactly with requests which succeed is the last one of its event.
  The rest of the bytes stays in the socket, which is watched for edges only.
* C28 (`C28_negative_refuted`, `C28_kept_refuted`, `C28_overread_refuted`): `$-1` and `$-2` reach a command with a negative length;
  `*0`, `*1025` and an argument without `$` get an error each time something is received, without disconnecting the client until its buffer is
  full; a number line made of blanks up to the end of the buffer is read past its end.
* C29 (`C29_refuted`): when `send` fails with an error other than EAGAIN the rest of the reply is dropped, and the next reply
  follows in the middle of it.
* C35 (`C35_refuted`): an overwriting SET in user-key mode flags the old index item as deleted before it appends the
  new one.  If the process dies in between, the key is gone after the restart.
* C35 (`C35_restart_refuted`): part of an appended index item makes the next start read past the buffer
  holding the index file; part of the header of a new index file makes it stop.
* C35 (`C35_seq_refuted`): an update in sequential mode overwrites the index item in place.  If only part of it is
  overwritten when the process dies, the item mixes the new position with the old length and GET answers a payload that was never written.
* C42 (`C42_overwrite_refuted`, `C42_delete_refuted`, `C42_stuck_refuted`): user-key mode.  When the index item of an
  overwriting SET cannot be appended, or the flag of a deleted item cannot be written, an error is answered but the key is
  gone.  The flagged entry stays in memory in front of any later one: later SETs of the key are acknowledged
  and GET answers nothing until a restart.
* C42 (`C42_restart_refuted`): part of an index item left by a failed SET makes the next start read past its buffer.
* C42 (`C42_seq_refuted`): sequential mode.  A failed append that left part of an item shifts all later items of the file; the
  failure of the in-place overwrite is ignored, the SET is acknowledged.
* C50 (`C50_refuted`): if the process dies when a new index file was created but not yet given its header, the next start
  succeeds and appends items to the empty file; they are acknowledged, and the start after that stops.
* C36 (`C36_refuted`): after the same death, the process dies again during a DEL; no start succeeds any more and all keys are lost.
* C48 (`C48_refuted`): DEL adds a record to the current data file whatever its size.  Storing and then deleting 16 million keys of 255
  bytes makes a data file of more than 4 GiB.
* C38 (`C38_reload_refuted`): the list of modified index files is kept in memory only: RELOAD (and a restart) empties it.
* C38 (`C38_fault_refuted`): a rewrite of an index item that fails after its flag was written leaves the file off the list.
* C38 (`C38_reply_overflow`): the buffer of the answer has ten bytes for each number, which is too small for
  numbers of eight digits.
* C39 (`C39_status_refuted`): if the fork of a hook that the server waits for fails, `waitpid(0)` takes the child of another
  hook: its status is recorded on the wrong hook and its own hook stays unfinished for ever.
* C39 (`C39_null_refuted`): the counter of children is decremented by such a wait though no child was created; later an
  empty slot of the table is dereferenced.
* C54 (`C54_refuted`): the buffer of HOOKS has 1024 bytes for each hook; the list of modified index files given
  to a hook can be longer.
* C26, C44 (`C26_api_refuted`, `C44_checksum_refuted`): `zdb_api_set` compares the checksum of the payloads only: a different payload
  with the same checksum (a byte 0 put in front) is not stored and the call reports that it is up to date.
* C44 (`C44_key_refuted`): the library cuts the length of a key to eight bits; a key of 257 bytes overwrites that of one byte.
* C44 (`C44_worm_refuted`, `C44_lock_refuted`): the library ignores the worm mode and the lock.
* C44 (`C44_mixed_refuted`): in mixed mode `zdb_api_set` takes its handler outside of the array.
* (`api_seq_dataid_refuted`) In sequential mode `zdb_api_set` does not record the data file.
* C41 (`C41_torn_refuted`): when the write of a payload fails the server goes on after the part that was written; the rebuild tool
  takes the next record for the missing payload: an acknowledged key disappears, the refused one exists with foreign bytes.
* C41 (`C41_twice_refuted`): a process killed during DEL after the write to the data file leaves the key in the index; after a second
  DEL the rebuild tool meets a deletion of a key it does not know and dereferences NULL.
* C59 (`C59_order_refuted`): `--time` ends the pass over a file at the first later record, so that an older record behind it (a clock
  set back, or times given by an administrator) is left out of the index although its write was acknowledged before the limit.
* C52 (`C52_long_path_refuted`, `C52_flock_error_refuted`): the name of a lock file is cut at 511 bytes, so with a path of more than
  501 bytes another file is locked (or none with this meaning), and two servers can work in one directory; an error of `flock`
  other than a held lock counts as success.  `C52_realpath_refuted`, `C52_empty_path_refuted`: a path that cannot be created
  makes `strcmp` read a NULL pointer, an empty path reads before a buffer.  `C52_empty_name_refuted`: NSNEW accepts a name
  that starts with NUL as the empty name, the directory of which is the one of the instance: NSDEL then removes every
  namespace.  `C52_hook_keeps_lock`: a hook inherits the locks, so a dead server cannot be started again while it runs.
* C59 (`C59_null_refuted`): the limit ends a file, not the work; a deletion in the next file of a key that was left out is a NULL
  dereference in `index_entry_delete`.
* C59 (`C59_seq_refuted`): sequential mode.  For every data file after the limit the tool makes an index file without items, and
  the loader puts nothing in the map for it (as in C05): what is written next is acknowledged and cannot be read.
* C55 (`C55_torn_refuted`): after a failed write of a payload the rest of the data file can no longer be read as a list of records.
* C56 (`C56_del_refuted`): DATA RAW answers `Unexpected Internal Error` at the place of every deletion, though the command has code
  to send one: who copies a namespace with DATA RAW does not see the deletions (and cannot tell where the next record begins).
* C56 (`C56_empty_refuted`): DATA RAW answers `Invalid Request` at the place of a SET of no bytes.
* C58 (`C58_names_refuted`): integrity-check refuses every data file of the current version.  It wants a name that begins with
  `zdb-data-`, but the files are named `d0`, `d1`, and so on.  Called with an old name it opens `d<number>` beside it.
* C58 (`C58_status_refuted`): the exit status is the number of errors; with 256 damaged payloads it is 0.
* C62 (`C62_wait_refuted`, `C62_order_refuted`): a client that is waiting can send a second WAIT, which replaces the first: the first is
  never answered.  Other requests are answered before the WAIT they follow.
* C62 (`C62_owner_refuted`): a request of a master whose last argument is longer than 32 bytes is dropped: not run, no answer.
* C63 (`C63_refuted`): DEL writes the deleted flag with a plain `write` (index.c:572) and never syncs, even with `--sync`: after a
  power loss a key whose deletion was acknowledged is back.
* C63 (`C63_seq_refuted`): in sequential mode overwrites go through the same kind of plain `write` (index_set.c:98): under `--sync` an
  acknowledged overwrite is lost, the old payload is read.
* C63 (`C63_scan_refuted`): the flag of an overwritten item in an older index file may be lost as well; SCAN then lists the key twice.
* C64 (`C64_jump_refuted`): without `--secure` the files left by a jump are not synced, neither then nor later: a SET can be lost
  an hour after it was acknowledged, though later ones are kept.
* C64 (`C64_reload_refuted`): RELOAD forgets the time of the last sync without syncing; the next write, the header of index file 0,
  syncs that file alone and notes the time.  The pending writes of the current index file then wait for another period: with
  `--secure` and several files, SETs acknowledged 90 s apart can be lost under a period of 5 s.
* C64 (`C64_seq_refuted`): in sequential mode an overwrite changes the item in its old index file without a look at the clock; once
  that file was left it is never synced, `--secure` or not: overwrites acknowledged minutes apart are lost together.
* C64 (`C64_del_refuted`): DEL never checks the time: a series of DELs is never synced.
* C64 (`C64_torn_refuted`): if a part of an index item reaches the disk, the loader refuses the file and the server does not start.
* C66 (`C66_refuted`): namespace-editor stores the length of the password in one byte without a check.  With a password of 256 bytes it
  reports success and leaves the namespace without a password: after the next start anybody can write to it.
* C67 (`C67_fileid_refuted`): index-dump prints the data file number of the index item, which the daemon sets to 0 for the first
  version of a key: for a key created after a jump, another key's record (or nothing) is found at the place printed.
* C68 (`C68_refuted`): `namespaces_destroy` takes the branches from the index of the default namespace.  In a server without a fixed
  mode, NSSET can make this namespace sequential, and then the pointer is NULL: STOP (debug builds) crashes before the files are flushed.
* C69 (`C69_current_refuted`): if the current data file is missing at a start, `data_initialize` makes a new one and the
  index is loaded as it is.  New records take the places of the lost ones; GET does not compare the key in the record,
  so a lost key reads the value of another key, and CHECK answers 1.
* C70 (`C70_leak_refuted`): `namespace_descriptor_load` (namespace.c:133-136) returns on an unsupported version without
  closing the descriptor; NSNEW can be repeated, so the process runs out of descriptors.  In the same way
  `index_load_file` (index_loader.c:197-204) leaves an index file open after a failing read of its header.
* C70 (`C70_stop_refuted`): on STOP `socket_event` (socket_epoll.c:100-101) closes the listening sockets, and
  `redis_listen` (redis.c:1375-1376) closes the same numbers again.
* C70 (`C70_flock_refuted`): if `flock` fails for another reason than a lock held elsewhere, `zdb_lock`
  (bootstrap.c:82-85) answers 1; it is taken for a descriptor, the database runs without a lock, and `zdb_close` closes
  the standard output.
* C71 (`C71_set_leak_refuted`): `data_compare_matching` (commands_set.c:52-74) never frees the payload it reads, so every
  SET of the value a key has already costs the length of this value.
* C71 (`C71_reply_leak_refuted`): `socket_client_free` (redis.c:915-940) does not free the replies that wait.
* C71 (`C71_password_leak_refuted`): `command_nsset_password` (commands_namespace.c:395-410) overwrites the old password.
* C71 (`C71_history_leak_refuted`): `history_send` (commands_history.c:108-113) returns without freeing the item when its
  payload cannot be read.
* C71 (`C71_nsnew_leak_refuted`): `namespace_load_light` (namespace.c:238-272) forgets the namespace when its directories
  cannot be made.
* C71 (`C71_history_refuted`): HISTORY with one argument follows the result of `index_item_get_disk`, NULL when the index
  file cannot be read (commands_history.c:179-181).
* C71 (`C71_owner_refuted`): a request of one word from a client that has said MASTER loses this word as its owner
  (redis.c:640-641); the dispatcher then reads the freed argument (commands.c:179).
* C71 (`C71_mirror_refuted`): NSDEL leaves the clients of the namespace without one; what such a client sends next is
  mirrored with `source->ns->name` (redis.c:988).
- C73: `index_internal_load` prints the directory of the index and `/zdb-index-00000` into `legacy[256]`
  (libzdb/index_loader.c:414-415) without looking at its length. A directory of 240 bytes or more is written beyond the
  array: an index path of 111 bytes and NSNEW with a name of 128 bytes suffice (`C73_name_refuted`).
- C73: `command_args_overflow(client, i, COMMAND_MAXLEN)` lets 256 bytes pass and the array has 256, so the NUL is written
  beyond it (`C73_argument_refuted`; zdbd/commands_system.c:189-192, 240-244, 352-356, zdbd/commands_namespace.c:509-516).
- C73: `MAX_KEY_LENGTH` has no parentheses around it (libzdb/index.h:264), so `(MAX_KEY_LENGTH * 2) + 128` is 382 and not 638
  bytes per key in SCAN and KSCAN. This is still enough (`C73_scan`, `C73_kscan`).
- C74: if the script fails at a change of files, the index file that was closed is not named to it again
  (`C74_failed_refuted`): only the list of modified files is kept (libzdb/index.c:383-387).
- C74: `hook_execute_wait` returns `WEXITSTATUS` without asking `WIFEXITED` (libzdb/hook.c:159), so a script that is killed
  counts as successful and the list is emptied (`C74_killed_refuted`).
- C74: INDEX DIRTY RESET empties the list as it is, not as it was when INDEX DIRTY gave it, so a file modified in between is lost
  (`C74_reset_refuted`).  RELOAD and a server that dies forget the list (`C74_reload_refuted`, `C38_reload_refuted`).
- C75: a script that fails halfway leaves a file in the directory; it is opened from then on, and the script is not asked again
  (`C75_halfway_refuted`, libzdb/data.c:139-156).
- C75: the data file that is to be the current one is not asked for at the start; a new one is made in its place
  (`C75_current_refuted`, libzdb/data.c:245-276).  SET writes an unchanged value again when the file cannot be had
  (`C75_set_refuted`, zdbd/commands_set.c:52-74).
- C42: sequential mode counts the size of an overwrite though its item could not be written (libzdb/index_set.c:325-359), so a
  second overwrite takes the old size away again; the total wraps below zero and the quota refuses everything
  (`C42_quota_refuted`).
- C44: `zdb_api_check` takes the -1 of a payload that cannot be read for true (libzdb/api.c:366-387, `C44_check_refuted`).
- C76: words that are no options are passed over: `zdb --admin pw protect` starts unprotected (`C76_word_refuted`,
  zdbd/zdbd.c:326-481).  An option lacking its value takes the next option for it (`C76_swallow_refuted`; for the namespace
  editor `C66_swallow_refuted`).
- C76: `--maxsize` is read by `atol`: `10G` is ten bytes, `lots` no limit, `-5` almost 2^64 (`C76_maxsize_refuted`,
  zdbd/zdbd.c:401-404).
- C76: `--datasize nan` and `--datasize 1e30` convert a value out of range to `size_t`, which is undefined, before the bounds are
  checked (`C76_datasize_refuted`, libzdb/libzdb.c:77-87); `1Gbit` is taken for `1G` (`C76_unit_refuted`).
- C76: a server stopped by its hook `ready` ends with status 0 (`C76_status_refuted`, zdbd/zdbd.c:254-268).
- C77: a stop syncs the current files only.  Without `--secure` the files left before were never synced: an acknowledged key can be
  lost after an orderly stop (`C77_leave_refuted`), and with no option at all even the keys in the files that were synced are not
  found again, because the first index file is empty (`C77_default_refuted`; libzdb/namespace.c:719-737, libzdb/index.c:357-360).
  With `--secure` a DEL in a file that was left can still be undone (`C77_del_refuted`, libzdb/index.c:536-589).
- C63: under `--sync` a power loss in the middle of a SET can make the namespace impossible to load, so that keys acknowledged and synced
  long before are not found any more: an index file that ends within an item is refused (`C63_torn_refuted`).
- C78: namespace-dump called with a name which is not the one of a namespace dereferences a null pointer (`C78_unknown_refuted`,
  tools/namespace-dump/namespace-dump.c:38-41).  The password `<no password set>` is printed like no password
  (`C78_password_refuted`); a password with an end of line can forge the lines behind it (`C78_line_refuted`).  Worm mode is printed
  as 2.
- C63: SET of an existing key writes the deleted flag over the old index item before it writes the new item; a power loss in between may
  leave neither the acknowledged payload nor the new one (`C63_lost_refuted`).
- C34: `dir_clean_cb` (libzdb/filesystem.c:73-91) compares bytes at 14 and 15 before the end of a path without looking at its length: FLUSH of a
  namespace whose directory has a path of less than 15 bytes, such as `/data/foo`, reads before the path (`C34_short_path_refuted`).  FLUSH does
  remove the first ten files of a namespace named like `zdb-data-ab` (`C34_files_example`).
- C77: in sequential mode an overwrite or a deletion of an id whose index file was left is lost by a power loss after the stop, even with `--secure`
  (`C77_seq_refuted`): `index_seq_overwrite` and `index_entry_delete_disk` do not sync and a stop syncs only the current files.
- C79: quick-compact writes `zdb-index-00000` and `zdb-data-00000`, the names of the old format; a server that finds the first one in a
  directory exits (`C79_names_refuted`, libzdb/index_loader.c:412-427).  If the files are renamed, every item but the first one of a
  file points to the record before its own, since `dataoffset` is set after the item is written (lines 201, 268): GET answers with the
  payload of another key and CHECK says that it is correct (`C79_offset_refuted`).  An item whose `dataid` is not the number of its
  file makes the tool look for `zdb-data-*` in the input and exit; the server stores 0 there for every new key
  (`C79_second_refuted`).
- C79, sequential mode: an overwrite of an id whose item is in an earlier file leaves an item that names a later data file; the tool
  exits on it (`C79_seq_over_refuted`).
- C69: an empty value is read with the length found in the header of its record (libzdb/data.c:473-481).  If the header was changed,
  GET answers other bytes, such as the record of the next key, and setting the empty value again stores nothing, as
  `data_compare_matching` compares no byte (zdbd/commands_set.c:52-74) (`C69_empty_refuted`).
- C64: with `--secure` too, a new index file may be found empty after a power loss.  The loader takes an empty file of a number above 0
  as it is (libzdb/index_loader.c:215-225) and the next SETs are appended to it without a header: at the next start its first bytes are
  not an index header and the server exits (`C64_empty_refuted`).  Under `--sync` the same happens if the power is lost between the
  creation of the file and the `fsync` of its header (`C63_jump_refuted`).
- C81: `daemonize` never closes what it opens on `/dev/null` (`C81_left_refuted`); started without standard input, a
  server gives number 0 to the lock file of the index and then puts `/dev/null` over it, so that the lock is lost
  (`C81_lock_refuted`, zdbd/redis.c:1248-1252); the first process ends with success before the second one has done anything
  that can fail (`C81_status_refuted`).  The log is opened once for each stream, without appending, so messages of one
  overwrite messages of the other (`C81_log_refuted`, `C81_overwrite_refuted`, zdbd/redis.c:1254-1260).
- C71: `libzdb_hooks_cleanup` follows every slot of the list while it looks for the hook of a program that has ended, also the
  slots emptied by an earlier expiry (`C71_hooks_refuted`, libzdb/hook.c:228-232), and it frees expired hooks only when no program
  runs, so one script that never ends makes the list grow with every hook (`C71_hooks_growth_refuted`, libzdb/hook.c:203-217).
- C66: the namespace editor reads a size with `atoll` (tools/namespace-editor/namespace-editor.c:121-123) and reports success
  whatever follows the digits: `--maxsize 10GB` sets a limit of ten bytes (`C66_unit_refuted`).
- C82: locking and freezing are values of one variable (`zdbd/commands_namespace.c:468-482`): `NSSET lock 0` and even `NSSET lock 1` thaw a frozen namespace, and `NSSET freeze 0` unlocks a locked one. (`Zdb.C82_thaw_refuted`) Every value of a flag that does not begin with `1` switches it off and is acknowledged, so `NSSET lock true` unlocks. (`Zdb.C82_value_refuted`)
- C83: a password that begins with a NUL byte is dropped by a restart (see C33), so that a client that knows nothing notices it
  (`C83_refuted`).
- C84: with `--protect` the password of administrators becomes that of the default namespace (`zdbd/zdbd.c:242-246`), and the first
  `NSSET default lock` writes it to the settings file in clear (`libzdb/namespace.c:69-98`). A server started later without `--protect`
  still asks for it (`C84_kept_refuted`).
