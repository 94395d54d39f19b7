{"id": "C01", "title": "User-mode store behaves as a map", "statement": "In a user-key namespace the replies of SET, GET, MGET, EXISTS, LENGTH, KEYTIME and DEL to any client are exactly those of a plain map from key to (payload, timestamp): a GET returns the payload of the most recent acknowledged SET of that key that was not followed by an acknowledged DEL, and a not-found reply otherwise; a SET of an identical payload replies nil and changes nothing; DEL of an absent key is an error and changes nothing.", "quantifier": "every sequence of these commands, with any keys (1..255 bytes), payloads and timestamps, any file-size limit, any interleaving with file jumps", "why_tests_cant": "the number of histories, keys and payloads is unbounded and a wrong branch/hash collision or file rotation bug only shows on particular ones", "anchors": ["zdbd/commands_set.c:command_set", "zdbd/commands_set.c:redis_set_handler_userkey", "zdbd/commands_get.c:command_get", "zdbd/commands_dataset.c", "libzdb/index_set.c", "libzdb/index_get.c", "libzdb/index.c:index_entry_delete", "libzdb/data.c:data_insert"]}
{"id": "C02", "title": "User-mode data survives a clean restart or RELOAD", "statement": "After RELOAD (or stopping and starting the server) at a moment where no command is in progress, every later command on a user-key namespace gets the reply it would have got without the restart: same keys, payloads, timestamps, key count and data size.", "quantifier": "every history of commands before and after the restart, and any number of restarts in it", "why_tests_cant": "the on-disk state reached depends on the whole history; tests reload only a few", "anchors": ["libzdb/index_loader.c:index_load_file", "libzdb/index_loader.c:index_internal_load", "libzdb/namespace.c:namespace_reload", "libzdb/index_set.c:index_set_memory"]}
{"id": "C03", "title": "Sequential-mode store behaves as an append-only numbered map", "statement": "In a sequential namespace SET with an empty key creates a new key whose id is returned; GET/EXISTS/LENGTH/KEYTIME of an id returns what the last acknowledged SET on that id stored, until it is deleted; SET with an existing id replaces its payload; SET with an unknown or deleted id is refused and changes nothing.", "quantifier": "every sequence of commands, including file jumps between them", "why_tests_cant": "positions, file boundaries and update copies interact; errors show only for particular interleavings of updates and jumps", "anchors": ["zdbd/commands_set.c:redis_set_handler_sequential", "libzdb/index_set.c:index_update_entry_sequential", "libzdb/index_set.c:index_seq_overwrite", "libzdb/index_get.c:index_get_handler_sequential", "libzdb/index_seq.c"]}
{"id": "C04", "title": "Sequential ids are never reused", "statement": "Two acknowledged SETs with an empty key in the same sequential namespace never return the same id, ids only grow, also across updates, deletions, jumps and restarts.", "quantifier": "every history of commands and restarts (without FLUSH) of one namespace", "why_tests_cant": "uniqueness is over unbounded histories", "anchors": ["libzdb/index.c:index_next_id", "libzdb/index_set.c", "libzdb/index_loader.c:index_load_file"]}
{"id": "C05", "title": "Sequential data survives a clean restart", "statement": "After RELOAD or restart of a sequential namespace, every later command gets the reply it would have got without the restart.", "quantifier": "every history of commands and restarts", "why_tests_cant": "the reload rebuilds the id-to-file map from whatever files exist; which files are empty depends on history", "anchors": ["libzdb/index_loader.c", "libzdb/index_seq.c", "libzdb/index.c:index_jump_next"]}
{"id": "C06", "title": "Namespaces are isolated", "statement": "A command executed in one namespace never changes what any dataset command replies in another namespace, although all namespaces share one in-memory table; this also holds when a namespace is deleted and a new one is created in its place.", "quantifier": "every interleaving of commands by any clients on any set of namespaces, including creation, deletion, reload and flush of other namespaces", "why_tests_cant": "needs all pairs of namespaces and all histories, including hash collisions between keys of distinct namespaces", "anchors": ["libzdb/index.c:index_entry_get", "libzdb/index.c:index_clean_namespace", "libzdb/index_branch.c", "libzdb/namespace.c"]}
{"id": "C07", "title": "DBSIZE and data size are exact", "statement": "DBSIZE and the entries/data_size_bytes fields of NSINFO always equal the number of keys that GET would find and the sum of their payload lengths.", "quantifier": "every history of SET/DEL/overwrite/jump/reload", "why_tests_cant": "counters drift only after particular update/delete/reload combinations", "anchors": ["libzdb/index_set.c", "libzdb/index.c:index_entry_delete_memory", "zdbd/commands_namespace.c:command_dbsize", "zdbd/commands_namespace.c:command_nsinfo"]}
{"id": "C08", "title": "Quota is enforced exactly", "statement": "In a namespace with maxsize M set, a SET is refused with no effect exactly when the total live payload after it would exceed M (the replaced payload counting as freed); so, while M is not lowered, the total live payload never exceeds M.", "quantifier": "every history of commands, every M, payload sizes", "why_tests_cant": "unbounded histories; off-by-one or accounting drift shows at the limit only", "anchors": ["zdbd/commands_set.c:command_set"]}
{"id": "C09", "title": "WORM keys are immutable", "statement": "While a namespace is in worm mode, no command of any client changes or removes an existing key: once a GET returned a payload, all later GETs return it, also after restarts.", "quantifier": "every history of commands by all clients while worm is on", "why_tests_cant": "needs every command sequence, including ones not meant as writes", "anchors": ["zdbd/commands_set.c:command_set", "zdbd/commands_dataset.c:command_del", "zdbd/commands_namespace.c:command_flush"]}
{"id": "C10", "title": "Locked namespaces do not change", "statement": "While a namespace is locked or frozen, SET and DEL by any client are refused and leave both the files and all later replies unchanged.", "quantifier": "every state, client and argument", "why_tests_cant": "denial must hold for every argument combination and leave no partial effect", "anchors": ["zdbd/commands_set.c:command_set", "zdbd/commands_dataset.c:command_del", "libzdb/namespace.c:namespace_is_locked"]}
{"id": "C11", "title": "Frozen namespaces serve no dataset command", "statement": "While a namespace is frozen, every command that reads or writes its keys (GET, MGET, SET, DEL, EXISTS, CHECK, LENGTH, KEYTIME, SCAN, RSCAN, KSCAN, HISTORY, KEYCUR) replies an error that does not depend on the contents.", "quantifier": "every state, client and argument", "why_tests_cant": "all commands and states must be covered", "anchors": ["zdbd/commands_get.c", "zdbd/commands_dataset.c", "zdbd/commands_scan.c", "zdbd/commands_history.c"]}
{"id": "C12", "title": "Read-only clients cannot change data", "statement": "A client that entered a password-protected namespace without the password can never change the contents of that namespace, whatever commands it sends while there.", "quantifier": "every history of commands of that client and of the others", "why_tests_cant": "needs every command and every order of settings changes", "anchors": ["zdbd/commands_namespace.c:command_select", "zdbd/commands_set.c:command_set", "zdbd/commands_namespace.c:command_flush"]}
{"id": "C13", "title": "Admin-only operations need admin rights", "statement": "When an admin password is configured, a client that never completed a successful AUTH cannot create, delete, reconfigure or reload namespaces, force a file jump, choose timestamps, or use HOOKS, INDEX, DATA, MIRROR or MASTER: such requests are refused and change nothing.", "quantifier": "every history of commands of every client", "why_tests_cant": "authorization must hold for all command sequences and arguments", "anchors": ["zdbd/commands.c:command_admin_authorized", "zdbd/commands_namespace.c", "zdbd/commands_system.c", "zdbd/commands_replicate.c"]}
{"id": "C14", "title": "AUTH grants admin exactly on the right secret", "statement": "AUTH makes a client admin only if the argument is the configured password, or, for AUTH SECURE, the hash of the challenge previously sent to this client and the password; a wrong attempt leaves the client as it was.", "quantifier": "every password, challenge, argument bytes and earlier history", "why_tests_cant": "infinitely many passwords and argument byte strings (embedded NUL, prefixes)", "anchors": ["zdbd/commands_auth.c", "zdbd/auth.c:zdbd_password_check", "libzdb/security.c:zdb_hash_password"]}
{"id": "C15", "title": "SELECT gives the right level of access", "statement": "SELECT moves a client to a namespace read-write iff it has no password or the right password (plain or challenge hash) is given, read-only iff it is public and no password is given, and otherwise refuses and leaves the client where it was.", "quantifier": "every namespace configuration, argument list and client state", "why_tests_cant": "decision table over unbounded strings", "anchors": ["zdbd/commands_namespace.c:command_select"]}
{"id": "C16", "title": "A challenge can be used once", "statement": "A challenge obtained with AUTH SECURE CHALLENGE is consumed by the first secure authentication attempt (AUTH SECURE or SELECT .. SECURE); a recorded answer cannot be replayed.", "quantifier": "every history of commands of a client", "why_tests_cant": "needs all sequences of challenge/attempt commands", "anchors": ["zdbd/commands_auth.c:command_auth_secure", "zdbd/commands_namespace.c:command_select"]}
{"id": "C17", "title": "Data files are append-only", "statement": "No command except FLUSH and NSDEL ever changes or removes a byte already written in a data file; each command only appends to the current data file or starts a new one.", "quantifier": "every history of commands, every byte of every data file", "why_tests_cant": "universally quantified over bytes and histories", "anchors": ["libzdb/data.c:data_insert", "libzdb/data.c:data_delete", "libzdb/data.c:data_jump_next"]}
{"id": "C18", "title": "HISTORY lists every version of a key, newest first", "statement": "Starting with HISTORY key and following the returned cursor, a client receives the payload and timestamp of every version of the key since its creation (or last re-creation after DEL), newest first, and then the end marker.", "quantifier": "every user-mode history of SET, DEL, jump and reload", "why_tests_cant": "the chain crosses files and reloads; arbitrary length", "anchors": ["zdbd/commands_history.c", "libzdb/index_set.c:index_update_memory_handler_memkey", "libzdb/index.c:index_item_get_disk"]}
{"id": "C19", "title": "SCAN enumerates exactly the live keys", "statement": "Without concurrent writes, repeating SCAN with the returned cursor until the end lists every live key exactly once, in insertion order, with its length and timestamp, however the time slice cuts the replies.", "quantifier": "every reachable state, every way the time slice cuts the walk", "why_tests_cant": "time-slice cuts and file layouts are unbounded", "anchors": ["libzdb/index_scan.c:index_first_header", "libzdb/index_scan.c:index_next_header", "zdbd/commands_scan.c:command_scan"]}
{"id": "C20", "title": "RSCAN enumerates the live keys backwards", "statement": "Without concurrent writes, repeating RSCAN until the end lists every live key exactly once in reverse insertion order.", "quantifier": "every reachable state, every cut of the walk", "why_tests_cant": "backward links cross files; reached states are unbounded", "anchors": ["libzdb/index_scan.c:index_last_header", "libzdb/index_scan.c:index_previous_header", "zdbd/commands_scan.c:command_rscan"]}
{"id": "C21", "title": "SCAN never misses an untouched key", "statement": "A key that stays untouched (neither overwritten nor deleted) during a whole SCAN iteration is returned exactly once, whatever other clients write, delete or jump between the calls.", "quantifier": "every interleaving of SCAN calls with other commands", "why_tests_cant": "needs all interleavings", "anchors": ["libzdb/index_scan.c", "libzdb/index.c:index_entry_deserialize"]}
{"id": "C22", "title": "Cursors resume where they point", "statement": "The cursor of a key given by KEYCUR makes SCAN continue with the key after it (in user mode also after later writes); a cursor that does not match the entry it points to is refused, without effect.", "quantifier": "every state, key and cursor bytes", "why_tests_cant": "2^136 cursors, all states", "anchors": ["zdbd/commands_scan.c:command_keycur", "libzdb/index.c:index_entry_serialize", "libzdb/index.c:index_entry_deserialize"]}
{"id": "C23", "title": "Index and data files stay in step", "statement": "At all times a namespace has as many index files as data files, numbered from 0 without gaps, and the payload of a key stored while file n is current is in data file n.", "quantifier": "every history of commands, jumps and reloads", "why_tests_cant": "invariant over histories", "anchors": ["libzdb/index.c:index_jump_next", "libzdb/data.c:data_jump_next", "zdbd/commands_set.c:command_set"]}
{"id": "C24", "title": "The id-to-file search finds the right file", "statement": "For every id that was issued, the binary search over the list of (first id, file) pairs terminates and returns the file whose range contains the id.", "quantifier": "every strictly increasing map of any length and every id", "why_tests_cant": "maps of unbounded length", "anchors": ["libzdb/index_seq.c:index_seqmap_binary_search", "libzdb/index_seq.c:index_fileid_from_seq"]}
{"id": "C25", "title": "Checksums are computed right and detect corruption", "statement": "CHECK replies 1 for every key just after SET; if afterwards any single byte (or any burst of up to 32 bits) of the stored payload is altered, CHECK replies 0; the SSE4.2 and the portable implementation compute the same checksum.", "quantifier": "every payload of every length, every position and every alteration", "why_tests_cant": "all payloads and positions", "anchors": ["libzdb/crc32.c", "libzdb/data.c:data_check_real", "zdbd/commands_dataset.c:command_check"]}
{"id": "C26", "title": "A SET is skipped only for identical content", "statement": "SET replies 'up to date' (nil) without storing only if the stored payload is byte for byte the new one, for the daemon and for the library call zdb_api_set.", "quantifier": "every stored and new payload, including pairs with equal checksum", "why_tests_cant": "needs checksum collisions over all payload pairs", "anchors": ["zdbd/commands_set.c:data_compare_matching", "libzdb/api.c:zdb_api_set"]}
{"id": "C27", "title": "Request parsing does not depend on packet boundaries", "statement": "For every byte stream of well-formed requests, the sequence of executed commands and arguments is the same however the network cuts the stream into reads, and equals the sequence that was encoded.", "quantifier": "every list of requests, every way to cut the byte stream", "why_tests_cant": "exponentially many cuts of unbounded streams", "anchors": ["zdbd/redis.c:redis_chunk_read", "zdbd/redis.c:resp_empty", "zdbd/redis.c:resp_header", "zdbd/redis.c:resp_payload", "zdbd/redis.c:buffer_shift"]}
{"id": "C28", "title": "Malformed or oversized requests cannot reach a command", "statement": "Whatever bytes a client sends, a command handler is only called with between 1 and 1024 arguments, each with a non-negative length of at most 8 MiB whose content was fully received; everything else disconnects the client.", "quantifier": "every byte stream, every cut", "why_tests_cant": "all byte streams", "anchors": ["zdbd/redis.c:resp_header", "zdbd/redis.c:resp_payload", "zdbd/redis.c:resp_empty"]}
{"id": "C29", "title": "Replies are delivered in order and unmixed", "statement": "The bytes delivered to a client are always a prefix of the concatenation of the replies in the order the commands were executed, and become the whole of it once the socket accepts writing again; nothing is duplicated, reordered or lost while the connection stays up.", "quantifier": "every sequence of replies and every pattern of partial or blocked socket writes", "why_tests_cant": "all schedules of partial writes", "anchors": ["zdbd/redis.c:redis_send_response", "zdbd/redis.c:redis_delayed_write", "zdbd/redis.c:redis_reply_heap", "zdbd/redis.c:redis_reply_stack"]}
{"id": "C30", "title": "Commands are dispatched by name", "statement": "A request whose first argument is a command name in any letter case runs that command and no other; a name that is not a command is refused and changes nothing.", "quantifier": "every first argument", "why_tests_cant": "all byte strings (prefixes, empty name)", "anchors": ["zdbd/commands.c:redis_dispatcher", "zdbd/commands.c:commands_handlers"]}
{"id": "C31", "title": "Namespace table is consistent", "statement": "Namespace names are pairwise distinct, NSLIST announces as many names as it sends and sends each existing namespace once, the default namespace always exists, NSNEW of an existing name and NSDEL of the default or of a missing one are refused.", "quantifier": "every history of NSNEW/NSDEL", "why_tests_cant": "slot reuse depends on history", "anchors": ["libzdb/namespace.c:namespace_push", "libzdb/namespace.c:namespace_kick_slot", "libzdb/namespace.c:namespace_iter_next", "zdbd/commands_namespace.c"]}
{"id": "C32", "title": "No client uses a deleted namespace", "statement": "After NSDEL no client is attached to the deleted namespace: its next command is refused and the client disconnected, and it can never read or write the keys of a namespace later created in the same place.", "quantifier": "every history with any number of clients and namespaces", "why_tests_cant": "dangling references only show for particular orders (pointer reuse)", "anchors": ["zdbd/redis.c:redis_detach_clients", "zdbd/commands.c:redis_dispatcher", "zdbd/commands_namespace.c:command_nsdel"]}
{"id": "C33", "title": "Namespace settings survive a restart", "statement": "Name, password, public flag, worm flag and maxsize set with NSSET are the same after a restart.", "quantifier": "every value of the settings and every order of NSSET commands", "why_tests_cant": "variable-length fields rewritten in place; all values", "anchors": ["libzdb/namespace.c:namespace_descriptor_update", "libzdb/namespace.c:namespace_descriptor_load", "zdbd/commands_namespace.c:command_nsset"]}
{"id": "C34", "title": "FLUSH empties the namespace", "statement": "After a FLUSH acknowledged with OK, no key of the namespace exists any more and DBSIZE is 0.", "quantifier": "every state", "why_tests_cant": "must hold for every state", "anchors": ["zdbd/commands_namespace.c:command_flush", "libzdb/namespace.c:namespace_flush", "libzdb/filesystem.c:zdb_dir_clean_payload"]}
{"id": "C35", "title": "A crash during SET keeps the old or the new value", "statement": "If the process dies at any point during a SET (between or inside file writes), then after restart every other key reads as before, and the key of the SET reads either its old or its new payload.", "quantifier": "every reachable state, every SET, every crash point", "why_tests_cant": "every crash point in every state", "anchors": ["zdbd/commands_set.c", "libzdb/index_set.c:index_update_entry_memkey", "libzdb/index.c:index_entry_delete_disk", "libzdb/index_loader.c:index_load_file"]}
{"id": "C36", "title": "A crash during DEL is atomic", "statement": "If the process dies at any point during a DEL, then after restart the key is either still there with its payload or gone, and all other keys are unchanged.", "quantifier": "every reachable state, every crash point", "why_tests_cant": "every crash point in every state", "anchors": ["zdbd/commands_dataset.c:command_del", "libzdb/data.c:data_delete", "libzdb/index.c:index_entry_delete_disk"]}
{"id": "C37", "title": "WAIT wakes exactly on the awaited command", "statement": "A client in WAIT cmd is notified the first time another client of the same namespace successfully runs that command (or any command for *), or when its timeout has passed, and only then.", "quantifier": "every schedule of commands of any clients and clock ticks", "why_tests_cant": "all schedules", "anchors": ["zdbd/redis.c:redis_posthandler_client", "zdbd/redis.c:redis_client_set_watcher", "zdbd/commands.c:command_wait"]}
{"id": "C38", "title": "INDEX DIRTY lists exactly the modified index files", "statement": "INDEX DIRTY lists exactly the numbers of the index files in which an existing entry was modified since the last reset, and no memory outside the bitmap is touched.", "quantifier": "every history of commands, any number of index files", "why_tests_cant": "unbounded number of files, growth of the bitmap", "anchors": ["libzdb/index.c:index_dirty_resize", "libzdb/index.c:index_dirty_set", "libzdb/index.c:index_dirty_get", "libzdb/index.c:index_dirty_list"]}
{"id": "C39", "title": "The hook table never loses or dereferences a freed hook", "statement": "Whatever the order in which hooks start and finish, each running hook stays listed until it is reaped, its exit status is recorded on the right hook, and the table walk never dereferences an empty slot.", "quantifier": "every schedule of hook starts, child exits and cleanups", "why_tests_cant": "all schedules", "anchors": ["libzdb/hook.c"]}
{"id": "C40", "title": "On-disk records decode to what was encoded", "statement": "Every header, index entry, data record, namespace descriptor and cursor decodes to exactly the values encoded, and distinct values have distinct encodings.", "quantifier": "every field value in range", "why_tests_cant": "2^200+ values", "anchors": ["libzdb/index.h:index_item_t", "libzdb/data.h:data_entry_header_t", "libzdb/namespace.h:ns_header_t", "libzdb/index.h:index_bkey_t"]}
{"id": "C41", "title": "Rebuilding the index restores every key", "statement": "Running index-rebuild on the data files of a namespace, of either mode, produces an index with which every key reads the same payload, length and timestamp as with the original index, and deleted keys stay deleted.", "quantifier": "every history of SET/DEL/jump", "why_tests_cant": "all histories", "anchors": ["tools/index-rebuild/index-rebuild.c:index_rebuild_pass", "libzdb/data.c:data_raw_get"]}
{"id": "C42", "title": "A failed write harms no stored key", "statement": "If a disk write fails during a SET or DEL (an error is replied), every key still reads the value it had before the command.", "quantifier": "every state, every failing write and number of bytes written", "why_tests_cant": "fault at each write in each state", "anchors": ["libzdb/data.c:data_insert", "libzdb/index_set.c:index_append_entry_on_disk", "libzdb/index.c:index_entry_delete_disk"]}
{"id": "C43", "title": "Ids never issued are never found", "statement": "In sequential mode GET, EXISTS and DEL of an 8-byte id that was never returned by a SET reply not found and change nothing.", "quantifier": "every state and all 2^64 ids", "why_tests_cant": "2^64 ids", "anchors": ["libzdb/index_get.c:index_get_handler_sequential", "libzdb/index_seq.c"]}
{"id": "C44", "title": "Library calls agree with the daemon", "statement": "zdb_api_set/get/exists/del on a user-mode namespace have the same effect on the stored keys as the daemon commands SET/GET/EXISTS/DEL with the same key and payload.", "quantifier": "every history of calls", "why_tests_cant": "all histories", "anchors": ["libzdb/api.c"]}
{"id": "C45", "title": "The mode of a namespace is fixed once used", "statement": "The mode of a namespace can only be changed while no key was ever stored in it and no jump was made; keys stored in one mode are never interpreted in the other, also after restart.", "quantifier": "every history of commands", "why_tests_cant": "all histories", "anchors": ["zdbd/commands_namespace.c:command_nsset_mode", "libzdb/namespace.c:namespace_is_fresh", "libzdb/index_loader.c:index_switch_mode"]}
{"id": "C46", "title": "NSJUMP is invisible to readers", "statement": "NSJUMP changes no reply of any later GET, EXISTS, LENGTH, KEYTIME, DBSIZE or SCAN.", "quantifier": "every state, any number of jumps at any moment", "why_tests_cant": "all states and jump counts", "anchors": ["zdbd/commands_namespace.c:command_nsjump", "libzdb/index.c:index_jump_next", "libzdb/index_seq.c"]}
{"id": "C47", "title": "MGET equals a list of GETs", "statement": "The reply of MGET k1..kn is the array of the replies GET k1 .. GET kn would have given.", "quantifier": "every state and list of keys", "why_tests_cant": "all states and lists", "anchors": ["zdbd/commands_get.c:command_mget"]}
{"id": "C48", "title": "Offsets never overflow their 32-bit fields", "statement": "With the default file size limit, no file of a namespace ever grows past 4 GiB, so that every stored offset and length is exact.", "quantifier": "every history with payloads of at most 8 MiB", "why_tests_cant": "requires all histories; gigabytes of data", "anchors": ["zdbd/commands_set.c:command_set", "libzdb/index.h:index_item_t", "libzdb/data.c:data_insert"]}
{"id": "C49", "title": "Reading commands change nothing", "statement": "GET, MGET, EXISTS, CHECK, LENGTH, KEYTIME, SCAN, RSCAN, KSCAN, HISTORY, KEYCUR, DBSIZE, NSINFO, NSLIST, PING and TIME change no file and no later reply.", "quantifier": "every state and argument list", "why_tests_cant": "all states and arguments", "anchors": ["zdbd/commands_get.c", "zdbd/commands_dataset.c", "zdbd/commands_scan.c", "zdbd/commands_history.c", "zdbd/commands_namespace.c"]}
{"id": "C50", "title": "Writes of a history are totally ordered and durable per acknowledgement", "statement": "A SET acknowledged to the client is already fully in the files: a process crash at any time after the acknowledgement does not lose it.", "quantifier": "every history and every crash point after the acknowledgement, the file system keeping what write() accepted", "why_tests_cant": "every crash point in every history", "anchors": ["zdbd/commands_set.c", "libzdb/index_loader.c"]}
{"id": "C51", "title": "KSCAN lists exactly the keys with the prefix", "statement": "In user mode KSCAN p lists each live key of the client's namespace that starts with p exactly once, and no other key.", "quantifier": "every state and prefix", "why_tests_cant": "all states and prefixes", "anchors": ["zdbd/commands_scan.c:command_kscan"]}
{"id": "C52", "title": "A data directory is served by one process", "statement": "Paths are validated so that index and data directories differ, and namespace names can never escape the directories: no name accepted by NSNEW contains a slash or is '.', '..' or 'default'.", "quantifier": "every name", "why_tests_cant": "all byte strings", "anchors": ["libzdb/namespace.c:namespace_valid_name", "libzdb/bootstrap.c", "zdbd/commands_namespace.c:command_nsnew"]}
{"id": "C53", "title": "Walking the index always ends", "statement": "The walks over the index files behind SCAN, RSCAN and a cursor always reach an item or the end of the files, in every reachable state; SCAN does so on arbitrary file contents.", "quantifier": "every reachable state (all command sequences with jumps and reloads), every start position; for SCAN any file contents", "why_tests_cant": "termination over all file contents and positions", "anchors": ["libzdb/index_scan.c:index_next_header", "libzdb/index_scan.c:index_previous_header", "libzdb/index_scan.c:index_first_header", "libzdb/index_scan.c:index_last_header"]}
{"id": "C54", "title": "HOOKS sends what it announces, within its buffer", "statement": "The answer to HOOKS announces as many hooks as it sends, each hook of the table once, and is never longer than the memory allocated for it.", "quantifier": "every schedule of hook starts, child exits and cleanups, any arguments", "why_tests_cant": "any number of hooks, arguments of any length", "anchors": ["zdbd/commands_system.c:command_hooks", "libzdb/hook.c"]}
{"id": "C55", "title": "The data files are a log of the acknowledged writes", "statement": "After any sequence of commands the data files consist of their headers followed by records; read file after file, the records are exactly the acknowledged SETs (those that stored something) and DELs, in the order of the requests, with their keys, payloads and times, and every record but the first of a file gives the offset of the record before it.", "quantifier": "every sequence of commands with jumps, reloads and restarts, any keys and payloads", "why_tests_cant": "all histories; a wrong `previous` or a spurious record is invisible to GET", "anchors": ["libzdb/data.c:data_insert", "libzdb/data.c:data_delete", "libzdb/data.c:data_open_final", "zdbd/commands_set.c:command_set"]}
{"id": "C56", "title": "DATA RAW gives every record of the log", "statement": "An administrator that walks a data file with DATA RAW, from the end of the file header and from each record to the next, is given every record of the file, stored values and deletions, and then EOF.", "quantifier": "every reachable state, every file and every record", "why_tests_cant": "all histories and all positions", "anchors": ["libzdb/data.c:data_raw_get_real", "libzdb/data.c:data_raw_get", "zdbd/commands_system.c:command_data_raw"]}
{"id": "C57", "title": "The secure password digest is the SHA-1 of challenge:password", "statement": "The digest that AUTH SECURE and SELECT .. SECURE expect is the lower case hexadecimal SHA-1 (FIPS 180-4) of the challenge, a colon and the password; a client that holds a challenge and answers with it becomes administrator, and a client becomes administrator with a digest only by this answer to the last challenge sent to it. A challenge is 16 hexadecimal characters, different for different random bytes.", "quantifier": "every challenge and password without NUL, every text up to 2^32 bytes, cut in any pieces, any content of the uninitialised buffer", "why_tests_cant": "all message lengths and contents: padding, block boundaries, carries", "anchors": ["libzdb/sha1.c:SHA1Transform", "libzdb/sha1.c:SHA1Update", "libzdb/sha1.c:SHA1Final", "libzdb/sha1.c:zdb_sha1", "libzdb/security.c:zdb_hash_password", "libzdb/security.c:zdb_challenge"]}
{"id": "C58", "title": "integrity-check finds the damaged payloads of a data file", "statement": "The exit status of the integrity-check tool, run on a data file of a namespace, is 0 if and only if the file is a sequence of whole records and every payload in it has the checksum stored with it. In particular it is 0 for every data file that the server wrote, and not 0 after a change of up to 32 consecutive bits in a payload or when the file ends inside a record.", "quantifier": "every data file: any records, any number of wrong checksums, any cut; every execution of a namespace of either mode", "why_tests_cant": "all file contents and all executions", "anchors": ["tools/integrity-check/integrity-check.c:data_integrity", "tools/integrity-check/integrity-check.c:main", "libzdb/data.c:data_descriptor_load", "libzdb/data.c:data_descriptor_validate", "libzdb/data.c:data_set_id"]}
{"id": "C59", "title": "index-rebuild --time goes back to a moment", "statement": "If the index of a namespace is rebuilt with --time T, the data files are left as they are and the namespace loaded from the new index answers every read as it did when the last write with a time up to T had been acknowledged; later writes are forgotten.", "quantifier": "every execution before and after the moment, every T, every key", "why_tests_cant": "all histories, file boundaries and times", "anchors": ["tools/index-rebuild/index-rebuild.c:index_rebuild_pass", "tools/index-rebuild/index-rebuild.c:index_rebuild", "tools/index-rebuild/index-rebuild.c:main", "libzdb/index_loader.c:index_initialize"]}
{"id": "C60", "title": "Lookups stay within their buffers", "statement": "Whatever key or cursor a client sends, looking it up never copies more bytes of an id than the buffers involved hold: no request of a client makes the server read or write beyond them.", "quantifier": "every reachable state of the server, every client, every key and cursor", "why_tests_cant": "the keys that fail point into the middle of index items and depend on the bytes stored there", "anchors": ["libzdb/index_get.c:index_get_handler_sequential", "libzdb/index_seq.c:index_seq_offset", "libzdb/index.c:index_item_get_disk", "zdbd/commands_set.c:redis_set_handler_sequential", "libzdb/index.c:index_entry_deserialize"]}
{"id": "C61", "title": "A client reads back what its requests were answered", "statement": "A client that sends well-formed requests, over a connection which cuts its bytes and the answers in any pieces, has its requests executed once each and in order, and the bytes it receives read, with the rules of the protocol, as exactly the values of the messages made for it, in this order: no message is ambiguous, cut, mixed with another one or lost.", "quantifier": "every execution of the server with any clients, every packet cutting in both directions, every content of keys and payloads (including bytes that look like protocol), every instant", "why_tests_cant": "cuts of packets, interleavings of clients and contents that imitate the protocol are unbounded", "anchors": ["zdbd/redis.c:redis_chunk_read", "zdbd/redis.c:redis_bulk", "zdbd/redis.c:redis_reply_stack", "zdbd/redis.c:redis_mirror_client", "zdbd/socket_epoll.c:socket_event", "zdbd/commands_get.c:command_mget", "zdbd/commands_scan.c:command_scan_send_scanlist"]}
{"id": "C62", "title": "Each request is answered once, in the order of the requests", "statement": "A client may send requests without waiting for the answers: it is sent exactly one answer for each request, in the order of the requests, and nothing else.", "quantifier": "every execution with any clients, every list of requests of the client, any interleaving with the others, every packet cutting", "why_tests_cant": "sequences of requests and interleavings with other clients are unbounded; a missing answer cannot be told from a late one", "anchors": ["zdbd/redis.c:redis_handle_resp_finished", "zdbd/redis.c:redis_handle_resp_ownerid", "zdbd/redis.c:redis_posthandler_client", "zdbd/redis.c:redis_watch_timeout", "zdbd/commands.c:redis_dispatcher", "zdbd/commands.c:command_wait"]}
{"id": "C63", "title": "Under --sync, an acknowledged write survives a power loss", "statement": "With the option --sync, a write that was acknowledged survives a power loss, whatever part of the data still in the page cache reached the disk: after the restart the namespace loads, a key has the payload of its last acknowledged SET, and a key whose deletion was acknowledged is not found.", "quantifier": "every history of commands and restarts, every part of the unsynced writes that reaches the disk, every key", "why_tests_cant": "power losses and the parts of the page cache that survive them cannot be enumerated, and histories are unbounded", "anchors": ["libzdb/data.c:data_write", "libzdb/data.c:data_sync_check", "libzdb/index.c:index_write", "libzdb/index.c:index_sync_check", "libzdb/index.c:index_entry_delete_disk", "libzdb/index_set.c:index_seq_overwrite", "libzdb/libzdb.h:zdb_settings_t"]}
{"id": "C64", "title": "Under --synctime T, a power loss costs at most T seconds of writes", "statement": "With the option --synctime T, the acknowledged writes that a power loss loses all lie within T seconds of each other, and all writes acknowledged before them are read back after the restart.", "quantifier": "every history of commands with any times, every T, every part of the unsynced writes that reaches the disk", "why_tests_cant": "histories and their timings are unbounded, and a test cannot cut the power", "anchors": ["libzdb/data.c:data_sync_check", "libzdb/index.c:index_sync_check", "libzdb/index.c:index_jump_next", "libzdb/data.c:data_jump_next", "libzdb/index.c:index_entry_delete_disk", "libzdb/libzdb.h:zdb_settings_t"]}
{"id": "C65", "title": "What any client stored, every client reads, over the network", "statement": "A client that asks GET of a key is answered with the payload of the last SET of this key accepted in the namespace it has selected, from whichever client and over whatever connection it came, unless a DEL was accepted since or the namespace was made anew; then it is told that there is nothing. Which SET is the last is decided at a moment between the sending of the request and the arrival of the answer; in particular a SET whose acceptance one client has received before another client asks is visible to it, also across restarts.", "quantifier": "every execution of the process with any number of clients and namespaces, every interleaving, every cutting of both byte streams, every key and payload", "why_tests_cant": "executions, interleavings and packet cuttings are unbounded", "anchors": ["zdbd/socket_epoll.c:socket_event", "zdbd/redis.c:redis_chunk_read", "zdbd/redis.c:redis_handle_resp_finished", "zdbd/redis.c:redis_reply", "zdbd/commands.c:redis_dispatcher", "zdbd/commands_set.c:command_set", "zdbd/commands_get.c:command_get", "zdbd/commands_dataset.c:command_del", "zdbd/commands_namespace.c:command_select"]}
{"id": "C66", "title": "namespace-editor sets what it is told", "statement": "After the server is stopped, namespace-editor is run on a namespace, and the server is started again, the namespace has the password, size limit, public access and worm mode the options asked for (the last one of each kind counts; what is not asked for is as the help says). Its keys and payloads are unchanged, and so are the settings and the contents of every other namespace. A run that reports failure changes nothing.", "quantifier": "every state the server can reach and stop in, every list of options, every name, password and size", "why_tests_cant": "states, option lists and values are unbounded", "anchors": ["tools/namespace-editor/namespace-editor.c:main", "tools/namespace-editor/namespace-editor.c:namespace_edit", "libzdb/namespace.c:namespace_load_light", "libzdb/namespace.c:namespace_commit", "libzdb/namespace.c:namespace_descriptor_load"]}
{"id": "C67", "title": "index-dump shows what is stored", "statement": "index-dump, run on the index directory of a namespace, succeeds and lists every index record once, in the order of the files. The records listed without the deleted flag are exactly the keys stored, each with the length, checksum and date of its payload, and each record listed gives the file and the offset where a record of its key with this length and checksum is found. A file cut inside a record is reported with a failure after the records before it.", "quantifier": "every execution of commands, restarts and jumps, both modes, every number of files; every sequence of records", "why_tests_cant": "executions, files and record sequences are unbounded", "anchors": ["tools/index-dump/index-dump.c:index_dump_files", "tools/index-dump/index-dump.c:main", "libzdb/index_get.c:index_raw_fetch_entry", "libzdb/index_loader.c:index_availity_check", "libzdb/index_loader.c:index_descriptor_validate"]}
{"id": "C68", "title": "The table of keys in memory is sound", "statement": "Keys that share a branch of the table never disturb each other: after any sequence of lookups, insertions, changes, deletions and removals of whole namespaces, a lookup finds exactly the entry inserted and not yet deleted for this namespace and key. No operation follows a null or dangling pointer, loops for ever or leaks an entry, and a graceful stop frees everything once.", "quantifier": "every sequence of operations, every placement by the allocator, every distribution of keys over the branches", "why_tests_cant": "the sequences and the collisions of keys are unbounded; a dangling pointer often goes unnoticed", "anchors": ["libzdb/index_branch.c:index_branch_append", "libzdb/index_branch.c:index_branch_remove", "libzdb/index_branch.c:index_branch_get_previous", "libzdb/index.c:index_entry_get", "libzdb/index.c:index_entry_delete_memory", "libzdb/index.c:index_clean_namespace", "libzdb/namespace.c:namespaces_destroy"]}
{"id": "C69", "title": "The loss of a data file stays contained", "statement": "When data files are lost, cut or corrupted behind the back of the server, the damage is confined to the values whose bytes were hit. Every other key reads the payload of its last acknowledged SET, before and after a restart, and new values can be stored and read. A value whose end was cut off is answered with an error, never with other bytes. EXISTS and LENGTH do not depend on the data files. Setting a damaged value again restores it: a SET is skipped only if the bytes are really there.", "quantifier": "every execution of commands and restarts, every number of damages at any time, every new content of a file", "why_tests_cant": "the contents, moments and combinations of damage are unbounded", "anchors": ["libzdb/data.c:data_open_id_mode", "libzdb/data.c:data_get", "libzdb/data.c:data_check", "libzdb/data.c:data_initialize", "zdbd/commands_set.c:data_compare_matching", "zdbd/commands_get.c:command_get_single"]}
{"id": "C70", "title": "Only own descriptors are used and closed, and none is left open", "statement": "The process reads, writes and closes only descriptors that are open on what it takes them for: no file of another namespace, no client, no lock file is hit through a descriptor that was closed and given out again. Between two events the open descriptors are exactly those its variables hold: the standard three, two lock files, the listening sockets, the event queue, one per client and two per namespace, however many requests were answered and whatever failed. A program that opens and closes the database has the descriptors it had before.", "quantifier": "every sequence of events, every answer of the kernel to every call (failures, any free number for an open), every content of files", "why_tests_cant": "leaks and uses after close show up only on combinations of failing calls and in long runs", "anchors": ["libzdb/data.c:data_grab_dataid", "libzdb/data.c:data_jump_next", "libzdb/index.c:index_jump_next", "libzdb/index_loader.c:index_load_file", "libzdb/namespace.c:namespace_descriptor_load", "libzdb/namespace.c:namespace_delete", "libzdb/bootstrap.c:zdb_lock", "libzdb/bootstrap.c:zdb_close", "zdbd/redis.c:socket_client_free", "zdbd/socket_epoll.c:socket_event"]}
{"id": "C71", "title": "Only own memory is touched and freed, and none is lost", "statement": "No request, no reply and no failing file makes the server follow a NULL pointer or a pointer to memory it has already freed, or free a block twice. Between two events every block of memory the process has is held by exactly one of its variables: clients with their read buffers, half read requests and waiting replies, namespaces with their names, passwords and maps. So the memory in use does not grow with the number of requests answered, and a graceful stop gives everything back.", "quantifier": "every sequence of connections, requests (complete or not), disconnections and idle passes, every answer of files and clocks, every placement by the allocator", "why_tests_cant": "dangling pointers and leaks show up only on rare combinations of failures and in long runs, and often without any visible effect", "anchors": ["zdbd/redis.c:redis_chunk_read", "zdbd/redis.c:redis_handle_resp_finished", "zdbd/redis.c:redis_handle_resp_ownerid", "zdbd/redis.c:redis_reply_stack", "zdbd/redis.c:redis_reply_heap", "zdbd/redis.c:redis_delayed_write", "zdbd/redis.c:socket_client_free", "zdbd/commands_set.c:data_compare_matching", "zdbd/commands_scan.c:command_scan", "zdbd/commands_history.c:command_history", "zdbd/commands_auth.c:command_auth", "zdbd/commands_namespace.c:command_nsdel", "libzdb/namespace.c:namespace_reload", "libzdb/namespace.c:namespaces_destroy", "libzdb/index_seq.c:index_seqid_push"]}
{"id": "C72", "title": "DATA RAW shows whole records of the file and nothing else", "statement": "Whatever bytes the data files hold, DATA RAW with any file number and any offset answers either an error or the record that lies whole at this place: its id, the fields of its header and its payload, of at most 8 MiB and not deleted. Every such record is answered, nothing outside the file is shown, and nobody but an administrator is shown anything.", "quantifier": "every content of the data files, every file number, every offset, every request", "why_tests_cant": "all byte strings as file contents and all offsets", "anchors": ["libzdb/data.c:data_raw_get_real", "libzdb/data.c:data_raw_get", "zdbd/commands_system.c:command_data_raw", "zdbd/commands_system.c:command_data"]}
{"id": "C73", "title": "Every text is made up within its buffer, and is the text meant", "statement": "The replies of SCAN, RSCAN, KSCAN, KEYCUR, HISTORY, DATA RAW, TIME, INFO, NSINFO, NSLIST, MGET, AUTH SECURE CHALLENGE, of the commands that answer a number, what is sent to mirrors, the list of files given to a hook, the names of index and data files and the copies of arguments are written piece by piece into buffers whose size is computed or fixed beforehand. No piece is ever written beyond its buffer, whatever the files, keys, names and arguments are, and the text that results is the one the protocol asks for.", "quantifier": "every file content, list of entries, payload, request, name and path", "why_tests_cant": "the sizes that matter are at the edge of the buffers: longest keys, largest numbers, longest names and paths", "anchors": ["zdbd/redis.c:redis_bulk", "zdbd/redis.c:redis_mirror_client", "zdbd/commands_scan.c:command_scan_send_scanlist", "zdbd/commands_scan.c:command_kscan_send_list", "zdbd/commands_history.c:history_send_array", "zdbd/commands_system.c:command_data_raw", "zdbd/commands_system.c:command_info", "zdbd/commands_namespace.c:command_nsinfo", "libzdb/index.c:index_dirty_list_generate", "libzdb/index_loader.c:index_internal_load", "zdbd/commands.c:command_args_overflow"]}
{"id": "C74", "title": "A copy kept by hooks is right", "statement": "A script is set as hook. When files are changed it copies the closed index file and the index files it is given as modified, and later the closed data file; when the server stops it copies the current files and the modified index files. Then at every moment each closed index file is equal to its copy, unless it will be given as modified at the next call; each closed data file is equal to its copy once the script had time to make it; and a server started on the copies, after the first one was stopped, gives the same namespace.", "quantifier": "every sequence of requests, of changes of files, of outcomes of the script, of late copies and of restarts", "why_tests_cant": "a modified file that is not announced shows only when the copy is restored, and depends on the order of deletions, updates, changes of files and failures of the script", "anchors": ["libzdb/index.c:index_jump_next", "libzdb/index.c:index_dirty_list_generate", "libzdb/index.c:index_dirty_reset", "libzdb/data.c:data_jump_next", "libzdb/namespace.c:namespace_flushing_hook", "libzdb/hook.c:hook_execute_wait", "zdbd/commands_set.c:command_set", "zdbd/commands_namespace.c:command_nsjump"]}
{"id": "C75", "title": "A data file that was taken away is brought back before a request is answered", "statement": "A script is set as hook; it copies data files, takes away closed ones that were copied, and when it is asked for a missing data file it puts the copy back. Then every request is answered as if no file had ever been taken away, and nothing else is changed. If the script cannot bring the file, a request that reads is answered with an error and changes nothing.", "quantifier": "every sequence of requests, of changes of files, of copies, of files taken away again and again, and of restarts", "why_tests_cant": "which command opens which file depends on where each version of each key was written; a wrong retry shows only for the file that is missing at that moment", "anchors": ["libzdb/data.c:data_open_id_mode", "libzdb/data.c:data_open_notfound_hook", "libzdb/data.c:data_grab_dataid", "libzdb/data.c:data_get", "libzdb/data.c:data_check", "libzdb/data.c:data_raw_get", "zdbd/commands_set.c:data_compare_matching", "zdbd/commands_get.c:command_mget"]}
{"id": "C76", "title": "The server starts as its command line says, or not at all", "statement": "Whatever the order and the spelling of its options (one dash or two, value joined or apart, shortened names), a server that starts has every setting asked for, the last one where several ask for the same, and the documented default for the rest; it awaits clients exactly at the places named. An option that is unknown or ambiguous, lacks its value or has a value out of range stops it with a failure before anything is opened. Protection never starts without a password, and from then on nobody writes to the default namespace without that password.", "quantifier": "every command line; for the settings, every list of options in every spelling, with other words between them", "why_tests_cant": "the number of orders, repetitions and abbreviations is unbounded; a wrong entry in the option table shows only for one spelling", "anchors": ["zdbd/zdbd.c:main", "zdbd/zdbd.c:proceed", "zdbd/zdbd.c:long_options", "libzdb/libzdb.c:zdb_human_readable_parse", "zdbd/redis.c:redis_listen"]}
{"id": "C77", "title": "A stopped server leaves everything acknowledged on the disk", "statement": "When the server was stopped by SIGINT, SIGTERM or STOP, a power loss afterwards loses nothing that was acknowledged before: a server started again on what is left answers as one started again without the power loss.", "quantifier": "every execution, every mode and choice of sync options, every part of the unsynced writes that reached the disk", "why_tests_cant": "what a kernel has written back cannot be controlled by a test, and the number of partial outcomes is unbounded", "anchors": ["zdbd/zdbd.c:sighandler", "libzdb/namespace.c:namespaces_emergency", "libzdb/namespace.c:namespaces_destroy", "libzdb/index.c:index_emergency", "libzdb/data.c:data_emergency", "libzdb/index.c:index_jump_next", "libzdb/data.c:data_jump_next"]}
{"id": "C78", "title": "namespace-dump tells the settings of a namespace", "statement": "When the server is stopped and namespace-dump is called with the name of a namespace, the tool changes nothing and prints the name, password, public flag, worm flag and size limit with which the server serves that namespace when it is started again; for a name without namespace it says that there is none.", "quantifier": "every state a stopped server can be in, every namespace, every setting", "why_tests_cant": "The settings are any strings and numbers, set by any sequence of commands before the stop, and what is read depends on the whole text printed.", "anchors": ["tools/namespace-dump/namespace-dump.c:7-49", "libzdb/namespace.c:116-157", "libzdb/namespace.c:238-272"]}
{"id": "C79", "title": "Quick compaction keeps the dataset", "statement": "When quick-compact is run on the files of a stopped namespace, a server started on the files it writes serves the same keys with the same payloads and times as before, and the files do not hold the payloads of deleted or replaced entries any more.", "quantifier": "every sequence of commands before the stop, every key", "why_tests_cant": "What is written depends on the order and sizes of all entries in all files, deleted ones included; a test sees a few layouts only.", "anchors": ["tools/quick-compaction/quick-compact.c:50-88", "tools/quick-compaction/quick-compact.c:132-317", "libzdb/index_loader.c:387-446"]}
{"id": "C80", "title": "A reply of the library belongs to the caller until it is given back", "statement": "No call of zdb_api_set, zdb_api_get, zdb_api_exists, zdb_api_check or zdb_api_del, and no zdb_api_reply_free of a reply that was not given back before, follows a NULL pointer or a pointer to freed memory or frees a block twice. All of a reply (its text, its buffer, its key and payload) stays readable until the caller gives it to zdb_api_reply_free, whatever calls come in between; no two replies share memory, and none shares memory with the library. The calls forget no block: the memory in use is that of the opened namespaces and of the replies not given back, and a program that gives every reply back and closes the library has none left of what it opened.", "quantifier": "every sequence of calls, readings and releases of replies in any order, on every namespace and in both modes, every answer of files and clock, every placement by the allocator", "why_tests_cant": "a shared or forgotten block has an effect only in rare orders of calls, failures and releases, and after long runs", "anchors": ["libzdb/api.c:zdb_api_reply_free", "libzdb/api.c:zdb_api_reply_entry", "libzdb/api.c:zdb_api_reply_buffer", "libzdb/api.c:zdb_api_reply_error", "libzdb/api.c:zdb_api_set", "libzdb/api.c:zdb_api_get", "libzdb/api.c:zdb_api_exists", "libzdb/api.c:zdb_api_check", "libzdb/api.c:zdb_api_del"]}
{"id": "C81", "title": "A server sent to the background keeps its files, its locks and its log", "statement": "With --background, the process that goes on has every file, socket and lock the server had opened before, on the same descriptors; its standard input is /dev/null, its standard output and error are the log file (or /dev/null), and it has no other descriptors. The first process ends with success only if the server goes on. Every message written to the log stays in it, in the order in which they were written.", "quantifier": "every table of descriptors the process was started with, every answer of the kernel to fork, open, dup2 and freopen, every sequence of messages to standard output and standard error", "why_tests_cant": "depends on what the caller left open, on failures in the few calls after the fork, and on how messages of two streams follow each other", "anchors": ["zdbd/redis.c:daemonize", "zdbd/redis.c:redis_listen", "libzdb/bootstrap.c:zdb_lock", "libzdb/libzdb.c:zdb_warnp", "zdbd/zdbd.h:zdbd_log"]}
{"id": "C82", "title": "Settings change only when an administrator says so", "statement": "Password, public flag, worm flag, size limit and the locked and frozen state of a namespace change only when an administrator is acknowledged an NSSET that names this namespace and this setting, and then to the value it says; no other command, client, reload or file rotation changes them, and a restart changes only the temporary locked and frozen state. In particular a frozen namespace is thawed only by NSSET freeze, and a locked one is unlocked only by NSSET lock.", "quantifier": "every execution of the server, with every interleaving of clients and requests, restarts and reloads, and every namespace that exists throughout", "why_tests_cant": "that nothing else changes a setting is about every command and every order of events", "anchors": ["zdbd/commands_namespace.c:command_nsset", "zdbd/commands_namespace.c:command_nsset_lock", "zdbd/commands_namespace.c:command_nsset_freeze", "libzdb/namespace.c:namespace_load_light", "libzdb/namespace.c:namespace_commit"]}
{"id": "C83", "title": "The password of a namespace is told to nobody but masters", "statement": "Nothing any client is sent, in any execution, depends on what the password of a namespace is, apart from whether a password given to SELECT is the right one and from NSINFO sent to a master client: with another password in its place, all clients are sent the same messages in the same order, and nothing else in the server differs.", "quantifier": "every execution of the server with every interleaving of clients, every pair of passwords", "why_tests_cant": "it compares two executions for every pair of secrets; a test looks at one execution", "anchors": ["zdbd/commands_namespace.c:command_nsinfo", "zdbd/commands_namespace.c:command_select", "zdbd/commands_namespace.c:command_nsset", "zdbd/commands_namespace.c:command_flush", "zdbd/commands.c:redis_dispatcher"]}
{"id": "C84", "title": "The password of administrators is told to nobody", "statement": "Nothing any client is sent, in any execution, and nothing the server keeps depends on what the password of administrators is, apart from whether a password or digest given to AUTH is the right one: a server started with another one sends all clients the same messages in the same order. With --protect, where it is also the password of the default namespace, the same holds apart from SELECT and from NSINFO sent to a master client.", "quantifier": "every execution of the server with every interleaving of clients, every pair of passwords", "why_tests_cant": "it compares two executions for every pair of secrets; a test looks at one execution", "anchors": ["zdbd/commands_auth.c:command_auth_regular", "zdbd/commands_auth.c:command_auth_secure", "zdbd/auth.c:zdbd_password_check", "zdbd/zdbd.c:main", "zdbd/redis.c:socket_client_new", "zdbd/commands.c:redis_dispatcher"]}
