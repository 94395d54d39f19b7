/-
The buffers in which the server and the library make up their texts: their sizes, and the order of the copies.
-/
import Verif.Model.Wire
import Verif.Model.Scan
import Verif.Model.Commands
namespace Zdb.Text
open Zdb.Wire

/-- A buffer of `size` bytes and the text made up in it so far. -/
structure Buf where
  size : Nat
  text : Bytes

/-- `malloc(n)`, or an array of `n` characters on the stack. -/
def Buf.new (n : Nat) : Buf := ⟨n, []⟩

/-- `offset += sprintf(buffer + offset, …)`: the text and a NUL, which is not counted.  `none`: written beyond
    the buffer (undefined behaviour). -/
def Buf.printf (b : Buf) (t : Bytes) : Option Buf :=
  if b.text.length + t.length + 1 ≤ b.size then some ⟨b.size, b.text ++ t⟩ else none

/-- `memcpy(buffer + offset, …)`, `offset += …`: without NUL. -/
def Buf.copy (b : Buf) (t : Bytes) : Option Buf :=
  if b.text.length + t.length ≤ b.size then some ⟨b.size, b.text ++ t⟩ else none

/-- One step per element. -/
def each {α : Type} (f : Buf → α → Option Buf) : List α → Buf → Option Buf
  | [], b => some b
  | x :: l, b => (f b x).bind (each f l)

/-- The text of a `sprintf` in an array of `n` characters of its own. -/
def only (n : Nat) (t : Bytes) : Option Bytes := ((Buf.new n).printf t).map Buf.text

/-! ### bulk strings -/

/-- `redis_bulk` and `redis_bulk_append`, zdbd/redis.c:338-376. -/
def bulk (p : Bytes) : Option Bytes := do
  let n ← only 64 (decBytes p.length)
  let b ← (Buf.new (1 + n.length + 2 + p.length + 2)).copy [36]
  let b ← b.copy n
  let b ← b.copy crlf
  let b ← b.copy p
  let b ← b.copy crlf
  pure b.text

/-! ### SCAN, RSCAN and KSCAN -/

/-- `(MAX_KEY_LENGTH * 2) + 128`: `MAX_KEY_LENGTH` is defined as `(1 << 8) - 1`, without parentheses around it
    (libzdb/index.h:264), so that only the 1 is doubled. -/
def keyRoom : Nat := ((1 <<< 8) - 1 * 2) + 128

/-- One item of the list, zdbd/commands_scan.c:131-146. -/
def scanRow (b : Buf) (x : Scanned) : Option Buf := do
  let b ← b.printf (encHead 3)
  let b ← b.printf (36 :: (decBytes x.it.idlength ++ crlf))
  let b ← b.copy (x.it.id.take x.it.idlength)
  let b ← b.printf (crlf ++ 58 :: (decInt (asInt32 x.it.length) ++ crlf))
  b.printf (58 :: (decInt (asInt32 x.it.timestamp) ++ crlf))

/-- `command_scan_send_scanlist`, zdbd/commands_scan.c:91-154; the text of an empty list is a literal. -/
def scanSend (l : List Scanned) : Option Bytes :=
  match l.getLast? with
  | none => some (encReply (.err "No more data"))
  | some last => do
    let b ← (Buf.new (keyRoom * l.length)).printf (encHead 2 ++ 36 :: (decBytes bkeyLen ++ crlf))
    let b ← b.copy (cursorOf last)
    let b ← b.printf (crlf ++ encHead l.length)
    let b ← each scanRow l b
    pure b.text

/-- One key of the list, zdbd/commands_scan.c:432-441. -/
def kscanRow (b : Buf) (e : Entry) : Option Buf := do
  let b ← b.printf (36 :: (decBytes e.id.length ++ crlf))
  let b ← b.copy e.id
  b.printf crlf

/-- `command_kscan_send_list`, zdbd/commands_scan.c:409-447. -/
def kscanSend (l : List Entry) : Option Bytes :=
  if l.isEmpty then some (encReply (.err "No keys match"))
  else do
    let b ← (Buf.new (keyRoom * l.length)).printf (encHead 2 ++ encBulk [48])
    let b ← b.printf (encHead l.length)
    let b ← each kscanRow l b
    pure b.text

/-- KEYCUR, zdbd/commands_scan.c:360-369: `response[64]`. -/
def keycur (k : Bytes) : Option Bytes := do
  let b ← (Buf.new 64).printf (36 :: (decBytes bkeyLen ++ crlf))
  let b ← b.copy k
  let b ← b.printf crlf
  pure b.text

/-! ### HISTORY and DATA RAW -/

/-- `history_send_array`, zdbd/commands_history.c:52-98. -/
def historyArray (k : EKey) (ts : Nat) (p : Bytes) : Option Bytes := do
  let b := Buf.new (p.length + 256)
  let b ←
    (if k.indexid ≠ 0 ∨ k.offset ≠ 0 then do
      let b ← b.printf (encHead 3 ++ 36 :: (decBytes ekeyLen ++ crlf))
      b.copy (encEKey k)
    else b.printf (encHead 3 ++ [36, 45, 49]))
  let d ← only 64 (decBytes ts)
  let b ← b.printf (crlf ++ 36 :: (decBytes d.length ++ crlf ++ d ++ crlf))
  let b ← b.printf (36 :: (decBytes p.length ++ crlf))
  let b ← b.copy p
  let b ← b.copy crlf
  pure b.text

/-- `command_data_raw`, zdbd/commands_system.c:295-342. -/
def rawArray (h : DHdr) (id p : Bytes) : Option Bytes := do
  let b ← (Buf.new (h.datalength + h.idlength + 512)).printf (encHead 6)
  let b ← b.printf (36 :: (decBytes h.idlength ++ crlf))
  let b ← b.copy id
  let b ← b.printf crlf
  let b ← b.printf (58 :: (decBytes h.previous ++ crlf))
  let b ← b.printf (36 :: (decBytes 10 ++ crlf ++ hex8 h.integrity ++ crlf))
  let b ← b.printf (58 :: (decBytes h.flags ++ crlf))
  let b ← b.printf (58 :: (decBytes h.timestamp ++ crlf))
  let b ←
    (if 0 < h.datalength then do
      let b ← b.printf (36 :: (decBytes h.datalength ++ crlf))
      let b ← b.copy p
      b.printf crlf
    else b.printf (36 :: 45 :: 49 :: crlf))
  pure b.text

/-! ### what is sent to mirrors -/

/-- An argument of the request, zdbd/redis.c:1014-1022. -/
def mirrorArg (b : Buf) (a : Bytes) : Option Buf := do
  let b ← b.printf (36 :: (decBytes a.length ++ crlf))
  let b ← b.copy a
  b.copy crlf

/-- The length counted before, zdbd/redis.c:981-1001: each part is printed in `temp[256]`, of which only the
    number of characters is used; the name is printed with `snprintf`, which counts what it would have written. -/
def mirrorLength (now : Nat) (name : Bytes) (owner : Nat) (argv : List Bytes) : Option Nat := do
  let h ← only 256 (encHead (argv.length + 3))
  let t ← only 256 (58 :: (decBytes now ++ crlf))
  let o ← only 256 (58 :: (decBytes owner ++ crlf))
  let l ← argv.foldr (fun a r => r.bind fun n => (only 256 (36 :: (decBytes a.length ++ crlf))).map
    fun t => t.length + (a.length + 2) + n) (some 0)
  pure (h.length + t.length + (encBulk name).length + o.length + l)

/-- `redis_mirror_client`, zdbd/redis.c:960-1027. -/
def mirror (now : Nat) (name : Bytes) (owner : Nat) (argv : List Bytes) : Option Bytes := do
  let n ← mirrorLength now name owner argv
  let b ← (Buf.new n).printf (encHead (argv.length + 3))
  let b ← b.printf (58 :: (decBytes now ++ crlf))
  let b ← b.printf (encBulk name)
  let b ← b.printf (58 :: (decBytes owner ++ crlf))
  let b ← each mirrorArg argv b
  if b.text.length = n then pure b.text else none

/-! ### short answers -/

/-- A number: EXISTS, CHECK, LENGTH, KEYTIME (zdbd/commands_dataset.c: `response[32]`) and DBSIZE
    (zdbd/commands_namespace.c:600-607: `response[64]`). -/
def number (room : Nat) (i : Int) : Option Bytes := only room (58 :: (decInt i ++ crlf))

/-- TIME, zdbd/commands_system.c:26-43: `response[256]`; the two numbers are first printed in arrays of 64. -/
def time (sec usec : Nat) : Option Bytes := do
  let s ← only 64 (decBytes sec)
  let u ← only 64 (decBytes usec)
  only 256 (encHead 2 ++ 36 :: (decBytes s.length ++ crlf ++ s ++ crlf) ++ 36 :: (decBytes u.length ++ crlf ++ u ++ crlf))

/-- The header of MGET (zdbd/commands_get.c:91-104) and of NSLIST (zdbd/commands_namespace.c:250-255): `line[512]`. -/
def arrayHead (n : Nat) : Option Bytes := only 512 (encHead n)

/-- A line of NSLIST, zdbd/commands_namespace.c:260-263: `line[512]`. -/
def nslistLine (name : Bytes) : Option Bytes := only 512 (encBulk name)

/-- AUTH SECURE CHALLENGE, zdbd/commands_auth.c:34-37: `response[32]`. -/
def challenge (nonce : Bytes) : Option Bytes := only 32 (43 :: (nonce ++ crlf))

/-- The list given to the hook of a jump, `index_dirty_list_generate`, libzdb/index.c:310-335. -/
def hookDirty (l : List Nat) : Option Bytes :=
  (each (fun b n => b.printf (decBytes n ++ [32])) l (Buf.new ((l.length + 1) * 16))).map (fun b => b.text.dropLast)

/-! ### INFO and NSINFO -/

/-- A line of INFO or NSINFO: a label, a value and the end of the line, in one `sprintf`. -/
def infoLine (b : Buf) (x : String × Bytes) : Option Buf := b.printf (chars x.1 ++ (x.2 ++ [10]))

/-- The labels of INFO, zdbd/commands_system.c:71-110, in order; the first two and those of the sections have no
    value. -/
def infoLabels : List String :=
  ["# server", "server_name: 0-db (zdb)", "server_revision: ", "engine_revision: ", "instance_id: ", "boot_time: ",
   "uptime: ", "\n# clients", "clients_lifetime: ", "\n# internals", "sequential_key_size: ", "data_version: ",
   "index_version: ", "\n# stats", "commands_executed: ", "commands_failed: ", "commands_unauthorized: ",
   "index_disk_read_failed: ", "index_disk_write_failed: ", "data_disk_read_failed: ", "data_disk_write_failed: ",
   "index_disk_read_bytes: ", "index_disk_read_mb: ", "index_disk_write_bytes: ", "index_disk_write_mb: ",
   "data_disk_read_bytes: ", "data_disk_read_mb: ", "data_disk_write_bytes: ", "data_disk_write_mb: ",
   "network_rx_bytes: ", "network_rx_mb: ", "network_tx_bytes: ", "network_tx_mb: "]

/-- `command_info`, zdbd/commands_system.c:61-121, given the text of each value: `info[4096]`, then `redis_bulk`. -/
def info (values : List Bytes) : Option Bytes := do
  let b ← each infoLine (infoLabels.zip values) (Buf.new 4096)
  bulk b.text

/-- The labels of NSINFO, zdbd/commands_namespace.c:303-366, in order. -/
def nsinfoLabels : List String :=
  ["# namespace", "name: ", "entries: ", "public: ", "worm: ", "locked: ", "password: ", "data_size_bytes: ",
   "data_size_mb: ", "data_limits_bytes: ", "index_size_bytes: ", "index_size_kb: ", "next_internal_id: ", "mode: ",
   "stats_index_io_errors: ", "stats_index_io_error_last: ", "stats_index_faults: ", "stats_data_io_errors: ",
   "stats_data_io_error_last: ", "stats_data_faults: ", "space_available: ", "index_disk_freespace_bytes: ",
   "index_disk_freespace_mb: ", "data_disk_freespace_bytes: ", "data_disk_freespace_mb: ", "password_raw: ",
   "data_path: ", "data_active: ", "index_path: ", "index_active: ", "data_current_id: ", "data_current_offset: "]

/-- `command_nsinfo`, zdbd/commands_namespace.c:285-382: a block of 8192; lines not shown have no value. -/
def nsinfo (values : List (Option Bytes)) : Option Bytes := do
  let b ← each infoLine ((nsinfoLabels.zip values).filterMap (fun x => x.2.map (fun v => (x.1, v)))) (Buf.new 8192)
  bulk b.text

/-! ### names of files -/

/-- `%s/%s`. -/
def joinPath (dir name : Bytes) : Bytes := dir ++ 47 :: name

/-- `index_set_id_buffer`, libzdb/index.c:159-162; `indexfile` has 4097 bytes (libzdb/index_loader.c:532). -/
def indexFileName (dir : Bytes) (id : Nat) : Option Bytes := only 4097 (joinPath dir (105 :: decBytes id))

/-- `index_open_file_mode`, libzdb/index.c:177-181: `filename[512]`. -/
def indexOpenName (dir : Bytes) (id : Nat) : Option Bytes := only 512 (joinPath dir (105 :: decBytes id))

/-- `index_internal_load`, libzdb/index_loader.c:412-415: `legacy[256]`. -/
def legacyName (dir : Bytes) : Option Bytes := only 256 (joinPath dir (chars "zdb-index-00000"))

/-- `index_open_readwrite_oneshot`, libzdb/index.c:227-231: `tempfile[2048]`. -/
def indexOneshotName (dir : Bytes) (id : Nat) : Option Bytes := only 2048 (joinPath dir (105 :: decBytes id))

/-- `data_set_id`, libzdb/data.c:279-281; `datafile` has 4097 bytes (libzdb/data.c:693). -/
def dataFileName (dir : Bytes) (id : Nat) : Option Bytes := only 4097 (joinPath dir (100 :: decBytes id))

/-- `data_open_id_mode`, libzdb/data.c:130-135: `temp[4096]`. -/
def dataOpenName (dir : Bytes) (id : Nat) : Option Bytes := only 4096 (joinPath dir (100 :: decBytes id))

/-! ### arguments copied to strings -/

/-- `sprintf(target, "%.*s", length, buffer)` after a test of the length against `limit`; `none`: refused,
    `some none`: written beyond the array of `room` bytes. -/
def argCopy (limit room : Nat) (a : Bytes) : Option (Option Bytes) :=
  if a.length > limit then none else some (only room (cstr a))

/-- `target[256]` of the commands on namespaces, zdbd/commands_namespace.c, with `NAMESPACE_MAX_LENGTH` 128
    (zdbd/commands.c:96-107). -/
def argNamespace : Bytes → Option (Option Bytes) := argCopy 128 256

/-- `value[256]` of NSSET, zdbd/commands_namespace.c:498-517: at most 63 bytes. -/
def argValue : Bytes → Option (Option Bytes) := argCopy 63 256

/-- `command[256]` of NSSET, INDEX and DATA, zdbd/commands_namespace.c:497-516, zdbd/commands_system.c:185-192, 232-244, 344-356: the limit is
    `COMMAND_MAXLEN`, 256. -/
def argSub : Bytes → Option (Option Bytes) := argCopy 256 256

/-- `password[192]` of `zdbd_password_check`, zdbd/auth.c:10-12, called by AUTH with at most 128 bytes
    (zdbd/commands_auth.c). -/
def argAuth : Bytes → Option (Option Bytes) := argCopy 128 192

/-- `password[256]` of SELECT, zdbd/commands_namespace.c:165-175: at most 255 bytes. -/
def argSelect : Bytes → Option (Option Bytes) := argCopy 255 256

/-- `buffer[20]` of WAIT, zdbd/commands.c:239-247: at most 16 bytes. -/
def argWait : Bytes → Option (Option Bytes) := argCopy 16 20

end Zdb.Text
