/-
Walking over the index and the history of a key: libzdb/index_scan.c, zdbd/commands_scan.c,
zdbd/commands_history.c.
-/
import Verif.Model.Commands
namespace Zdb

/-! ### walking (libzdb/index_scan.c) -/

/-- One turn of the loops of index_scan.c.  `index_scan_status_t`, libzdb/index_scan.h. -/
inductive Step where
  /-- `INDEX_SCAN_SUCCESS`: `scan.target` and the header found there -/
  | found (target : Nat) (it : Item)
  /-- `INDEX_SCAN_UNEXPECTED` -/
  | unexpected
  /-- `INDEX_SCAN_NO_MORE_DATA` -/
  | noMore
  /-- `INDEX_SCAN_DELETED`: go on in the same file with these `original` and `target` -/
  | again (original target : Nat)
  /-- `INDEX_SCAN_EOF_REACHED` or `INDEX_SCAN_REQUEST_PREVIOUS`: same with the next or previous file -/
  | other (original target : Nat)

/-- Result of a walk. -/
inductive Walk where
  /-- file, offset and header of the entry found -/
  | found (file off : Nat) (it : Item)
  | unexpected
  | noMore
  /-- the turns allowed by the model are used up (shown impossible) -/
  | fuel

/-- Header of an item and then its id: `read(&source)`, `*scan.header = source`, `read(id)`.  -/
def readItemAt (f : Bytes) (off : Nat) : Option (Option Item) :=
  match readExact f off itemHdr with
  | none => none
  | some b =>
    let it := decItem b
    match readExact f (off + itemHdr) it.idlength with
    | none => some none
    | some id => some (some { it with id := id })

/-- Length of the id of the item at `off`, if its header can be read. -/
def idlenAt (f : Bytes) (off : Nat) : Option Nat :=
  (readExact f off itemHdr).map (fun b => (decItem b).idlength)

/-- Flags of the item at `off`. -/
def deletedAt (f : Bytes) (off : Nat) : Option Bool :=
  (readExact f off itemHdr).map (fun b => isDeleted (decItem b).flags)

/-- `previous` field of the item at `off`. -/
def previousAt (f : Bytes) (off : Nat) : Option Nat :=
  (readExact f off itemHdr).map (fun b => (decItem b).previous)

/-- End of the four `_real` functions once the item at `target` is known to be readable and not
    deleted (e.g. libzdb/index_scan.c:277-294). -/
def takeItem (f : Bytes) (target : Nat) : Step :=
  match readItemAt f target with
  | some (some it) => .found target it
  | _ => .unexpected

/-- `index_next_header_real`, libzdb/index_scan.c:226-295. -/
def nextReal (f : Bytes) (original target : Nat) : Step :=
  let t := if target = 0 then (idlenAt f original).map (fun n => original + itemHdr + n) else some target
  match t with
  | none => .unexpected
  | some target =>
    match deletedAt f target with
    | none => .other original ihdrLen
    | some true => .again target 0
    | some false => takeItem f target

/-- `index_first_header_real`, libzdb/index_scan.c:341-384. -/
def firstReal (f : Bytes) (original target : Nat) : Step :=
  match deletedAt f target with
  | none => .other original ihdrLen
  | some true =>
    match idlenAt f target with
    | some n => .again original (target + itemHdr + n)
    | none => .unexpected
  | some false => takeItem f target

/-- `index_previous_header_real`, libzdb/index_scan.c:79-179. -/
def prevReal (f : Bytes) (original target : Nat) : Step :=
  if target = 0 then
    match previousAt f original with
    | none => .unexpected
    | some p =>
      if p ≥ original then .other original p
      else
        let target := if p = 1 then ihdrLen else p
        if target = 0 then .noMore else go f target
  else go f target
where
  go (f : Bytes) (target : Nat) : Step :=
    match deletedAt f target with
    | none => .unexpected
    | some true => .again target 0
    | some false => takeItem f target

/-- `index_last_header_real`, libzdb/index_scan.c:432-500.  A target of 1 stands for the end of
    the file, less 38 bytes (never written by this version). -/
def lastReal (f : Bytes) (original target : Nat) : Step :=
  if target = 0 then .noMore
  else if target = 1 ∧ f.length < 38 then .unexpected
  else
    let target := if target = 1 then f.length - 38 else target
    match deletedAt f target with
    | none => .unexpected
    | some true =>
      match previousAt f target with
      | none => .unexpected
      | some p => if p ≥ target ∨ p = 1 then .other original p else .again original p
    | some false => takeItem f target

/-- The loops of `index_next_header` (libzdb/index_scan.c:297-339) and `index_first_header` (386-430):
    after an end of file go to the next file; a file that cannot be opened ends the walk. -/
def walkUp (step : Bytes → Nat → Nat → Step) (fs : List Bytes) : Nat → Nat → Nat → Nat → Walk
  | 0, _, _, _ => .fuel
  | fuel + 1, file, original, target =>
    match fs[file]? with
    | none => .noMore
    | some f =>
      match step f original target with
      | .found t it => .found file t it
      | .unexpected => .unexpected
      | .noMore => .noMore
      | .again o t => walkUp step fs fuel file o t
      | .other o t => walkUp step fs fuel ((file + 1) % 2 ^ 32) o t

/-- The loops of `index_previous_header` (libzdb/index_scan.c:181-223) and `index_last_header` (502-545):
    before file 0 comes file `2^32 - 1`, which cannot be opened. -/
def walkDown (step : Bytes → Nat → Nat → Step) (fs : List Bytes) : Nat → Nat → Nat → Nat → Walk
  | 0, _, _, _ => .fuel
  | fuel + 1, file, original, target =>
    match fs[file]? with
    | none => .noMore
    | some f =>
      match step f original target with
      | .found t it => .found file t it
      | .unexpected => .unexpected
      | .noMore => .noMore
      | .again o t => walkDown step fs fuel file o t
      | .other o t => walkDown step fs fuel ((file + (2 ^ 32 - 1)) % 2 ^ 32) o t

/-- Enough turns for any walk: see `walk_fuel` theorems. -/
def walkFuel (fs : List Bytes) : Nat := (fs.map (fun f => f.length + 3)).sum + 1

def nextHeader (fs : List Bytes) (file off : Nat) : Walk :=
  walkUp nextReal fs (walkFuel fs) file off 0

def firstHeader (fs : List Bytes) : Walk :=
  walkUp firstReal fs (walkFuel fs) 0 ihdrLen ihdrLen

def prevHeader (fs : List Bytes) (file off : Nat) : Walk :=
  walkDown prevReal fs (walkFuel fs) file off 0

def lastHeader (s : Store) : Walk :=
  walkDown lastReal s.ifiles (walkFuel s.ifiles) s.indexid s.iprev s.iprev

/-! ### SCAN and RSCAN (zdbd/commands_scan.c) -/

/-- One element of `scan_list_t`: the header and where it is. -/
structure Scanned where
  file : Nat
  off : Nat
  it : Item

/-- The loop of `command_scan` / `command_rscan`, zdbd/commands_scan.c:247-263, 304-320, given the number
    of turns the clock allows. -/
def scanLoop (walk : Nat → Nat → Walk) : Nat → Nat → Nat → List Scanned
  | 0, _, _ => []
  | n + 1, file, off =>
    match walk file off with
    | .found f o it => ⟨f, o, it⟩ :: scanLoop walk n f o
    | _ => []

/-- `printf("%d")` of a `uint32_t`. -/
def asInt32 (n : Nat) : Int := if n % 2 ^ 32 < 2 ^ 31 then (n % 2 ^ 32 : Nat) else (n % 2 ^ 32 : Nat) - 2 ^ 32

/-- `index_item_serialize`, libzdb/index.c:605-617. -/
def cursorOf (x : Scanned) : Bytes :=
  encBKey { idlength := x.it.idlength, fileid := x.file, length := x.it.length,
            idxoffset := x.off, crc := x.it.crc }

/-- `command_scan_send_scanlist`, zdbd/commands_scan.c:91-154. -/
def replyScan (l : List Scanned) : Reply :=
  match l.getLast? with
  | none => .err "No more data"
  | some last =>
    .arr [.bulk (cursorOf last),
          .arr (l.map (fun x => .arr [.bulk x.it.id, .int (asInt32 x.it.length), .int (asInt32 x.it.timestamp)]))]

/-- `index_entry_deserialize`, libzdb/index.c:636-676, as far as SCAN uses it: the position, if the
    item found there has the length and checksum of the cursor. -/
def cursorPos (s : Store) (k : BKey) : Option (Nat × Nat) :=
  match itemGetDisk s k.fileid k.idxoffset k.idlength with
  | none => none
  | some it => if it.length ≠ k.length ∨ it.crc ≠ k.crc then none else some (k.fileid, k.idxoffset)

/-- The copy of the id in `index_entry_deserialize`, libzdb/index.c:656-672: the buffer holds the number of
    bytes told by the cursor and the copy takes the number told by the item, so a shorter length in the
    cursor makes it read beyond the buffer. -/
def cursorOverrun (s : Store) (k : BKey) : Bool :=
  match itemGetDisk s k.fileid k.idxoffset k.idlength with
  | none => false
  | some it => decide (k.idlength < it.idlength)

/-- `command_scan` and `command_rscan`, zdbd/commands_scan.c:221-330, given the first walk and the
    following ones. -/
def scanWith (c : Ctx) (s : Store) (first : Walk) (walk : Nat → Nat → Walk) (argv : List Bytes) : Reply :=
  if c.conf.isFrozen then errFrozen
  else
    match argv with
    | _ :: cur :: _ =>
      if cur.length ≠ bkeyLen then .err "Invalid key format"
      else
        match cursorPos s (decBKey cur) with
        | none => .err "Invalid key format"
        | some (file, off) =>
          if cursorOverrun s (decBKey cur) then .crash
          else replyScan (scanLoop walk c.slice file off)
    | _ =>
      match first with
      | .found f o it => replyScan (⟨f, o, it⟩ :: scanLoop walk c.slice f o)
      | .noMore => .err "No more data"
      | _ => .err "Internal Error"

def cmdScan (c : Ctx) (s : Store) (argv : List Bytes) : Reply :=
  scanWith c s (firstHeader s.ifiles) (nextHeader s.ifiles) argv

def cmdRscan (c : Ctx) (s : Store) (argv : List Bytes) : Reply :=
  scanWith c s (lastHeader s) (prevHeader s.ifiles) argv

/-- `index_get` receives the length as an `uint8_t`: KEYCUR and HISTORY do not check it. -/
def key8 (key : Bytes) : Bytes := key.take (key.length % 256)

/-- `command_keycur`, zdbd/commands_scan.c:335-372, with `index_entry_serialize` (libzdb/index.c:619-631). -/
def cmdKeycur (c : Ctx) (br : Branches) (s : Store) (argv : List Bytes) : Reply :=
  match argsValidate argv 2 with
  | some e => e
  | none =>
    if c.conf.isFrozen then errFrozen
    else
      match argv with
      | [_, key] =>
        match indexGet br s c.u (key8 key) with
        | none => .err "Key not found"
        | some e =>
          .bulk (encBKey { idlength := e.id.length, fileid := e.indexid, length := e.length,
                           idxoffset := e.idxoffset, crc := e.crc })
      | _ => errArgs

/-- Number of branches: `buckets_branches`, libzdb/index_branch.c:27. -/
@[irreducible] def buckets : Nat := 2 ^ 24

/-- The loops of `command_kscan`, zdbd/commands_scan.c:472-492, over the branches `0 .. n - 1`. -/
def kscanSel (br : Branches) (u n : Nat) (key : Bytes) : List Entry :=
  (List.range n).flatMap fun h => (br h).filter (fun e => e.ns == u && key.isPrefixOf e.id)

/-- `command_kscan`, zdbd/commands_scan.c:451-498, in a build without `RELEASE` (with it the command only
    replies an error). -/
def cmdKscan (c : Ctx) (br : Branches) (s : Store) (argv : List Bytes) : Reply :=
  match s.mode with
  | .seq => .err "Index running mode doesn't support this feature"
  | .user =>
    match argsValidate argv 2 with
    | some e => e
    | none =>
      match argv with
      | [_, key] =>
        kscanReply (kscanSel br c.u buckets key)
      | _ => errArgs
where
  /-- `command_kscan_send_list`, zdbd/commands_scan.c:409-449 -/
  kscanReply (keys : List Entry) : Reply :=
    if keys.isEmpty then .err "No keys match"
    else .arr [.bulk [48], .arr (keys.map (fun e => .bulk e.id))]

/-! ### HISTORY (zdbd/commands_history.c) -/

/-- `sprintf("%" PRIu32)`. -/
def decBytes (n : Nat) : Bytes := (Nat.toDigits 10 n).map (fun c => UInt8.ofNat c.toNat)

/-- `history_send` and `history_send_array`, zdbd/commands_history.c:52-126. -/
def historySend (s : Store) (it : Item) (k : EKey) : Reply :=
  match dataGet s it.offset it.length it.dataid it.idlength with
  | none => .err "Internal Error"
  | some p =>
    .arr [if k.indexid ≠ 0 ∨ k.offset ≠ 0 then .bulk (encEKey k) else .nil,
          .bulk (decBytes it.timestamp), .bulk p]

/-- `command_history`, zdbd/commands_history.c:131-226.  If the item of the entry cannot be read the NULL
    pointer is dereferenced in `history_send`. -/
def cmdHistory (c : Ctx) (br : Branches) (s : Store) (argv : List Bytes) : Reply :=
  match argv with
  | [_, key] =>
    if c.conf.isFrozen then errFrozen
    else
      match indexGet br s c.u (key8 key) with
      | none => .err "Key not found"
      | some e =>
        match itemGetDisk s e.indexid e.idxoffset e.id.length with
        | none => .crash
        | some it => historySend s it { indexid := e.parentid, offset := e.parentoff }
  | [_, key, ek] =>
    if c.conf.isFrozen then errFrozen
    else if ek.length ≠ ekeyLen then .err "Invalid arguments"
    else
      let k := decEKey ek
      if k.indexid = 0 ∧ k.offset = 0 then .err "No more history"
      else
        match itemGetDisk s k.indexid k.offset (key.length % 256) with
        | none => .err "Invalid arguments (index query)"
        | some it =>
          if key8 key ≠ it.id then .err "Invalid arguments (invalid key)"
          else historySend s it { indexid := it.parentid, offset := it.parentoff }
  | _ => .err "Invalid arguments"

end Zdb
