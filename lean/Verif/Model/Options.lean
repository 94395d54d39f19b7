/-
The command line of the server: zdbd/zdbd.c:36-61, 228-262, 311-503.
-/
import Verif.Model.Node
namespace Zdb.Options

/-! ### `getopt_long_only` of the C library -/

/-- An entry of the table of options: name, whether an argument is required, value returned. -/
structure LongOpt (α : Type) where
  name : Bytes
  arg : Bool
  val : α

/-- What a call of `getopt_long_only` returns: an option with its argument (empty if it has none), or '?'. -/
inductive Got (α : Type) where
  | opt (val : α) (optarg : Bytes)
  | bad
deriving DecidableEq

/-- The option meant by a name: the one of this name, else the only one whose name begins so.  (With
    `getopt_long_only` two different options are always ambiguous.) -/
def findOpt {α : Type} (t : List (LongOpt α)) (name : Bytes) : Option (LongOpt α) :=
  match t.find? (fun o => o.name == name) with
  | some o => some o
  | none =>
    match t.filter (fun o => name.isPrefixOf o.name) with
    | [o] => some o
    | _ => none

/-- The text of an option without its dashes. -/
def undash : Bytes → Bytes
  | 45 :: 45 :: w => w
  | 45 :: w => w
  | w => w

/-- All that `getopt_long_only(argc, argv, "", t)` of glibc returns, one call after the other, for the words behind the
    name of the program, when POSIXLY_CORRECT is not set: `--` ends the options, a word which is `-` or does not begin with
    `-` is passed over (it is moved to the end), any other word is an option with one dash or two. -/
def getopt {α : Type} (t : List (LongOpt α)) : List Bytes → List (Got α)
  | [] => []
  | w :: ws =>
    if w = [45, 45] then []
    else if w.head? ≠ some 45 ∨ w = [45] then getopt t ws
    else
      let name := (undash w).takeWhile (· ≠ 61)
      let behind := (undash w).dropWhile (· ≠ 61)
      match findOpt t name with
      | none => .bad :: getopt t ws
      | some o =>
        match o.arg, behind with
        | true, _ :: v => .opt o.val v :: getopt t ws
        | false, _ :: _ => .bad :: getopt t ws
        | false, [] => .opt o.val [] :: getopt t ws
        | true, [] =>
          match ws with
          | [] => [.bad]
          | v :: ws => .opt o.val v :: getopt t ws

/-! ### the options -/

inductive Key where
  | data | index | listen | port | socket | dualnet | verbose | sync | synctime | dump | mode | background | logfile | admin
  | hook | datasize | maxsize | protect | secure | rotate | version | help
deriving DecidableEq

def text (s : String) : Bytes := s.toList.map (fun c => UInt8.ofNat c.toNat)

/-- `long_options`, zdbd/zdbd.c:36-61. -/
def longOptions : List (LongOpt Key) :=
  [⟨text "data", true, .data⟩, ⟨text "index", true, .index⟩, ⟨text "listen", true, .listen⟩, ⟨text "port", true, .port⟩,
   ⟨text "socket", true, .socket⟩, ⟨text "dualnet", false, .dualnet⟩, ⟨text "verbose", false, .verbose⟩,
   ⟨text "sync", false, .sync⟩, ⟨text "synctime", true, .synctime⟩, ⟨text "dump", false, .dump⟩, ⟨text "mode", true, .mode⟩,
   ⟨text "background", false, .background⟩, ⟨text "logfile", true, .logfile⟩, ⟨text "admin", true, .admin⟩,
   ⟨text "hook", true, .hook⟩, ⟨text "datasize", true, .datasize⟩, ⟨text "maxsize", true, .maxsize⟩,
   ⟨text "protect", false, .protect⟩, ⟨text "secure", false, .secure⟩, ⟨text "rotate", true, .rotate⟩,
   ⟨text "version", false, .version⟩, ⟨text "help", false, .help⟩]

/-- The settings made by the options, `zdb_settings_t` and `zdbd_settings_t`.  `mode` is `none` for `ZDB_MODE_MIX`;
    `maxsize` and `datasize` have 64 bits, `synctime` and `rotatesec` are of type `int`. -/
structure Cfg where
  datapath : Bytes
  indexpath : Bytes
  listen : Option Bytes
  port : Bytes
  socket : Option Bytes
  dualnet : Bool
  verbose : Bool
  sync : Bool
  secure : Bool
  synctime : Int
  dump : Bool
  mode : Option Mode
  background : Bool
  logfile : Option Bytes
  adminpwd : Option Bytes
  hook : Option Bytes
  datasize : Nat
  maxsize : Nat
  protect : Bool
  rotatesec : Int

/-- The defaults, zdbd/zdbd.c:22-33 and `zdb_initialize`, libzdb/bootstrap.c:28-70. -/
def defaults : Cfg where
  datapath := text "./zdb-data"
  indexpath := text "./zdb-index"
  listen := some (text "::")
  port := text "9900"
  socket := none
  dualnet := false
  verbose := false
  sync := false
  secure := false
  synctime := 0
  dump := false
  mode := none
  background := false
  logfile := none
  adminpwd := none
  hook := none
  datasize := 256 * 1024 * 1024
  maxsize := 0
  protect := false
  rotatesec := 0

/-- A `long double`: a finite one is `m / 2^k`. -/
inductive LDouble where
  | nan
  | inf (negative : Bool)
  | fin (m : Int) (k : Nat)

/-- What `strtold` answers: the value, what is left of the text, and whether `errno` is set. -/
structure StrTold where
  value : LDouble
  rest : Bytes
  errno : Bool

/-- The result of `zdb_human_readable_parse`. -/
inductive Size where
  | invalid
  | undefined
  | ok (n : Nat)

/-- Position of a byte in "kMGT" counted from 1, 0 for the end of the text; `none` if it is not found. -/
def suffixOf : Bytes → Option Nat
  | [] => some 0
  | b :: _ => if b = 107 then some 1 else if b = 77 then some 2 else if b = 71 then some 3 else if b = 84 then some 4 else none

/-- `zdb_human_readable_parse`, libzdb/libzdb.c:68-90.  Only the byte behind the number is looked at.  The product is
    exact; its conversion to `size_t` is undefined for a value of 2^64 or more and for what is no number. -/
def humanSize (ld : Bytes → StrTold) (input : Bytes) : Size :=
  let r := ld input
  if r.errno || r.rest == input then .invalid
  else
    match r.value with
    | .inf true => .invalid
    | .inf false => if (suffixOf r.rest).isSome then .undefined else .invalid
    | .nan => if (suffixOf r.rest).isSome then .undefined else .invalid
    | .fin m k =>
      if m < 0 then .invalid
      else
        match suffixOf r.rest with
        | none => .invalid
        | some u =>
          let n := m.toNat * 2 ^ (10 * u) / 2 ^ k
          if n < 2 ^ 64 then .ok n else .undefined

/-- `atoi` on a C string. -/
def atoi (s : Bytes) : Int := (atoll s + 2 ^ 31) % 2 ^ 32 - 2 ^ 31

/-- What becomes of the process: it ends with a status, its behaviour is undefined, or it goes on. -/
inductive Outcome where
  | exit (status : Nat)
  | undefined
  | go (c : Cfg)

/-- The settings after one option, zdbd/zdbd.c:332-474. -/
def takeOpt (ld : Bytes → StrTold) (c : Cfg) : Got Key → Outcome
  | .bad => .exit 1
  | .opt .version _ => .exit 0
  | .opt .help _ => .exit 1
  | .opt .data v => .go { c with datapath := v }
  | .opt .index v => .go { c with indexpath := v }
  | .opt .listen v => .go { c with listen := some v }
  | .opt .port v => .go { c with port := v }
  | .opt .verbose _ => .go { c with verbose := true }
  | .opt .background _ => .go { c with background := true }
  | .opt .logfile v => .go { c with logfile := some v }
  | .opt .dump _ => .go { c with dump := true }
  | .opt .sync _ => .go { c with sync := true }
  | .opt .secure _ => .go { c with secure := true }
  | .opt .hook v => .go { c with hook := some v }
  | .opt .synctime v => .go { c with synctime := atoi v }
  | .opt .admin v => .go { c with adminpwd := some v }
  | .opt .protect _ => .go { c with protect := true }
  | .opt .maxsize v => .go { c with maxsize := (atoll v % 2 ^ 64).toNat }
  | .opt .mode v =>
    if v = text "user" then .go { c with mode := some .user }
    else if v = text "seq" then .go { c with mode := some .seq }
    else if v = text "direct" then .go { c with mode := some .seq }
    else .exit 1
  | .opt .socket v => .go { c with socket := some v }
  | .opt .dualnet _ => .go { c with dualnet := true }
  | .opt .rotate v => .go { c with rotatesec := atoi v }
  | .opt .datasize v =>
    match humanSize ld v with
    | .invalid => .exit 1
    | .undefined => .undefined
    | .ok n =>
      if n ≥ 0xffffffff then .exit 1
      else if n < 512 * 1024 then .exit 1
      else .go { c with datasize := n }

/-- The loop over the options, zdbd/zdbd.c:326-475. -/
def takeAll (ld : Bytes → StrTold) : Cfg → List (Got Key) → Outcome
  | c, [] => .go c
  | c, g :: gs =>
    match takeOpt ld c g with
    | .go c => takeAll ld c gs
    | r => r

/-- `main` up to the call of `proceed`, zdbd/zdbd.c:311-503; `argv` without the name of the program. -/
def start (ld : Bytes → StrTold) (argv : List Bytes) : Outcome :=
  match takeAll ld defaults (getopt longOptions argv) with
  | .go c =>
    if c.protect && c.adminpwd.isNone then .exit 1
    else .go (if c.socket.isSome && !c.dualnet then { c with listen := none } else c)
  | r => r

/-! ### what is done with them -/

/-- A place where clients are awaited. -/
inductive Place where
  | unix (path : Bytes)
  | tcp (addr port : Bytes)
deriving DecidableEq

/-- The sockets made by `redis_listen`, zdbd/redis.c:1308-1340. -/
def places (c : Cfg) : List Place :=
  (match c.socket with | some p => [.unix p] | none => []) ++ (match c.listen with | some a => [.tcp a c.port] | none => [])

/-- The settings as the node has them; `hash` is the digest of passwords. -/
def Cfg.settings (hash : Bytes → Bytes → Bytes) (c : Cfg) : Settings where
  cfg := c.mode
  limit := c.datasize
  adminpwd := c.adminpwd
  protect := c.protect
  maxsize := c.maxsize
  hash := hash

/-- What the process does once its options are read. -/
inductive Fate where
  | exit (status : Nat)
  | undefined
  | serves (at_ : List Place)
deriving DecidableEq

/-- `proceed`, zdbd/zdbd.c:228-269, and the beginning of `redis_listen`, zdbd/redis.c:1308-1365.  `opened` tells whether
    `zdb_open` succeeds, `ready` is the result of the hook `ready`; the sockets can be made.  When the hook fails,
    `redis_listen` returns 1, which `proceed` ignores. -/
def fate (opened : Bool) (ready : Nat) : Outcome → Fate
  | .exit n => .exit n
  | .undefined => .undefined
  | .go c =>
    if !opened then .exit 1
    else if c.dump then .exit 0
    else if c.hook.isSome && ready ≠ 0 then .exit 0
    else .serves (places c)

end Zdb.Options
