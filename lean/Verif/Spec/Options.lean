/-
What the command line of the server means.
-/
import Verif.Model.Options
import Verif.Spec.Resp
namespace Zdb.Options

/-- What can be asked of the server on its command line. -/
inductive Ask where
  | data (dir : Bytes) | index (dir : Bytes) | listen (addr : Bytes) | port (port : Bytes) | socket (path : Bytes) | dualnet
  | verbose | sync | synctime (seconds : Nat) | dump | mode (m : Mode) | background | logfile (path : Bytes)
  | admin (password : Bytes) | hook (path : Bytes) | datasize (n : Nat) (unit : Fin 5) | maxsize (bytes : Nat) | protect | secure
  | rotate (seconds : Nat)
deriving DecidableEq

/-- The names of all options, and whether they have a value. -/
def names : List (Bytes × Bool) :=
  [(text "data", true), (text "index", true), (text "listen", true), (text "port", true), (text "socket", true),
   (text "dualnet", false), (text "verbose", false), (text "sync", false), (text "synctime", true), (text "dump", false),
   (text "mode", true), (text "background", false), (text "logfile", true), (text "admin", true), (text "hook", true),
   (text "datasize", true), (text "maxsize", true), (text "protect", false), (text "secure", false), (text "rotate", true),
   (text "version", false), (text "help", false)]

def Ask.name : Ask → Bytes
  | .data _ => text "data" | .index _ => text "index" | .listen _ => text "listen" | .port _ => text "port"
  | .socket _ => text "socket" | .dualnet => text "dualnet" | .verbose => text "verbose" | .sync => text "sync"
  | .synctime _ => text "synctime" | .dump => text "dump" | .mode _ => text "mode" | .background => text "background"
  | .logfile _ => text "logfile" | .admin _ => text "admin" | .hook _ => text "hook" | .datasize _ _ => text "datasize"
  | .maxsize _ => text "maxsize" | .protect => text "protect" | .secure => text "secure" | .rotate _ => text "rotate"

/-- The letter of a unit: bytes, and `k`, `M`, `G`, `T` for powers of 1024. -/
def unitText (u : Fin 5) : Bytes := [[], text "k", text "M", text "G", text "T"][u]

def Ask.value : Ask → Option Bytes
  | .data v => some v | .index v => some v | .listen v => some v | .port v => some v | .socket v => some v
  | .logfile v => some v | .admin v => some v | .hook v => some v
  | .synctime n => some (Resp.digits n) | .maxsize n => some (Resp.digits n) | .rotate n => some (Resp.digits n)
  | .datasize n u => some (Resp.digits n ++ unitText u)
  | .mode .user => some (text "user") | .mode .seq => some (text "seq")
  | .dualnet | .verbose | .sync | .dump | .background | .protect | .secure => none

/-- Numbers are within their ranges; a data file has at least 512 KiB and less than 4 GiB. -/
def Ask.Ok : Ask → Prop
  | .synctime n => n < 2 ^ 31
  | .rotate n => n < 2 ^ 31
  | .maxsize n => n < 2 ^ 63
  | .datasize n u => 524288 ≤ n * 1024 ^ u.val ∧ n * 1024 ^ u.val < 4294967295
  | _ => True

/-- A name can be shortened as long as no other option begins so. -/
def Spells (used name : Bytes) : Prop :=
  used = name ∨ (used <+: name ∧ ∀ o ∈ names, used <+: o.1 → o.1 = name)

/-- The word or words of an option: one dash or two, the value joined by `=` or as a word of its own. -/
def spell (two joined : Bool) (used : Bytes) (value : Option Bytes) : List Bytes :=
  let w := (if two then [45, 45] else [45]) ++ used
  match value with
  | none => [w]
  | some v => if joined then [w ++ 61 :: v] else [w, v]

/-- A word that is no option. -/
def Plain (w : Bytes) : Prop := w.head? ≠ some 45 ∨ w = [45]

/-- The asks in the words of a command line; words that are no options may stand between. -/
inductive Says : List Bytes → List Ask → Prop where
  | nil : Says [] []
  | plain {w ws l} : Plain w → Says ws l → Says (w :: ws) l
  | ask {ws l} (two joined : Bool) {used : Bytes} {a : Ask} :
      Spells used a.name → a.Ok → Says ws l → Says (spell two joined used a.value ++ ws) (a :: l)

/-- Nothing, or `--` and anything. -/
def End : List Bytes → Prop
  | [] => True
  | w :: _ => w = [45, 45]

/-- The last value asked for. -/
def lastAsk {α : Type} (f : Ask → Option α) (l : List Ask) : Option α := (l.filterMap f).getLast?

/-! What an ask says about one of the settings. -/

def Ask.data? : Ask → Option Bytes
  | .data v => some v
  | _ => none

def Ask.index? : Ask → Option Bytes
  | .index v => some v
  | _ => none

def Ask.listen? : Ask → Option Bytes
  | .listen v => some v
  | _ => none

def Ask.port? : Ask → Option Bytes
  | .port v => some v
  | _ => none

def Ask.socket? : Ask → Option Bytes
  | .socket v => some v
  | _ => none

def Ask.synctime? : Ask → Option Int
  | .synctime n => some (n : Int)
  | _ => none

def Ask.mode? : Ask → Option Mode
  | .mode m => some m
  | _ => none

def Ask.logfile? : Ask → Option Bytes
  | .logfile v => some v
  | _ => none

def Ask.admin? : Ask → Option Bytes
  | .admin v => some v
  | _ => none

def Ask.hook? : Ask → Option Bytes
  | .hook v => some v
  | _ => none

def Ask.datasize? : Ask → Option Nat
  | .datasize n u => some (n * 1024 ^ u.val)
  | _ => none

def Ask.maxsize? : Ask → Option Nat
  | .maxsize n => some n
  | _ => none

def Ask.rotate? : Ask → Option Int
  | .rotate n => some (n : Int)
  | _ => none

/-- The settings asked for, over the ones there were. -/
def over (c : Cfg) (l : List Ask) : Cfg where
  datapath := (lastAsk Ask.data? l).getD c.datapath
  indexpath := (lastAsk Ask.index? l).getD c.indexpath
  listen := (lastAsk Ask.listen? l).or c.listen
  port := (lastAsk Ask.port? l).getD c.port
  socket := (lastAsk Ask.socket? l).or c.socket
  dualnet := decide (.dualnet ∈ l) || c.dualnet
  verbose := decide (.verbose ∈ l) || c.verbose
  sync := decide (.sync ∈ l) || c.sync
  secure := decide (.secure ∈ l) || c.secure
  synctime := (lastAsk Ask.synctime? l).getD c.synctime
  dump := decide (.dump ∈ l) || c.dump
  mode := (lastAsk Ask.mode? l).or c.mode
  background := decide (.background ∈ l) || c.background
  logfile := (lastAsk Ask.logfile? l).or c.logfile
  adminpwd := (lastAsk Ask.admin? l).or c.adminpwd
  hook := (lastAsk Ask.hook? l).or c.hook
  datasize := (lastAsk Ask.datasize? l).getD c.datasize
  maxsize := (lastAsk Ask.maxsize? l).getD c.maxsize
  protect := decide (.protect ∈ l) || c.protect
  rotatesec := (lastAsk Ask.rotate? l).getD c.rotatesec

/-- The settings without any option. -/
def usual : Cfg where
  datapath := text "./zdb-data"
  indexpath := text "./zdb-index"
  listen := some (text "::")
  port := text "9900"
  socket := none
  dualnet := false
  verbose := false
  sync := false
  secure := false
  synctime := 0
  dump := false
  mode := none
  background := false
  logfile := none
  adminpwd := none
  hook := none
  datasize := 268435456
  maxsize := 0
  protect := false
  rotatesec := 0

/-- The settings asked for.  A server with a socket file listens on it only, unless told to use both. -/
def wanted (l : List Ask) : Cfg :=
  { over usual l with
    listen := if (lastAsk Ask.socket? l).isSome ∧ Ask.dualnet ∉ l then none
              else (over usual l).listen }

/-- The places where clients are awaited. -/
def wantedPlaces (l : List Ask) : List Place :=
  let tcp := Place.tcp ((lastAsk Ask.listen? l).getD (text "::"))
    ((lastAsk Ask.port? l).getD (text "9900"))
  match lastAsk Ask.socket? l with
  | none => [tcp]
  | some p => if .dualnet ∈ l then [.unix p, tcp] else [.unix p]

/-- The C library reads whole numbers. -/
def ReadsNumbers (ld : Bytes → StrTold) : Prop :=
  ∀ (n : Nat) (u : Fin 5), n < 2 ^ 64 → ld (Resp.digits n ++ unitText u) = ⟨.fin n 0, unitText u, false⟩

/-- No option is meant by this name: none has it, and none or several begin so. -/
def NoName (used : Bytes) : Prop :=
  ∀ o ∈ names, used ≠ o.1 ∧ (used <+: o.1 → ∃ p ∈ names, p.1 ≠ o.1 ∧ used <+: p.1)

/-- Words that stop the server before it starts. -/
inductive Wrong (ld : Bytes → StrTold) : List Bytes → Prop where
  | name {used value ws} (two : Bool) : NoName used → 61 ∉ used → used.head? ≠ some 45 → used ≠ [] →
      Wrong ld (((if two then [45, 45] else [45]) ++ used ++ Option.elim value [] (61 :: ·)) :: ws)
  | valued {used name v ws} (two : Bool) : (name, false) ∈ names → Spells used name →
      Wrong ld (spell two true used (some v) ++ ws)
  | missing {used name} (two : Bool) : (name, true) ∈ names → Spells used name → Wrong ld (spell two false used none)
  | mode {used v ws} (two joined : Bool) : Spells used (text "mode") → v ≠ text "user" → v ≠ text "seq" → v ≠ text "direct" →
      Wrong ld (spell two joined used (some v) ++ ws)
  | datasize {used n u ws} (two joined : Bool) : Spells used (text "datasize") → n * 1024 ^ (u : Fin 5).val < 2 ^ 64 →
      ¬ (Ask.datasize n u).Ok → Wrong ld (spell two joined used (some (Resp.digits n ++ unitText u)) ++ ws)
  | noNumber {used v ws} (two joined : Bool) : Spells used (text "datasize") → ((ld v).errno = true ∨ (ld v).rest = v) →
      Wrong ld (spell two joined used (some v) ++ ws)
  | help {used ws} (two : Bool) : Spells used (text "help") → Wrong ld (spell two false used none ++ ws)

end Zdb.Options
