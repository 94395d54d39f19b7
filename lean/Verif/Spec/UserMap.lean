/-
Specification of a user-key namespace: an insertion-ordered association list.
Nothing here refers to files, indexes or branches.
-/
import Verif.Model.Engine
namespace Zdb

/-- One version of a key. -/
structure Ver where
  payload : Bytes
  time : Nat
deriving DecidableEq

/-- What is known about a key: its current version and the versions it replaced since it was
    created (newest first; only HISTORY shows them). -/
structure Val where
  payload : Bytes
  time : Nat
  older : List Ver
deriving DecidableEq

/-- Keys in the order in which they were last written; no key occurs twice. -/
abbrev KV := List (Bytes × Val)

def KV.get (m : KV) (k : Bytes) : Option Val := (m.find? (fun x => x.1 == k)).map (·.2)

def KV.del (m : KV) (k : Bytes) : KV := m.filter (fun x => !(x.1 == k))

/-- Write a new version of `k`; it becomes the most recent key. -/
def KV.put (m : KV) (k payload : Bytes) (time : Nat) : KV :=
  m.del k ++ [(k, { payload := payload, time := time,
                    older := match m.get k with
                      | some v => ⟨v.payload, v.time⟩ :: v.older
                      | none => [] })]

/-- Total size of the payloads. -/
def KV.total (m : KV) : Nat := (m.map (fun x => x.2.payload.length)).sum

/-- Length of the payload of `k`, 0 if absent. -/
def KV.sizeOf (m : KV) (k : Bytes) : Nat :=
  match m.get k with
  | some v => v.payload.length
  | none => 0

/-- Why a write of key `k` is refused whatever the contents, if it is. -/
def writeRefusal (conf : NsConf) (writable : Bool) : Option String :=
  if !writable then some "Namespace is in read-only mode"
  else match conf.lock with
    | .frozen => some "Namespace is temporarily frozen (read-write disabled)"
    | .locked => some "Namespace is temporarily locked (read-only)"
    | .unlocked => none

/-- SET `k` `p` with timestamp `t`.  `stored` tells whether the disk accepted the payload. -/
def specSet (conf : NsConf) (writable stored : Bool) (m : KV) (k p : Bytes) (t : Nat) : KV × Reply :=
  if k.length > 255 then (m, .err "Key too large")
  else match writeRefusal conf writable with
    | some msg => (m, .err msg)
    | none =>
      if (m.get k).isSome && conf.worm then (m, .err "Namespace is protected by worm mode")
      else if conf.maxsize ≠ 0 ∧ m.total - m.sizeOf k + p.length > conf.maxsize then
        (m, .err "No space left on this namespace")
      else if k = [] then (m, .err "Invalid argument, key needed")
      else if (m.get k).map (·.payload) = some p then (m, .nil)
      else if !stored then (m, .err "Cannot write data right now")
      else (m.put k p t, .bulk k)

/-- DEL `k`. -/
def specDel (conf : NsConf) (writable stored : Bool) (m : KV) (k : Bytes) : KV × Reply :=
  if k.length > 255 then (m, .err "Invalid key")
  else match writeRefusal conf writable with
    | some msg => (m, .err msg)
    | none =>
      if (m.get k).isNone then (m, .err "Key not found")
      else if conf.worm then (m, .err "Cannot delete a key when namespace is in worm mode")
      else if !stored then (m, .err "Cannot delete key (data)")
      else (m.del k, .ok)

/-- A reading command on one key: refused if the key is empty or too long or the namespace is
    frozen, otherwise answered by `f` from the value of the key. -/
def specRead (conf : NsConf) (m : KV) (k : Bytes) (f : Option Val → Reply) : Reply :=
  if k = [] then .err "Invalid argument"
  else if k.length > 255 then .err "Invalid key"
  else if conf.lock = .frozen then .err "Namespace is temporarily frozen (read-write disabled)"
  else f (m.get k)

def replyGet : Option Val → Reply
  | some v => .bulk v.payload
  | none => .nil

def replyExists : Option Val → Reply
  | some _ => .int 1
  | none => .int 0

def replyLength : Option Val → Reply
  | some v => .int v.payload.length
  | none => .nil

def replyKeytime : Option Val → Reply
  | some v => .int v.time
  | none => .nil

/-- CHECK: an untouched payload is always intact. -/
def replyCheck : Option Val → Reply
  | some _ => .int 1
  | none => .nil

/-- MGET. -/
def specMget (conf : NsConf) (m : KV) (ks : List Bytes) : Reply :=
  if ks = [] then .err "Invalid arguments"
  else if ∃ k ∈ ks, k.length > 255 then .err "Invalid key"
  else if conf.lock = .frozen then .err "Namespace is temporarily frozen (read-write disabled)"
  else .arr (ks.map (fun k => replyGet (m.get k)))

/-- The map after a command and its reply; `none`: the reply is not determined by the map
    (cursors). -/
def specCmd (c : Ctx) (m : KV) (d : DsCmd) (argv : List Bytes) : KV × Option Reply :=
  let stored := c.io.dhdr.ok && c.io.dpay.ok
  let read (f : Option Val → Reply) : KV × Option Reply :=
    match argv with
    | [_, k] => (m, some (specRead c.conf m k f))
    | _ => (m, some (.err "Unexpected arguments"))
  let set (k p : Bytes) (t : Nat) :=
    let x := specSet c.conf c.writable stored m k p t
    (x.1, some x.2)
  let del (k : Bytes) :=
    let x := specDel c.conf c.writable stored m k
    (x.1, some x.2)
  match d with
  | .set =>
    match argv with
    | [_, k, p] => set k p (c.now % 2 ^ 32)
    | [_, k, p, t] =>
      if c.admin then set k p (atoll t % 2 ^ 32).toNat else (m, some (.err "Permission denied"))
    | _ => (m, some (.err "Unexpected arguments"))
  | .del =>
    match argv with
    | [_, k] => if k = [] then (m, some (.err "Invalid argument")) else del k
    | [_, k, _] => if c.admin then del k else (m, some (.err "Permission denied"))
    | _ => (m, some (.err "Unexpected arguments"))
  | .get => read replyGet
  | .exists => read replyExists
  | .length => read replyLength
  | .keytime => read replyKeytime
  | .check => read replyCheck
  | .mget => (m, some (specMget c.conf m argv.tail))
  | .dbsize => (m, some (.int m.length))
  | .nsjump => (m, some (if c.admin then .ok else .err "Permission denied"))
  | _ => (m, none)

def specEvent (m : KV) : NsEvent → KV × Option Reply
  | .cmd c d argv => specCmd c m d argv
  | .foreign => (m, none)
  | .reload => (m, none)

/-- The map after a sequence of events. -/
def specRun (m : KV) : List NsEvent → KV
  | [] => m
  | e :: es => specRun (specEvent m e).1 es

/-- The replies of a trace are those of the map. -/
def Agrees (m : KV) : List (NsEvent × Reply) → Prop
  | [] => True
  | (e, r) :: tr => (∀ r', (specEvent m e).2 = some r' → r = r') ∧ Agrees (specEvent m e).1 tr

end Zdb
