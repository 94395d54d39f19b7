/-
Specification of a sequential namespace: a growing list of slots.  The id of a value is its position in the
list, written on 8 bytes, least significant first.  Nothing here refers to files or indexes.
-/
import Verif.Spec.UserMap
namespace Zdb

/-- Slot `i` holds the value of id `i`, or nothing if that id was deleted or was consumed by an
    update. -/
abbrev Slots := List (Option Val)

/-- The position named by a key: keys of other lengths than 8 name nothing. -/
def seqPos (k : Bytes) : Option Nat := if k.length = 8 then some (fromLE k) else none

def Slots.get (m : Slots) (k : Bytes) : Option Val :=
  match seqPos k with
  | some i => m[i]?.join
  | none => none

/-- A new value takes the next id. -/
def Slots.push (m : Slots) (p : Bytes) (t : Nat) : Slots := m ++ [some ⟨p, t, []⟩]

/-- A new version of the value `v` of key `k`; an id is consumed. -/
def Slots.update (m : Slots) (k : Bytes) (v : Val) (p : Bytes) (t : Nat) : Slots :=
  m.set (fromLE k) (some ⟨p, t, ⟨v.payload, v.time⟩ :: v.older⟩) ++ [none]

def Slots.del (m : Slots) (k : Bytes) : Slots := m.set (fromLE k) none

/-- Number of values. -/
def Slots.count (m : Slots) : Nat := (m.filter Option.isSome).length

def slotSize : Option Val → Nat
  | some v => v.payload.length
  | none => 0

/-- Total size of the payloads. -/
def Slots.total (m : Slots) : Nat := (m.map slotSize).sum

/-- SET `k` `p` with timestamp `t`: an empty key asks for a new id.  `stored` tells whether the disk
    accepted the payload. -/
def specSeqSet (conf : NsConf) (writable stored : Bool) (m : Slots) (k p : Bytes) (t : Nat) :
    Slots × Reply :=
  if k.length > 255 then (m, .err "Key too large")
  else match writeRefusal conf writable with
    | some msg => (m, .err msg)
    | none =>
      if (m.get k).isSome && conf.worm then (m, .err "Namespace is protected by worm mode")
      else if conf.maxsize ≠ 0 ∧ m.total - slotSize (m.get k) + p.length > conf.maxsize then
        (m, .err "No space left on this namespace")
      else match m.get k with
        | none =>
          if k ≠ [] then (m, .err "Invalid key, only update authorized")
          else if !stored then (m, .err "Cannot write data right now")
          else (m.push p t, .bulk (toLE 8 m.length))
        | some v =>
          if v.payload = p then (m, .nil)
          else if !stored then (m, .err "Cannot write data right now")
          else (m.update k v p t, .bulk k)

/-- DEL `k`. -/
def specSeqDel (conf : NsConf) (writable stored : Bool) (m : Slots) (k : Bytes) : Slots × Reply :=
  if k.length > 255 then (m, .err "Invalid key")
  else match writeRefusal conf writable with
    | some msg => (m, .err msg)
    | none =>
      if (m.get k).isNone then (m, .err "Key not found")
      else if conf.worm then (m, .err "Cannot delete a key when namespace is in worm mode")
      else if !stored then (m, .err "Cannot delete key (data)")
      else (m.del k, .ok)

/-- A reading command on one key. -/
def specSeqRead (conf : NsConf) (m : Slots) (k : Bytes) (f : Option Val → Reply) : Reply :=
  if k = [] then .err "Invalid argument"
  else if k.length > 255 then .err "Invalid key"
  else if conf.lock = .frozen then .err "Namespace is temporarily frozen (read-write disabled)"
  else f (m.get k)

/-- MGET. -/
def specSeqMget (conf : NsConf) (m : Slots) (ks : List Bytes) : Reply :=
  if ks = [] then .err "Invalid arguments"
  else if ∃ k ∈ ks, k.length > 255 then .err "Invalid key"
  else if conf.lock = .frozen then .err "Namespace is temporarily frozen (read-write disabled)"
  else .arr (ks.map (fun k => replyGet (m.get k)))

/-- The slots after a command and its reply; `none`: the reply is not determined by the slots
    (cursors, history). -/
def specSeqCmd (c : Ctx) (m : Slots) (d : DsCmd) (argv : List Bytes) : Slots × Option Reply :=
  let stored := c.io.dhdr.ok && c.io.dpay.ok
  let read (f : Option Val → Reply) : Slots × Option Reply :=
    match argv with
    | [_, k] => (m, some (specSeqRead c.conf m k f))
    | _ => (m, some (.err "Unexpected arguments"))
  let set (k p : Bytes) (t : Nat) :=
    let x := specSeqSet c.conf c.writable stored m k p t
    (x.1, some x.2)
  let del (k : Bytes) :=
    let x := specSeqDel c.conf c.writable stored m k
    (x.1, some x.2)
  match d with
  | .set =>
    match argv with
    | [_, k, p] => set k p (c.now % 2 ^ 32)
    | [_, k, p, t] =>
      if c.admin then set k p (atoll t % 2 ^ 32).toNat else (m, some (.err "Permission denied"))
    | _ => (m, some (.err "Unexpected arguments"))
  | .del =>
    match argv with
    | [_, k] => if k = [] then (m, some (.err "Invalid argument")) else del k
    | [_, k, _] => if c.admin then del k else (m, some (.err "Permission denied"))
    | _ => (m, some (.err "Unexpected arguments"))
  | .get => read replyGet
  | .exists => read replyExists
  | .length => read replyLength
  | .keytime => read replyKeytime
  | .check => read replyCheck
  | .mget => (m, some (specSeqMget c.conf m argv.tail))
  | .dbsize => (m, some (.int m.count))
  | .nsjump => (m, some (if c.admin then .ok else .err "Permission denied"))
  | _ => (m, none)

def specSeqEvent (m : Slots) : NsEvent → Slots × Option Reply
  | .cmd c d argv => specSeqCmd c m d argv
  | .foreign => (m, none)
  | .reload => (m, none)

/-- The slots after a sequence of events. -/
def specSeqRun (m : Slots) : List NsEvent → Slots
  | [] => m
  | e :: es => specSeqRun (specSeqEvent m e).1 es

/-- The replies of a trace are those of the slots. -/
def SeqAgrees (m : Slots) : List (NsEvent × Reply) → Prop
  | [] => True
  | (e, r) :: tr => (∀ r', (specSeqEvent m e).2 = some r' → r = r') ∧ SeqAgrees (specSeqEvent m e).1 tr

/-- A key that names an id already given out, or an id small enough for its position in an index file to
    fit 32 bits. -/
def NearKey (m : Slots) (k : Bytes) : Prop :=
  k.length = 8 → fromLE k < m.length ∨ 29 + 42 * fromLE k < 2 ^ 32

/-- The arguments of an event that are keys are all near. -/
def NearEvent (m : Slots) : NsEvent → Prop
  | .cmd _ .mget argv => ∀ k ∈ argv.tail, NearKey m k
  | .cmd _ _ argv => ∀ k, argv[1]? = some k → NearKey m k
  | _ => True

def NearRun (m : Slots) : List NsEvent → Prop
  | [] => True
  | e :: es => NearEvent m e ∧ NearRun (specSeqEvent m e).1 es

end Zdb
