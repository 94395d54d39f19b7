/-
The library calls, libzdb/api.c.
-/
import Verif.Model.Commands
namespace Zdb

/-- `zdb_api_t`, libzdb/api.h:4-38. -/
inductive ApiReply where
  | success
  | failure (msg : String)
  | entry (key payload : Bytes)
  | upToDate
  | buffer (b : Bytes)
  | notFound
  | deleted
  | internalError
  | yes
  | no
  | insertDenied
  /-- undefined behaviour -/
  | crash
deriving DecidableEq

/-- A key as the functions of the index and data see it: its length is passed as a `uint8_t`
    (libzdb/index_get.h:4, libzdb/index.h:91, libzdb/data.h:122). -/
def apiKey (key : Bytes) : Bytes := key.take (key.length % 256)

/-- The test of libzdb/api.c:129 and 209: the checksum only. -/
def apiUpToDate (existing : Option Entry) (payload : Bytes) : Bool :=
  match existing with
  | some ex => ex.crc == crc32 payload
  | none => false

/-- `api_set_handler_userkey`, libzdb/api.c:108-167.  The time is stored on 32 bits. -/
def apiSetUser (c : Ctx) (br : Branches) (s : Store) (key payload : Bytes) (existing : Option Entry) :
    Branches × Store × ApiReply :=
  if key.length = 0 then (br, s, .failure "Invalid argument, key needed")
  else if apiUpToDate existing payload then (br, s, .upToDate)
  else
    let (s, off) := dataInsert s c.io (apiKey key) payload 0 (crc32 payload) (c.now % 2 ^ 32)
    if off = 0 then (br, s, .failure "Cannot write data right now")
    else
      let r : SetReq := { id := apiKey key, offset := off, length := payload.length,
                          crc := crc32 payload, dataid := 0, timestamp := c.now % 2 ^ 32 }
      let (br, s, ok) := match existing with
        | some ex => updateUser br s c.u c.io r ex
        | none => insertUser br s c.u c.io r
      if ok then (br, s, .buffer key) else (br, s, .failure "Cannot write index right now")

/-- `api_set_handler_sequential`, libzdb/api.c:169-256.  Unlike the daemon it does not set `dataid` in the request. -/
def apiSetSeq (c : Ctx) (br : Branches) (s : Store) (key payload : Bytes) (existing : Option Entry) :
    Branches × Store × ApiReply :=
  if key.length ≠ 0 ∧ existing.isNone then (br, s, .insertDenied)
  else
    let id := seqIdOf s existing
    if apiUpToDate existing payload then (br, s, .upToDate)
    else
      let (s, off) := dataInsert s c.io id payload 0 (crc32 payload) (c.now % 2 ^ 32)
      if off = 0 then (br, s, .internalError)
      else
        let r : SetReq := { id := id, offset := off, length := payload.length,
                            crc := crc32 payload, dataid := 0, timestamp := c.now % 2 ^ 32 }
        let (s, ok) := match existing with
          | some ex => updateSeq s c.u c.io r ex
          | none => insertSeq s c.u c.io r
        if ok then (br, s, .buffer id) else (br, s, .internalError)

/-- `zdb_api_set`, libzdb/api.c:268-306.  `cfg` is the mode of the settings, `none` the mixed mode, for which there is no
    handler in the array of libzdb/api.c:260-265; otherwise it is the mode of the namespace.  Of `c` only the file size limit, the time,
    the namespace and `maxsize` are read. -/
def apiSet (cfg : Option Mode) (c : Ctx) (br : Branches) (s : Store) (key payload : Bytes) : Branches × Store × ApiReply :=
  let entry := if key.length ≠ 0 then indexGet br s c.u (apiKey key) else none
  if overQuota c.conf s.datasize payload.length (floatingOf entry) then (br, s, .failure "No space left on this namespace")
  else
    let s := jumpIfFull c.limit s payload.length
    match cfg with
    | none => (br, s, .crash)
    | some .user => apiSetUser c br s key payload entry
    | some .seq => apiSetSeq c br s key payload entry

/-- `zdb_api_get`, libzdb/api.c:312-343.  `index_get` does not return deleted entries. -/
def apiGet (c : Ctx) (br : Branches) (s : Store) (key : Bytes) : ApiReply :=
  match indexGet br s c.u (apiKey key) with
  | none => .notFound
  | some e =>
    match dataGet s e.offset e.length e.dataid e.id.length with
    | none => .internalError
    | some p => .entry key p

/-- `zdb_api_exists`, libzdb/api.c:349-364. -/
def apiExists (c : Ctx) (br : Branches) (s : Store) (key : Bytes) : ApiReply :=
  match indexGet br s c.u (apiKey key) with
  | none => .no
  | some _ => .yes

/-- `zdb_api_check`, libzdb/api.c:366-387: any status other than 0 is true, also the -1 of a failed read. -/
def apiCheck (c : Ctx) (br : Branches) (s : Store) (key : Bytes) : ApiReply :=
  match indexGet br s c.u (apiKey key) with
  | none => .notFound
  | some e => if dataCheck s e.offset e.dataid ≠ 0 then .yes else .no

/-- `zdb_api_del`, libzdb/api.c:389-419. -/
def apiDel (c : Ctx) (br : Branches) (s : Store) (key : Bytes) : Branches × Store × ApiReply :=
  match indexGet br s c.u (apiKey key) with
  | none => (br, s, .notFound)
  | some e =>
    let (s, off) := dataInsert s c.io e.id [] 1 0 (c.now % 2 ^ 32)
    if off = 0 then (br, s, .internalError)
    else
      let (br, s, ok) := indexDelete br s c.u c.io e
      if ok then (br, s, .success) else (br, s, .internalError)

end Zdb
