/-
The library as a program over memory: the replies of `zdb_api_*` and their end (libzdb/api.c). A reply belongs to the
program that called, until it gives it to `zdb_api_reply_free`.
-/
import Verif.Model.Heap
namespace Zdb.Heap

/-- `zdb_api_t` and what hangs on it, by its status (libzdb/api.h, libzdb/api.c:35-78): nothing, a text, a
    `zdb_api_buffer_t` with its bytes, or a `zdb_api_entry_t` with key and payload. -/
inductive ApiRep where
  | plain (node : Nat)
  | error (node text : Nat)
  | buffer (node obj bytes : Nat)
  | entry (node obj key payload : Nat)

/-- `zdb_api_reply`, libzdb/api.c:35-45. -/
def apiReply : Prog Nat := do
  let n ← malloc
  useb n
  pure n

/-- `zdb_api_reply` without payload, libzdb/api.c:35-49. -/
def apiPlain : Prog ApiRep := do
  let n ← apiReply
  pure (.plain n)

/-- `zdb_api_reply_error`, libzdb/api.c:51-53. -/
def apiError : Prog ApiRep := do
  let t ← malloc
  let n ← apiReply
  pure (.error n t)

/-- `zdb_api_reply_buffer`, libzdb/api.c:55-63. -/
def apiBuffer : Prog ApiRep := do
  let o ← malloc
  useb o
  let b ← malloc
  useb b
  let n ← apiReply
  pure (.buffer n o b)

/-- `zdb_api_reply_entry`, libzdb/api.c:65-78: the payload is not copied. -/
def apiEntry (payload : Nat) : Prog ApiRep := do
  let o ← malloc
  useb o
  let k ← malloc
  useb k
  let n ← apiReply
  pure (.entry n o k payload)

/-- `zdb_api_reply_free`, libzdb/api.c:81-99. -/
def apiFree : ApiRep → Prog Unit
  | .plain n => do
    useb n
    freeb n
  | .error n t => do
    useb n
    freeb t
    freeb n
  | .buffer n o b => do
    useb n
    useb o
    freeb b
    freeb o
    freeb n
  | .entry n o k p => do
    useb n
    useb o
    freeb k
    freeb p
    freeb o
    freeb n

/-- The caller looks at all of a reply. -/
def apiRead : ApiRep → Prog Unit
  | .plain n => useb n
  | .error n t => do
    useb n
    useb t
  | .buffer n o b => do
    useb n
    useb o
    useb b
  | .entry n o k p => do
    useb n
    useb o
    useb k
    useb p

/-- `api_set_handler_userkey`, libzdb/api.c:108-167. -/
def apiSetUser (s : Srv) (sp : Space) (named existing : Bool) : Prog ApiRep := do
  if !named then apiError else do
    let same ← ask
    if existing && same ≠ 0 then apiPlain else do
      let written ← dataInsert sp
      if !written then apiError else do
        useb s.trans                                  -- index_set writes through index_transition
        let indexed ← ask
        if indexed = 0 then apiError else apiBuffer

/-- `api_set_handler_sequential`, libzdb/api.c:169-256: the entry found is in `index_reusable_entry`. -/
def apiSetSeq (s : Srv) (sp : Space) (named existing : Bool) : Prog ApiRep := do
  if named && !existing then apiPlain else do
    useb sp.iroot                                     -- index_next_id
    if existing then useb s.reuse
    let same ← ask
    if existing && same ≠ 0 then apiPlain else do
      let written ← dataInsert sp
      if !written then apiPlain else do
        useb s.trans
        let indexed ← ask
        if indexed = 0 then apiPlain else apiBuffer

/-- `zdb_api_set`, libzdb/api.c:268-306. -/
def apiSet (s : Srv) (sp : Space) : Prog (Space × ApiRep) := do
  let named ← ask
  let existing ← if named = 0 then pure false else indexGet s sp
  useb sp.self
  let room ← ask
  if room = 0 then do
    let r ← apiError
    pure (sp, r)
  else do
    let full ← ask
    let sp ← if full = 0 then pure sp else jump sp
    let r ← if sp.seqMode then apiSetSeq s sp (named ≠ 0) existing else apiSetUser s sp (named ≠ 0) existing
    pure (sp, r)

/-- `zdb_api_get`, libzdb/api.c:312-343. -/
def apiGet (s : Srv) (sp : Space) : Prog ApiRep := do
  let found ← indexGet s sp
  if !found then apiPlain else do
    let deleted ← ask
    if deleted ≠ 0 then apiPlain else do
      let p ← dataGet sp
      match p with
      | none => do
        free none
        apiPlain
      | some b => apiEntry b

/-- `zdb_api_exists`, libzdb/api.c:349-364. -/
def apiExists (s : Srv) (sp : Space) : Prog ApiRep := do
  let _ ← indexGet s sp
  apiPlain

/-- `zdb_api_check`, libzdb/api.c:366-387. -/
def apiCheck (s : Srv) (sp : Space) : Prog ApiRep := do
  let found ← indexGet s sp
  if !found then apiPlain else do
    let deleted ← ask
    if deleted ≠ 0 then apiPlain else do
      dataCheck sp
      apiPlain

/-- `zdb_api_del`, libzdb/api.c:389-419; `data_delete` is `data_insert` with a flag (libzdb/data.c:636-658),
    `index_entry_delete` works in `index_transition`. -/
def apiDel (s : Srv) (sp : Space) : Prog ApiRep := do
  let found ← indexGet s sp
  if !found then apiPlain else do
    let deleted ← ask
    if deleted ≠ 0 then apiPlain else do
      let written ← dataInsert sp
      if !written then apiPlain else do
        useb s.trans
        apiPlain

/-- The calls of the library. -/
inductive ApiCall where
  | set
  | get
  | exist
  | check
  | del
deriving DecidableEq

/-- A call on a namespace. -/
def ApiCall.prog (k : ApiCall) (s : Srv) (sp : Space) : Prog (Space × ApiRep) :=
  match k with
  | .set => apiSet s sp
  | .get => do
    let r ← apiGet s sp
    pure (sp, r)
  | .exist => do
    let r ← apiExists s sp
    pure (sp, r)
  | .check => do
    let r ← apiCheck s sp
    pure (sp, r)
  | .del => do
    let r ← apiDel s sp
    pure (sp, r)

/-- What a program that uses the library does: it calls on a namespace that `namespace_get` has given it, looks at a reply
    it has, or gives one back. A number that stands for none of its replies does nothing. -/
inductive ApiAct where
  | call (k : ApiCall)
  | look (i : Nat)
  | release (i : Nat)

/-- One act, with the replies the program has. -/
def ApiAct.prog (a : ApiAct) (s : Srv) (rs : List ApiRep) : Prog (Srv × List ApiRep) :=
  match a with
  | .call k => do
    let p ← namespaceGet s.spaces
    match p with
    | none => pure (s, rs)
    | some p => do
      let (ls, r) ← onSpace p (k.prog s) s.spaces
      pure ({ s with spaces := ls }, rs ++ [r])
  | .look i =>
    match rs[i]? with
    | none => pure (s, rs)
    | some r => do
      apiRead r
      pure (s, rs)
  | .release i =>
    match rs[i]? with
    | none => pure (s, rs)
    | some r => do
      apiFree r
      pure (s, rs.eraseIdx i)

/-- Acts one after the other. -/
def runActs : List ApiAct → Srv → List ApiRep → Prog (Srv × List ApiRep)
  | [], s, rs => pure (s, rs)
  | a :: as, s, rs => do
    let (s, rs) ← a.prog s rs
    runActs as s rs

end Zdb.Heap
