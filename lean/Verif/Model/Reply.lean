/-
Sending replies to a client: zdbd/redis.c:102-333.
-/
import Verif.Model.Bytes
namespace Zdb.Out

/-- What `send` answers when it is given at least one byte. -/
inductive Send where
  /-- it takes `k + 1` bytes, or all of them if there are fewer -/
  | took (k : Nat)
  /-- `EAGAIN` -/
  | again
  /-- `EPIPE` -/
  | pipe
  /-- another error -/
  | error
deriving DecidableEq, Repr

/-- The bytes taken by the socket of a client, and its queue: for each `redis_response_t` (zdbd/redis.h:89-101) the bytes from
    `reader` on, of which there are `length`.  `responsetail` is the last of the queue: it is set by every push and only
    cleared with the queue. -/
structure Out where
  delivered : Bytes
  queue : List Bytes
deriving DecidableEq, Repr

/-- A new client, zdbd/redis.c:887-889. -/
def Out.new : Out := { delivered := [], queue := [] }

/-- `redis_send_response`, zdbd/redis.c:162-206, with the answers of `send` in order.  Result: the answers not used, the bytes
    taken by the socket, and the rest of the response if it has to be kept (`none` for NULL).  When the list of answers is used
    up the socket takes nothing more. -/
def sendResponse : List Send → Bytes → Bytes → List Send × Bytes × Option Bytes
  | as, out, [] => (as, out, none)
  | [], out, r => ([], out, some r)
  | .took k :: as, out, r => sendResponse as (out ++ r.take (k + 1)) (r.drop (k + 1))
  | .again :: as, out, r => (as, out, some r)
  | .pipe :: as, out, _ => (as, out, none)
  | .error :: as, out, _ => (as, out, none)

/-- `redis_response_push`, zdbd/redis.c:144-157. -/
def Out.push (o : Out) (r : Bytes) : Out := { o with queue := o.queue ++ [r] }

/-- `redis_reply_heap`, zdbd/redis.c:254-277.  Memory is always available. -/
def Out.heap (o : Out) (as : List Send) (r : Bytes) : Out :=
  if o.queue = [] then
    match sendResponse as o.delivered r with
    | (_, out, none) => { o with delivered := out }
    | (_, out, some rest) => { o with delivered := out }.push rest
  else o.push r

/-- `redis_reply_stack`, zdbd/redis.c:285-333: what is kept is a copy of the whole reply, and the bytes already sent are
    skipped.  Memory is always available. -/
def Out.stack (o : Out) (as : List Send) (r : Bytes) : Out :=
  if o.queue = [] then
    match sendResponse as o.delivered r with
    | (_, out, none) => { o with delivered := out }
    | (_, out, some rest) => { o with delivered := out }.push (r.drop (r.length - rest.length))
  else o.push r

/-- The loop of `redis_delayed_write`, zdbd/redis.c:223-246, on a queue. -/
def drainQueue : List Send → Bytes → List Bytes → Out
  | _, out, [] => { delivered := out, queue := [] }
  | as, out, r :: rs =>
    match sendResponse as out r with
    | (_, out, some rest) => { delivered := out, queue := rest :: rs }
    | (as, out, none) => drainQueue as out rs

/-- `redis_delayed_write`, zdbd/redis.c:211-249. -/
def Out.writable (o : Out) (as : List Send) : Out := drainQueue as o.delivered o.queue

/-- What happens to a client's output: a reply from the heap or from the stack, or the socket becomes writable; with the
    answers of `send` at that time. -/
inductive OutEv where
  | heap (r : Bytes) (as : List Send)
  | stack (r : Bytes) (as : List Send)
  | writable (as : List Send)

def Out.step (o : Out) : OutEv → Out
  | .heap r as => o.heap as r
  | .stack r as => o.stack as r
  | .writable as => o.writable as

def Out.run (o : Out) (es : List OutEv) : Out := es.foldl Out.step o

end Zdb.Out
