/-
The daemon as its clients see it: bytes received, requests run by the node, bytes sent.  zdbd/socket_epoll.c and
zdbd/redis.c.  Puts together Model/Resp (reading), Model/Node (running), Model/Wire (writing) and Model/Reply (sending).
-/
import Verif.Model.Wire
import Verif.Model.Reply
import Verif.Spec.Resp
namespace Zdb.Server

open Zdb.Wire

/-- What a request finds outside the process, with the texts which are not modelled. -/
structure Around where
  e : Env
  server : Bytes
  nsinfo : Info → Bytes

/-- A connected client: its reading and its sending side (`redis_client_t`, zdbd/redis.h:104-155).  The last two fields are
    records: what `recv` answered so far and what was given to the sending side. -/
structure Link where
  conn : Resp.Conn
  out : Out.Out
  got : List Resp.Recv
  told : List (Texts × Msg)

/-- The process.  The log is a record: the events of the node and the messages they made.  `up` is false after STOP. -/
structure Server where
  node : Node
  links : Nat → Option Link
  log : List (Event × List (Nat × Msg))
  up : Bool

/-- A process that was just started. -/
def Server.new (n : Node) : Server := { node := n, links := fun _ => none, log := [], up := true }

/-- The texts of the messages made by a request.  The mirror is told after the handler has run, with the namespace the client
    has then and the request without its owner (zdbd/redis.c:960-1027, 1131-1178). -/
def textsFor (a : Around) (n n' : Node) (fd : Nat) (argv : List Bytes) : Texts :=
  { server := a.server, nsinfo := a.nsinfo
    mirror :=
      match (getClient n fd).bind (fun c => popOwner a.e c argv),
          ((getClient n' fd).bind (·.ns)).bind (nsDeref n') with
      | some (e, argv), some r => mirrorText e.now r.conf.name e.owner argv
      | _, _ => [] }

/-- What running some requests leads to: the node, the events, the messages with their texts, what was returned. -/
structure Ran where
  node : Node
  evs : List (Event × List (Nat × Msg))
  msgs : List (Nat × Texts × Msg)
  sts : List Status

/-- Requests of one client run one after the other, whatever each of them returns (zdbd/redis.c:736-791).  `none`: the process
    ends. -/
def runReqs (S : Settings) (fd : Nat) (ar : Nat → Around) : Nat → Node → List (List Bytes) → Option Ran
  | _, n, [] => some ⟨n, [], [], []⟩
  | i, n, r :: rs =>
    match request S n fd (ar i).e r with
    | .ok n1 sent st =>
      match runReqs S fd ar (i + 1) n1 rs with
      | some R =>
        some ⟨R.node, (.request fd (ar i).e r, sent) :: R.evs,
          sent.map (fun x => (x.1, textsFor (ar i) n n1 fd r, x.2)) ++ R.msgs, st :: R.sts⟩
      | none => none
    | _ => none

/-- `resp_status_t` of what a request returned; `RESP_STATUS_SUCCESS` and `RESP_STATUS_ABNORMAL` lead to the same. -/
def statusOf : Status → Resp.Status
  | .keep => .success
  | .discard => .discard
  | .shutdown => .shutdown

/-- What the dispatcher returns to the loop that reads requests, when `ran` have been handed over and `k` of them before this
    read. -/
def retOf (S : Settings) (fd : Nat) (ar : Nat → Around) (n : Node) (k : Nat) (ran : List (List Resp.Arg)) : Resp.Status :=
  match runReqs S fd ar 0 n ((ran.drop k).map (·.map Resp.Arg.content)) with
  | some R => (R.sts.getLast?.map statusOf).getD .success
  | none => .success

/-- What `send` answers while a message is sent, which may be made of several responses, cut anywhere.  MGET and NSLIST send the
    number of items and then each item (zdbd/commands_get.c:99-108, zdbd/commands_namespace.c:254-266), the other commands
    one response.  `cuts` gives the length of each response but the last one, with the answers for it. -/
structure Sends where
  cuts : List (Nat × List Out.Send)
  last : List Out.Send

/-- `redis_reply_stack` for each response of a message, zdbd/redis.c:285-333. -/
def sendCut (last : List Out.Send) : List (Nat × List Out.Send) → Out.Out → Bytes → Out.Out
  | [], o, b => o.stack last b
  | (n, as) :: cuts, o, b => sendCut last cuts (o.stack as (b.take n)) (b.drop n)

/-- A message given to the sending side of a client; nothing happens if there is no such client. -/
def tell1 (as : Sends) (L : Nat → Option Link) (x : Nat × Texts × Msg) : Nat → Option Link := fun fd =>
  if fd = x.1 then
    (L fd).map (fun k => { k with out := sendCut as.last as.cuts k.out (encMsg x.2.1 x.2.2), told := k.told ++ [x.2] })
  else L fd

/-- Messages sent one after the other; `ans i` is what `send` answers during the `i`th of them. -/
def tell (ans : Nat → Sends) : Nat → (Nat → Option Link) → List (Nat × Texts × Msg) → Nat → Option Link
  | _, L, [] => L
  | i, L, x :: l => tell ans (i + 1) (tell1 (ans i) L x) l

/-- The messages of events that are not requests need no texts. -/
def noTexts : Texts := { server := [], nsinfo := fun _ => [], mirror := [] }

def setLink (L : Nat → Option Link) (fd : Nat) (k : Option Link) : Nat → Option Link := fun f => if f = fd then k else L f

/-- What happens to the process. -/
inductive Ev where
  /-- `socket_client_accept`, zdbd/socket_epoll.c:20-51; `mem` is the memory of the new buffer -/
  | accept (fd : Nat) (mem : Bytes)
  /-- one `recv` of `redis_chunk_read` and what follows from it, zdbd/socket_epoll.c:83-104 -/
  | recv (fd : Nat) (r : Resp.Recv) (ar : Nat → Around) (ans : Nat → Sends)
  /-- `redis_delayed_write`, zdbd/socket_epoll.c:108-110 -/
  | writable (fd : Nat) (as : List Out.Send)
  /-- the connection broke, zdbd/socket_epoll.c:62-66 -/
  | hangup (fd : Nat)
  /-- `redis_watch_timeout`, zdbd/redis.c:1115-1117 -/
  | tick (us : Nat) (ans : Nat → Sends)
  /-- `redis_files_rotate`, zdbd/redis.c:1120 -/
  | rotate (u : Nat)
  /-- the process stops and starts -/
  | restart (order : List Nat)

/-- The requests handed over by a read: those of `c'` which `c` did not have. -/
def fresh (c c' : Resp.Conn) : List (List Bytes) := (c'.ran.drop c.ran.length).map (·.map Resp.Arg.content)

/-- The requests of a read have been run and its messages are sent: first those of the requests, then the error of the parser
    (after which it reads no more, zdbd/redis.c:740-782). -/
def afterRead (fd : Nat) (k : Link) (c : Resp.Conn) (r : Resp.Recv) (ans : Nat → Sends) (R : Ran) (σ : Server) : Server :=
  { σ with
    node := R.node
    links := tell ans 0
      (setLink σ.links fd (some { k with conn := c, got := k.got ++ [r] }))
      (R.msgs ++ (c.said.drop k.conn.said.length).map (fun s => (fd, noTexts, .reply (.err s))))
    log := σ.log ++ R.evs }

/-- `socket_client_free`, zdbd/redis.c:915-940. -/
def drop (fd : Nat) (σ : Server) : Server :=
  { σ with node := putClient σ.node fd none, links := setLink σ.links fd none, log := σ.log ++ [(.disconnect fd, [])] }

/-- One event; `none` if it cannot happen or if the process crashes or exits. -/
def step (S : Settings) (σ : Server) : Ev → Option Server
  | .accept fd mem =>
    if σ.up = true ∧ (σ.links fd).isNone = true ∧ mem.length = Resp.bufSize then
      some { σ with
        node := putClient σ.node fd (some (newClient S σ.node))
        links := setLink σ.links fd
          (some { conn := Resp.newConn mem, out := Out.Out.new, got := [], told := [] })
        log := σ.log ++ [(.connect fd, [])] }
    else none
  | .recv fd r ar ans =>
    match σ.up, σ.links fd with
    | true, some k =>
      match r with
      | .data d => if d = [] ∨ k.conn.buf.remain < d.length then none else read fd k r ar ans
      | _ => read fd k r ar ans
    | _, _ => none
  | .writable fd as =>
    match σ.up, σ.links fd with
    | true, some k => some { σ with links := setLink σ.links fd (some { k with out := k.out.writable as }) }
    | _, _ => none
  | .hangup fd =>
    match σ.up, σ.links fd with
    | true, some _ => some (drop fd σ)
    | _, _ => none
  | .tick us ans =>
    if σ.up = true then
      match nodeStep S σ.node (.tick us) with
      | .ok n sent _ =>
        some { σ with
          node := n, links := tell ans 0 σ.links (sent.map (fun x => (x.1, noTexts, x.2))), log := σ.log ++ [(.tick us, sent)] }
      | _ => none
    else none
  | .rotate u =>
    if σ.up = true then
      match nodeStep S σ.node (.rotate u) with
      | .ok n sent _ => some { σ with node := n, log := σ.log ++ [(.rotate u, sent)] }
      | _ => none
    else none
  | .restart order =>
    match nodeStep S σ.node (.restart order) with
    | .ok n sent _ => some { node := n, links := fun _ => none, log := σ.log ++ [(.restart order, sent)], up := true }
    | _ => none
where
  /-- a `recv` of a client that exists -/
  read (fd : Nat) (k : Link) (r : Resp.Recv) (ar : Nat → Around) (ans : Nat → Sends) : Option Server :=
    match Resp.onRecv (retOf S fd ar σ.node k.conn.ran.length) k.conn r with
    | .crash => none
    | .open c =>
      match runReqs S fd ar 0 σ.node (fresh k.conn c) with
      | some R => some (afterRead fd k c r ans R σ)
      | none => none
    | .closed c =>
      match runReqs S fd ar 0 σ.node (fresh k.conn c) with
      | some R => some (drop fd (afterRead fd k c r ans R σ))
      | none => none
    | .stopped c =>
      match runReqs S fd ar 0 σ.node (fresh k.conn c) with
      | some R => some { afterRead fd k c r ans R σ with links := fun _ => none, up := false }
      | none => none

/-- Several events. -/
def run (S : Settings) : Server → List Ev → Option Server
  | σ, [] => some σ
  | σ, ev :: evs =>
    match step S σ ev with
    | some σ => run S σ evs
    | none => none

end Zdb.Server
