/-
Reading requests from a client: zdbd/redis.c.  One client; its requests are handed to `redis_handle_resp_finished`,
which is modelled in Model/Node.
-/
import Verif.Model.Commands
namespace Zdb.Resp

/-- `REDIS_BUFFER_SIZE`, zdbd/redis.h:157. -/
def bufSize : Nat := 8192

/-- `REDIS_MAX_PAYLOAD`, zdbd/redis.h:160. -/
def maxPayload : Int := 8388608

/-- `resp_status_t`, zdbd/redis.h:63-73. -/
inductive Status where
  | success | abnormal | discard | disconnected | continue | done | shutdown | reset
deriving DecidableEq, Repr

/-- `buffer_t`, zdbd/redis.h:80-87: `reader` and `writer` as offsets.  The field `length` is never used. -/
structure Buffer where
  mem : Bytes
  reader : Nat
  writer : Nat
  remain : Nat

/-- `resp_object_t`, zdbd/redis.h:27-34: `buffer` holds the bytes copied so far, their number is `filled`. -/
structure Arg where
  buffer : Bytes
  length : Int
  size : Int
deriving DecidableEq, Repr

/-- `resp_state_t`, zdbd/redis.h:36-41. -/
inductive Phase where
  | empty | header | payload
deriving DecidableEq, Repr

/-- `resp_request_t`, zdbd/redis.h:44-61, without the owner.  `argv` holds the arguments allocated so far. -/
structure Request where
  state : Phase
  fillin : Nat
  argc : Int
  argv : List Arg

/-- What `redis_chunk_read` uses of a client, with two records: the requests handed over so far, and the error messages
    sent by the functions below. -/
structure Conn where
  buf : Buffer
  req : Request
  ran : List (List Arg)
  said : List String

/-- A new client, `buffer_new` and `socket_client_new`, zdbd/redis.c:78-95, 832-912.  The memory has any contents. -/
def newConn (mem : Bytes) : Conn :=
  { buf := { mem := mem, reader := 0, writer := 0, remain := bufSize }
    req := { state := .empty, fillin := 0, argc := 0, argv := [] }, ran := [], said := [] }

/-- `buffer_reset`, zdbd/redis.c:53-58. -/
def Buffer.clear (b : Buffer) : Buffer := { b with reader := 0, writer := 0, remain := bufSize }

/-- The bytes received and not parsed yet. -/
def Buffer.unread (b : Buffer) : Bytes := (b.mem.drop b.reader).take (b.writer - b.reader)

/-- `buffer_shift`, zdbd/redis.c:62-76. -/
def Buffer.shift (b : Buffer) : Buffer :=
  if b.reader = 0 then b
  else
    { mem := b.unread ++ b.mem.drop b.unread.length, reader := 0, writer := b.unread.length
      remain := bufSize - b.unread.length }

/-- The rest of a text after its digits. -/
def skipDigits : Bytes → Bytes
  | [] => []
  | b :: bs => if 48 ≤ b ∧ b ≤ 57 then skipDigits bs else b :: bs

/-- The rest of a text after its sign. -/
def skipSign : Bytes → Bytes
  | 45 :: bs => bs
  | 43 :: bs => bs
  | bs => bs

/-- `atoi` of glibc, that is `strtol` converted to `int`, on the memory from some point to the end of the buffer.
    `none` if it reads beyond. -/
def atoi (s : Bytes) : Option Int :=
  if skipDigits (skipSign (atollSkip s)) = [] then none
  else some ((atoll s + 2 ^ 31) % 2 ^ 32 - 2 ^ 31)

/-- Result of one of the three parsing functions. -/
inductive Parsed where
  | ok (c : Conn) (st : Status)
  | crash

/-- `resp_discard`, zdbd/redis.c:378-386. -/
def Conn.say (c : Conn) (s : String) : Conn := { c with said := c.said ++ [s] }

/-- `redis_handle_resp_empty`, zdbd/redis.c:405-466.  With a negative number of arguments the size given to `calloc` does
    not fit and nothing is allocated. -/
def handleEmpty (c : Conn) : Parsed :=
  match c.buf.unread.findIdx? (· == 10) with
  | none =>
    if c.buf.remain = 0 then .ok { c with buf := c.buf.shift } .reset
    else .ok c .continue
  | some i =>
    if c.buf.mem[c.buf.reader]? ≠ some 42 then .ok (c.say "Malformed request, array expected") .discard
    else
      match atoi (c.buf.mem.drop (c.buf.reader + 1)) with
      | none => .crash
      | some n =>
        let c := { c with req := { c.req with argc := n } }
        if n = 0 then .ok (c.say "Missing arguments") .abnormal
        else if n > 1024 then .ok (c.say "Too many arguments") .abnormal
        else if n < 0 then .ok (c.say "Internal memory error") .discard
        else
          .ok { c with req := { state := .header, fillin := 0, argc := n, argv := [] }
                       buf := { c.buf with reader := c.buf.reader + i + 1 } } .success

/-- `redis_handle_resp_header`, zdbd/redis.c:468-530.  `malloc` of a negative size fails, of size 0 succeeds.  (The
    addition giving the size may overflow; the request is then discarded without using it.) -/
def handleHeader (c : Conn) : Parsed :=
  if c.buf.reader > c.buf.writer then .ok c .abnormal
  else
    match c.buf.unread.findIdx? (· == 10) with
    | none =>
      if c.buf.remain = 0 then .ok { c with buf := c.buf.shift } .reset
      else .ok c .abnormal
    | some i =>
      if c.buf.mem[c.buf.reader]? ≠ some 36 then .ok (c.say "Malformed query string") .abnormal
      else
        match atoi (c.buf.mem.drop (c.buf.reader + 1)) with
        | none => .crash
        | some n =>
          if n > maxPayload then .ok (c.say "Payload too big") .discard
          else if n + 2 < 0 then .ok (c.say "Internal memory error") .discard
          else
            .ok { c with req := { c.req with argv := c.req.argv ++ [{ buffer := [], length := n, size := n + 2 }]
                                             state := .payload }
                         buf := { c.buf with reader := c.buf.reader + i + 1 } } .continue

/-- `redis_handle_resp_payload`, zdbd/redis.c:532-598. -/
def handlePayload (c : Conn) : Parsed :=
  let available := c.buf.writer - c.buf.reader
  if available = 0 then
    if c.buf.remain = 0 then .ok { c with buf := c.buf.shift } .reset
    else .ok c .continue
  else
    match c.req.argv[c.req.fillin]? with
    | none => .crash
    | some a =>
      let needed := (a.size - a.buffer.length).toNat
      if available ≥ needed then
        let b := { c.buf with reader := c.buf.reader + needed }
        .ok { c with req := { c.req with argv := c.req.argv.set c.req.fillin { a with buffer := a.buffer ++ c.buf.unread.take needed }
                                         fillin := c.req.fillin + 1, state := .header }
                     buf := if available = needed then b.clear else b } .continue
      else
        .ok { c with req := { c.req with argv := c.req.argv.set c.req.fillin { a with buffer := a.buffer ++ c.buf.unread } }
                     buf := c.buf.clear } .continue

/-- `redis_handle_resp_finished`, zdbd/redis.c:649-677: the request is handed over and forgotten.  `ret` says what the
    dispatcher returns after this sequence of requests. -/
def finished (ret : List (List Arg) → Status) (c : Conn) : Conn × Status :=
  let ran := c.ran ++ [c.req.argv]
  ({ c with ran := ran, req := { c.req with state := .empty, argc := 0, argv := [] } }, ret ran)

/-- Result of one turn of the loop: go on, leave the loop, undefined behaviour. -/
inductive Turn where
  | go (c : Conn) (v : Status)
  | stop (c : Conn) (v : Status)
  | crash

/-- The end of a turn, zdbd/redis.c:784-791. -/
def turnEnd (ret : List (List Arg) → Status) (c : Conn) (v : Status) : Turn :=
  if (c.req.fillin : Int) = c.req.argc then .go (finished ret c).1 (finished ret c).2
  else .go c v

/-- The part of a turn about payloads, zdbd/redis.c:770-791. -/
def turnPayload (ret : List (List Arg) → Status) (c : Conn) (v : Status) : Turn :=
  if c.req.state = .payload then
    match handlePayload c with
    | .crash => .crash
    | .ok c v => if v ≠ .continue then .stop c v else turnEnd ret c v
  else turnEnd ret c v

/-- The part of a turn about headers, zdbd/redis.c:758-791. -/
def turnHeader (ret : List (List Arg) → Status) (c : Conn) (v : Status) : Turn :=
  if c.req.state = .header then
    match handleHeader c with
    | .crash => .crash
    | .ok c v => if v ≠ .continue then .stop c v else turnPayload ret c v
  else turnPayload ret c v

/-- One turn of the loop of `redis_chunk_read`, zdbd/redis.c:736-790. -/
def turn (ret : List (List Arg) → Status) (c : Conn) (v : Status) : Turn :=
  if c.req.state = .empty then
    match handleEmpty c with
    | .crash => .crash
    | .ok c v => if v ≠ .success then .stop c v else turnHeader ret c v
  else turnHeader ret c v

/-- What decreases from one turn to the next. -/
def Conn.weight (c : Conn) : Nat := 2 * (c.buf.writer - c.buf.reader) + if c.req.state = .payload then 1 else 0

theorem Buffer.unread_length_le (b : Buffer) : b.unread.length ≤ b.writer - b.reader := by
  unfold Buffer.unread; rw [List.length_take]; omega

theorem handleEmpty_weight {c c' : Conn} (h : handleEmpty c = .ok c' .success) : c'.weight < c.weight := by
  unfold handleEmpty at h
  split at h
  · split at h <;> simp at h
  · rename_i i hi
    have h1 : i < c.buf.unread.length := (List.findIdx?_eq_some_iff_findIdx_eq.1 hi).1
    have h2 := c.buf.unread_length_le
    repeat' split at h
    all_goals first
      | (simp at h; done)
      | (simp only [Parsed.ok.injEq, and_true] at h
         subst h
         simp only [Conn.weight, reduceCtorEq, if_false]
         split <;> omega)

theorem handleHeader_weight {c c' : Conn} (h : handleHeader c = .ok c' .continue) : c'.weight < c.weight := by
  unfold handleHeader at h
  split at h
  · simp at h
  · split at h
    · split at h <;> simp at h
    · rename_i i hi
      have h1 : i < c.buf.unread.length := (List.findIdx?_eq_some_iff_findIdx_eq.1 hi).1
      have h2 := c.buf.unread_length_le
      repeat' split at h
      all_goals first
        | (simp at h; done)
        | (simp only [Parsed.ok.injEq, and_true] at h
           subst h
           simp only [Conn.weight, if_true]
           split <;> omega)

theorem handlePayload_weight {c c' : Conn} (hs : c.req.state = .payload) (h : handlePayload c = .ok c' .continue) :
    c'.weight ≤ c.weight ∧ (c.buf.reader < c.buf.writer → c'.weight < c.weight) := by
  unfold handlePayload at h
  simp only at h
  split at h
  · split at h
    · simp at h
    · simp only [Parsed.ok.injEq, and_true] at h
      subst h
      exact ⟨Nat.le_refl _, fun h => by omega⟩
  · split at h
    · simp at h
    · split at h
      · simp only [Parsed.ok.injEq, and_true] at h
        subst h
        simp only [Conn.weight, hs, if_true, reduceCtorEq, if_false]
        split <;> simp only [Buffer.clear] <;> omega
      · simp only [Parsed.ok.injEq, and_true] at h
        subst h
        simp only [Conn.weight, hs, if_true, Buffer.clear]
        omega

theorem turnEnd_weight {ret : List (List Arg) → Status} {c c' : Conn} {v v' : Status} (h : turnEnd ret c v = .go c' v') :
    c'.weight ≤ c.weight := by
  unfold turnEnd at h
  split at h
  · injection h with h _
    subst h
    simp only [finished, Conn.weight, reduceCtorEq, if_false]
    omega
  · injection h with h _
    subst h
    exact Nat.le_refl _

theorem turnPayload_weight {ret : List (List Arg) → Status} {c c' : Conn} {v v' : Status} (h : turnPayload ret c v = .go c' v') :
    c'.weight ≤ c.weight ∧ (c.req.state = .payload → c.buf.reader < c.buf.writer → c'.weight < c.weight) := by
  unfold turnPayload at h
  split at h
  · rename_i hs
    split at h
    · simp at h
    · rename_i c1 v1 hp
      split at h
      · simp at h
      · rename_i hv
        have hv : v1 = .continue := Classical.not_not.1 hv
        subst hv
        have h1 := handlePayload_weight hs hp
        have h2 := turnEnd_weight h
        exact ⟨by omega, fun _ h3 => by have := h1.2 h3; omega⟩
  · rename_i hs
    exact ⟨turnEnd_weight h, fun h3 => absurd h3 hs⟩

theorem turnHeader_weight {ret : List (List Arg) → Status} {c c' : Conn} {v v' : Status} (h : turnHeader ret c v = .go c' v') :
    c'.weight ≤ c.weight ∧ (c.req.state ≠ .empty → c.buf.reader < c.buf.writer → c'.weight < c.weight) := by
  unfold turnHeader at h
  split at h
  · rename_i hs
    split at h
    · simp at h
    · rename_i c1 v1 hp
      split at h
      · simp at h
      · rename_i hv
        have hv : v1 = .continue := Classical.not_not.1 hv
        subst hv
        have h1 := handleHeader_weight hp
        have h2 := (turnPayload_weight h).1
        exact ⟨by omega, fun _ _ => by omega⟩
  · rename_i hs
    have h1 := turnPayload_weight h
    refine ⟨h1.1, fun h2 h3 => h1.2 ?_ h3⟩
    cases hx : c.req.state with
    | empty => exact absurd hx h2
    | header => exact absurd hx hs
    | payload => rfl

theorem turn_weight {ret : List (List Arg) → Status} {c c' : Conn} {v v' : Status} (hb : c.buf.reader < c.buf.writer)
    (h : turn ret c v = .go c' v') : c'.weight < c.weight := by
  unfold turn at h
  split at h
  · split at h
    · simp at h
    · rename_i c1 v1 hp
      split at h
      · simp at h
      · rename_i hv
        have hv : v1 = .success := Classical.not_not.1 hv
        subst hv
        have h1 := handleEmpty_weight hp
        have h2 := (turnHeader_weight h).1
        omega
  · rename_i hs
    exact (turnHeader_weight h).2 hs hb

/-- The loop of `redis_chunk_read`, zdbd/redis.c:736-790.  `none`: undefined behaviour. -/
def parse (ret : List (List Arg) → Status) (c : Conn) (v : Status) : Option (Conn × Status) :=
  if h : c.buf.reader < c.buf.writer then
    match ht : turn ret c v with
    | .crash => none
    | .stop c v => some (c, v)
    | .go c' v' => parse ret c' v'
  else some (c, v)
termination_by c.weight
decreasing_by exact turn_weight h ht

/-- What `recv` answers. -/
inductive Recv where
  | data (b : Bytes)
  | again
  | error
  | eof

/-- What becomes of the client. -/
inductive After where
  | open (c : Conn)
  | closed (c : Conn)
  /-- the process stops (STOP) -/
  | stopped (c : Conn)
  | crash

/-- The bytes of a `recv` in the buffer, zdbd/redis.c:722-724. -/
def Buffer.write (b : Buffer) (d : Bytes) : Buffer :=
  { mem := b.mem.take b.writer ++ d ++ b.mem.drop (b.writer + d.length), reader := b.reader, writer := b.writer + d.length
    remain := b.remain - d.length }

/-- `redis_chunk_read` from one `recv` to the next one or to its end, zdbd/redis.c:690-812, with what `socket_event` does
    with the status, zdbd/socket_epoll.c:85-103.  Going round again and being called again by the next event differ only in
    when `recv` is called. -/
def onRecv (ret : List (List Arg) → Status) (c : Conn) (r : Recv) : After :=
  if c.buf.remain = 0 then .closed c
  else
    match r with
    | .again => .open c
    | .error => .open c
    | .eof => .closed c
    | .data d =>
      match parse ret { c with buf := c.buf.write d } .success with
      | none => .crash
      | some (c, .discard) => .closed c
      | some (c, .disconnected) => .closed c
      | some (c, .shutdown) => .stopped c
      | some (c, _) => .open c

/-- A client reading several times. -/
def serve (ret : List (List Arg) → Status) (c : Conn) : List Recv → After
  | [] => .open c
  | r :: rs =>
    match onRecv ret c r with
    | .open c => serve ret c rs
    | x => x

/-- `redis_chunk_read` when its socket holds the bytes `s`: what is left in the socket when it returns.  Each `recv` takes as
    much as fits.  It returns when a read ends with success, or when nothing is left. -/
def drain (ret : List (List Arg) → Status) (fuel : Nat) (c : Conn) (s : Bytes) : Option (After × Bytes) :=
  match fuel with
  | 0 => none
  | fuel + 1 =>
    if c.buf.remain = 0 then some (.closed c, s)
    else if s = [] then some (.open c, [])
    else
      let d := s.take c.buf.remain
      let s := s.drop c.buf.remain
      match parse ret { c with buf := c.buf.write d } .success with
      | none => some (.crash, s)
      | some (c, .discard) => some (.closed c, s)
      | some (c, .disconnected) => some (.closed c, s)
      | some (c, .shutdown) => some (.stopped c, s)
      | some (c, .done) => some (.open c, s)
      | some (c, .success) => some (.open c, s)
      | some (c, _) => drain ret fuel c s

end Zdb.Resp
