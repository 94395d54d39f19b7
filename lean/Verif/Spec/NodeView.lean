/-
Executions of the node, and what one namespace sees of them.
-/
import Verif.Lemmas.NodeStep
import Verif.Spec.SeqTrace
namespace Zdb

/-- An accepted request: the client, its namespace, the handler chosen, and what is left of the request. -/
structure Picked where
  c : Client
  r : NsRec
  h : Handler
  e : Env
  argv : List Bytes

/-- The handler that will run for a request, if any. -/
def pick (n : Node) (fd : Nat) (e : Env) (argv : List Bytes) : Option Picked :=
  match getClient n fd with
  | none => none
  | some c =>
    match popOwner e c argv, c.ns with
    | some (e', key :: rest), some u =>
      match lookupCmd key, nsDeref n u with
      | some i, some r => (handlers[i]?).map (fun h => ⟨c, r, h.2, e', key :: rest⟩)
      | _, _ => none
    | _, _ => none

/-- The reply to the client that made the request. -/
def replyOf : List (Nat × Msg) → Reply
  | (_, .reply r) :: _ => r
  | _ => .nil

/-- Context of the jump made by `redis_files_rotate`. -/
def rotateCtx (S : Settings) (u : Nat) : Ctx :=
  { limit := S.limit, now := 0, u := u, conf := defaultConf nameDefault, admin := true, writable := true
    io := {}, slice := 0 }

/-- `+OK`. -/
def Reply.isOk : Reply → Bool
  | .simple s => s == "OK"
  | _ => false

/-- The request asks for a reload of `u`. -/
def asksReload (n : Node) (p : Picked) (u : Nat) : Bool :=
  match p.h with
  | .reload =>
    match nsArg p.argv with
    | .ok name => (nsGet n name).any (·.uid == u)
    | .error _ => false
  | .flush => p.r.uid == u
  | _ => false

/-- What a request is for the namespace `u`: a command of one of its clients, a reload, or something foreign. -/
def viewRequest (S : Settings) (u : Nat) (n : Node) (sent : List (Nat × Msg)) : Option Picked → NsEvent × Reply
  | none => (.foreign, .nil)
  | some p =>
    match p.h with
    | .ds d => if p.r.uid = u then (.cmd (ctxOf S p.e p.c p.r) d p.argv, replyOf sent) else (.foreign, .nil)
    | _ => if (replyOf sent).isOk && asksReload n p u then (.reload, .ok) else (.foreign, .nil)

/-- What an event is for the namespace `u`. -/
def view (S : Settings) (u : Nat) (n : Node) (sent : List (Nat × Msg)) : Event → List (NsEvent × Reply)
  | .request fd e argv => [viewRequest S u n sent (pick n fd e argv)]
  | .rotate v => [if v = u then (.cmd (rotateCtx S u) .nsjump [[78, 83, 74, 85, 77, 80]], .ok) else (.foreign, .nil)]
  | .restart _ => [(.foreign, .nil), (.reload, .ok), (.foreign, .nil)]
  | _ => [(.foreign, .nil)]

/-- The store of a namespace. -/
def storeOf (n : Node) (u : Nat) : Option Store := (nsDeref n u).map (·.store)

/-- The event is an NSSET that changes the store of `u`, that is its mode. -/
def Switches (n : Node) (u : Nat) (ev : Event) (n' : Node) : Prop :=
  match ev with
  | .request fd e argv => ∃ p, pick n fd e argv = some p ∧ p.h = .nsset ∧ storeOf n' u ≠ storeOf n u
  | _ => False

/-- Executions of the node: events with what is sent because of them. -/
inductive NodeRun (S : Settings) : Node → List (Event × List (Nat × Msg)) → Node → Prop where
  | nil (n : Node) : NodeRun S n [] n
  | cons {n n1 n2 : Node} {ev : Event} {sent : List (Nat × Msg)} {st : Status} {l : List (Event × List (Nat × Msg))}
      (hg : Guard S n ev) (hs : nodeStep S n ev = .ok n1 sent st) (h : NodeRun S n1 l n2) :
      NodeRun S n ((ev, sent) :: l) n2

/-- The process was started for the first time, on empty directories. -/
def Started (S : Settings) (n : Node) : Prop :=
  ∃ u, boot S { uid := u, name := nameDefault, ifiles := [], dfiles := [], desc := [] } [] = some n

/-- Conditions on an event in the life of namespace `u`: index writes succeed, arguments are at most 8 MiB, the quota
    of `u` is below 2^63. -/
def Fair (n : Node) (u : Nat) : Event → Prop
  | .request _ e argv => (e.io.iapp = none ∧ e.io.iflag = none ∧ e.io.iover = none) ∧ (∀ b ∈ argv, b.length ≤ 2 ^ 23) ∧
      ∀ r, nsDeref n u = some r → r.conf.maxsize < 2 ^ 63
  | _ => True

/-- A stretch of the life of namespace `u`, without a change of mode, and what it sees: `Life S u n l tr n'`. -/
inductive Life (S : Settings) (u : Nat) : Node → List (Event × List (Nat × Msg)) → List (NsEvent × Reply) → Node → Prop where
  | nil (n : Node) (hu : (nsDeref n u).isSome = true) : Life S u n [] [] n
  | cons {n n1 n2 : Node} {ev : Event} {sent : List (Nat × Msg)} {st : Status} {l : List (Event × List (Nat × Msg))}
      {tr : List (NsEvent × Reply)} (hu : (nsDeref n u).isSome = true) (hg : Guard S n ev) (hf : Fair n u ev)
      (hs : nodeStep S n ev = .ok n1 sent st) (hw : ¬ Switches n u ev n1) (h : Life S u n1 l tr n2) :
      Life S u n ((ev, sent) :: l) (view S u n sent ev ++ tr) n2

/-- The same for a sequential namespace, with the conditions of `CleanRun`: files that are left, and the last file
    when the namespace is loaded again, have items. -/
inductive SeqLife (S : Settings) (u : Nat) : Node → List (Event × List (Nat × Msg)) → List (NsEvent × Reply) → Node → Prop where
  | nil (n : Node) (hu : (nsDeref n u).isSome = true) : SeqLife S u n [] [] n
  | cons {n n1 n2 : Node} {ev : Event} {sent : List (Nat × Msg)} {st : Status} {l : List (Event × List (Nat × Msg))}
      {tr : List (NsEvent × Reply)} (hu : (nsDeref n u).isSome = true) (hg : Guard S n ev) (hf : Fair n u ev)
      (hs : nodeStep S n ev = .ok n1 sent st) (hw : ¬ Switches n u ev n1)
      (hc : ∀ s s1, storeOf n u = some s → storeOf n1 u = some s1 → CleanStep s s1)
      (hl : (.reload, .ok) ∈ view S u n sent ev → ∀ s, storeOf n u = some s → s.indexid = 0 ∨ 29 < fileLen s.ifiles s.indexid)
      (h : SeqLife S u n1 l tr n2) :
      SeqLife S u n ((ev, sent) :: l) (view S u n sent ev ++ tr) n2

end Zdb
