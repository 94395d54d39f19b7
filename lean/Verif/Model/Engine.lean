/-
All commands that work on the namespace of the client, as one function.
-/
import Verif.Model.Scan
import Verif.Model.Loader
namespace Zdb

/-- Handlers of the table in zdbd/commands.c:111-158 that only touch `client->ns` and its files. -/
inductive DsCmd where
  | set | get | mget | del | exists | check | length | keytime
  | scan | rscan | kscan | keycur | history | dbsize | nsjump
  | index | data
deriving DecidableEq, Repr

/-- `command_nsjump`, zdbd/commands_namespace.c:585-598. -/
def cmdNsjump (c : Ctx) (s : Store) : Store × Reply :=
  if c.admin then (jump s, .ok) else (s, errDenied)

/-- Running a handler. -/
def dsCommand (c : Ctx) (br : Branches) (s : Store) (cmd : DsCmd) (argv : List Bytes) :
    Branches × Store × Reply :=
  match cmd with
  | .set => cmdSet c br s argv
  | .del => cmdDel c br s argv
  | .nsjump => let (s, r) := cmdNsjump c s; (br, s, r)
  | .get => (br, s, cmdGet c br s argv)
  | .mget => (br, s, cmdMget c br s argv)
  | .exists => (br, s, cmdExists c br s argv)
  | .check => (br, s, cmdCheck c br s argv)
  | .length => (br, s, cmdLength c br s argv)
  | .keytime => (br, s, cmdKeytime c br s argv)
  | .scan => (br, s, cmdScan c s argv)
  | .rscan => (br, s, cmdRscan c s argv)
  | .kscan => (br, s, cmdKscan c br s argv)
  | .keycur => (br, s, cmdKeycur c br s argv)
  | .history => (br, s, cmdHistory c br s argv)
  | .dbsize => (br, s, cmdDbsize s)
  | .index => let (s, r) := cmdIndex c s argv; (br, s, r)
  | .data => (br, s, cmdData c s argv)

/-- Commands that may change files or memory. -/
def DsCmd.changes : DsCmd → Bool
  | .set | .del | .nsjump | .index => true
  | _ => false

theorem dsCommand_same (c : Ctx) (br : Branches) (s : Store) (d : DsCmd) (argv : List Bytes)
    (h : d.changes = false) : dsCommand c br s d argv = (br, s, (dsCommand c br s d argv).2.2) := by
  cases d <;> first | rfl | simp [DsCmd.changes] at h

theorem cmdIndex_cases (c : Ctx) (s : Store) (argv : List Bytes) :
    (cmdIndex c s argv).1 = s ∨ (cmdIndex c s argv).1 = { s with dirty := dirtyReset s.dirty } := by
  unfold cmdIndex
  simp only
  split
  · exact Or.inr rfl
  · exact Or.inl rfl

/-- What happens around one namespace. -/
inductive NsEvent where
  /-- a command of a client attached to the namespace -/
  | cmd (c : Ctx) (d : DsCmd) (argv : List Bytes)
  /-- something else happened in the process, possibly changing entries of other namespaces in the
      shared table -/
  | foreign
  /-- RELOAD, or stopping and starting the process -/
  | reload

/-- Executions of the namespace `u`: `NsRun cfg u br s tr br' s'` if the events and replies `tr` lead from
    the shared table `br` and the store `s` to `br'` and `s'`. -/
inductive NsRun (cfg : Option Mode) (u : Nat) :
    Branches → Store → List (NsEvent × Reply) → Branches → Store → Prop where
  | nil (br : Branches) (s : Store) : NsRun cfg u br s [] br s
  | cmd (c : Ctx) (d : DsCmd) (argv : List Bytes) {br br1 br2 : Branches} {s s1 s2 : Store} {r : Reply}
      {tr : List (NsEvent × Reply)} (hu : c.u = u) (h1 : dsCommand c br s d argv = (br1, s1, r))
      (h2 : NsRun cfg u br1 s1 tr br2 s2) : NsRun cfg u br s ((.cmd c d argv, r) :: tr) br2 s2
  | foreign {br br1 br2 : Branches} {s s2 : Store} {tr : List (NsEvent × Reply)}
      (h1 : ∀ h, (br1 h).filter (fun e => e.ns == u) = (br h).filter (fun e => e.ns == u))
      (h2 : NsRun cfg u br1 s tr br2 s2) : NsRun cfg u br s ((.foreign, .nil) :: tr) br2 s2
  | reload {br br1 br2 : Branches} {s s1 s2 : Store} {tr : List (NsEvent × Reply)}
      (h1 : reloadNs cfg br u s = .ok br1 s1)
      (h2 : NsRun cfg u br1 s1 tr br2 s2) : NsRun cfg u br s ((.reload, .ok) :: tr) br2 s2

end Zdb
