/-
What may be read after the process died.
-/
import Verif.Model.Crash
import Verif.Spec.Bounds
import Verif.Spec.UserTrace
import Verif.Spec.SeqTrace
namespace Zdb

/-- The index is not left with part of a record: a header or an item that is being added to an index file is
    there in full, or (for an item) not at all. -/
def Death.whole (argv : List Bytes) : Death → Prop
  | .jumpIndex n => 29 ≤ n
  | .itemApp n => n = 0 ∨ 34 + (argv.drop 1).head?.elim 0 List.length ≤ n
  | _ => True

/-- The conditions on a command during which the process dies: file size limit of at most 2 GiB, quota below
    2^63, arguments as delivered by the parser, index records written in full or not at all. -/
structure DiedOK (c : Ctx) (argv : List Bytes) (p : Death) : Prop where
  limit : c.limit ≤ 2 ^ 31
  quota : c.conf.maxsize < 2 ^ 63
  args : ArgsOK argv
  whole : p.whole argv

def LifeOK : LifeEv → Prop
  | .ev e => EvOK e
  | .died c _ argv p => DiedOK c argv p

/-- The values key `k` may have (`none`: absent), given those it may have had before and one more event with
    its reply: an acknowledged SET or DEL determines the value; a SET cut by the death of the process may
    have happened, or not, or have removed the previous value; a DEL may have happened or not. -/
def mayBe (k : Bytes) (old : List (Option Bytes)) : LifeEv × Reply → List (Option Bytes)
  | (.ev e, r) => match writeOf k (e, r) with
    | some v => [v]
    | none => old
  | (.died _ .set (_ :: k' :: p :: _) _, _) => if k' = k then old ++ [some p, none] else old
  | (.died _ .del (_ :: k' :: _) _, _) => if k' = k then old ++ [none] else old
  | _ => old

/-- The values a key may have after a trace, starting from a namespace in which it is absent. -/
def possible (k : Bytes) (tr : List (LifeEv × Reply)) : List (Option Bytes) :=
  tr.foldl (mayBe k) [none]

/-- The reply to GET for a value. -/
def getReply : Option Bytes → Reply
  | some p => .bulk p
  | none => .nil

/-! ### sequential mode -/

/-- The same as `Death.whole` for a sequential namespace, whose items are 42 bytes long: an item that is
    overwritten is also written in full or not at all. -/
def Death.wholeSeq : Death → Prop
  | .jumpIndex n => 29 ≤ n
  | .itemApp n => n = 0 ∨ 42 ≤ n
  | .itemOver n => n = 0 ∨ 42 ≤ n
  | _ => True

/-- The keys of a request are ids given out by this namespace, or small enough (see `NearKey`). -/
def NearStore (s : Store) (e : NsEvent) : Prop := NearEvent (List.replicate s.nextentry none) e

/-- The conditions on a command during which the process dies, in a sequential namespace: those of `DiedOK`;
    the command would not leave an empty index file behind; its keys are near; its writes succeed up to the
    death. -/
structure DiedSeqOK (c : Ctx) (br : Branches) (s : Store) (d : DsCmd) (argv : List Bytes) (p : Death) :
    Prop where
  limit : c.limit ≤ 2 ^ 31
  quota : c.conf.maxsize < 2 ^ 63
  args : ArgsOK argv
  whole : p.wholeSeq
  io : c.io = {}
  clean : CleanStep s (dsCommand c br s d argv).2.1
  near : NearStore s (.cmd c d argv)

/-- The index file a new process writes to has items, or is the first one. -/
def LastUsed (s : Store) : Prop := s.indexid = 0 ∨ 29 < fileLen s.ifiles s.indexid

/-- Executions of a sequential namespace in which the process may die during a command, under the conditions
    above; a new process finds items in the last index file (or there is only one file). -/
inductive SeqCrashRun (cfg : Option Mode) (u : Nat) :
    Branches → Store → List (LifeEv × Reply) → Branches → Store → Prop where
  | nil (br : Branches) (s : Store) : SeqCrashRun cfg u br s [] br s
  | ev {br br1 br2 : Branches} {s s1 s2 : Store} {e : NsEvent} {r : Reply} {tr : List (LifeEv × Reply)}
      (hok : EvOK e) (hn : NearStore s e) (h1 : CleanRun cfg u br s [(e, r)] br1 s1)
      (h2 : SeqCrashRun cfg u br1 s1 tr br2 s2) : SeqCrashRun cfg u br s ((.ev e, r) :: tr) br2 s2
  | died (c : Ctx) (d : DsCmd) (argv : List Bytes) (p : Death) {br br0 br1 br2 : Branches}
      {s s1 s2 : Store} {tr : List (LifeEv × Reply)} (hu : c.u = u) (hok : DiedSeqOK c br s d argv p)
      (h1 : loadNs cfg br0 u (deathFiles c br s d argv p).1 (deathFiles c br s d argv p).2 = .ok br1 s1)
      (hl : LastUsed s1) (h2 : SeqCrashRun cfg u br1 s1 tr br2 s2) :
      SeqCrashRun cfg u br s ((.died c d argv p, .nil) :: tr) br2 s2

/-- Executions of a new sequential namespace in which the process may die. -/
structure SeqLifeRun (cfg : Option Mode) (u : Nat) (tr : List (LifeEv × Reply)) (br' : Branches) (s' : Store) :
    Prop where
  run : ∃ br s, SeqStart cfg u br s ∧ SeqCrashRun cfg u br s tr br' s'
  len : tr.length ≤ maxEvents

end Zdb
