/-
Data files that change behind the back of the process: lost, cut or corrupted.
-/
import Verif.Model.Engine
namespace Zdb

/-- What may happen to a namespace and its disk. -/
inductive LossEvent where
  /-- something the process takes part in -/
  | ev (e : NsEvent)
  /-- data file `i`, which is not the one written to, has the contents `new` from now on instead of `old`.
      Files other than the current one are opened for every read (`data_open_id_mode`,
      libzdb/data.c:127-162, called from `data_grab_dataid`, 219-231), so the change is seen at
      once.  A file that is missing is modelled as an empty one: opening it fails where reading the empty one does
      (`data_get`, 509-528, and `data_check`, 575-588), but for a payload of no bytes, which is not
      read.  The retry after the hook `missing-data` (109-125, 145-156) is left out: no hook is
      configured. -/
  | damage (i : Nat) (old new : Bytes)

/-- An event, the reply to it if it is a command, and what NSINFO tells after it to an administrator: the number
    and the size of the current data file (`data_current_id`, `data_current_offset`,
    zdbd/commands_namespace.c:365-368). -/
structure LossItem where
  ev : LossEvent
  reply : Reply
  file : Nat
  size : Nat

/-- The store after data file `i` was replaced. -/
def Store.damaged (s : Store) (i : Nat) (new : Bytes) : Store := { s with dfiles := s.dfiles.set i new }

/-- Executions of a namespace whose data files may change. -/
inductive LossSteps (cfg : Option Mode) (u : Nat) :
    Branches → Store → List LossItem → Branches → Store → Prop where
  | nil (br : Branches) (s : Store) : LossSteps cfg u br s [] br s
  | ev (e : NsEvent) (r : Reply) {br br1 br2 : Branches} {s s1 s2 : Store} {tr : List LossItem}
      (h1 : NsRun cfg u br s [(e, r)] br1 s1) (h2 : LossSteps cfg u br1 s1 tr br2 s2) :
      LossSteps cfg u br s (⟨.ev e, r, s1.dataid, fileLen s1.dfiles s1.dataid⟩ :: tr) br2 s2
  | damage (i : Nat) (old new : Bytes) {br br2 : Branches} {s s2 : Store} {tr : List LossItem}
      (hi : i < s.dataid) (ho : s.dfiles[i]? = some old)
      (h2 : LossSteps cfg u br (s.damaged i new) tr br2 s2) :
      LossSteps cfg u br s (⟨.damage i old new, .nil, s.dataid, fileLen s.dfiles s.dataid⟩ :: tr) br2 s2

end Zdb
