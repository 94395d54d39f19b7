/-
Cases of C36: a DEL during which the process dies, in both modes.
-/
import Verif.Props.Crash
import Verif.Props.SeqCrash
namespace Zdb

/-- Two keys. -/
def exTwoDel : List (Ctx × DsCmd × List Bytes) :=
  [(exCtx, .set, [str "SET", str "a", str "one"]), (exCtx, .set, [str "SET", str "b", str "two"])]

def exTwoDelBr : Branches := (runCmds (fun _ => []) (freshStore .user) exTwoDel).1
def exTwoDelStore : Store := (runCmds (fun _ => []) (freshStore .user) exTwoDel).2.1

/-- What GET `a` and GET `b` answer after the start that follows the death of the process at `p` while it deletes `a`. -/
def exDelDied (p : Death) : Option Reply × Option Reply :=
  let f := deathFiles exCtx exTwoDelBr exTwoDelStore .del [str "DEL", str "a"] p
  let l := loadNs none (fun _ => []) 7 f.1 f.2
  (l.getK (str "a"), l.getK (str "b"))

set_option maxRecDepth 100000 in
/-- A case of `C36_user`: its hypotheses are met, and the key is there until its item is flagged, then gone; the other key is there
    throughout. -/
theorem C36_user_example : (∃ tr, LifeRun none 7 tr exTwoDelBr exTwoDelStore ∧ tr.length < maxEvents) ∧
    exDelDied .start = (some (.bulk (str "one")), some (.bulk (str "two"))) ∧
    exDelDied (.dataHdr 3) = (some (.bulk (str "one")), some (.bulk (str "two"))) ∧
    exDelDied (.itemFlag 0) = (some (.bulk (str "one")), some (.bulk (str "two"))) ∧
    exDelDied (.itemFlag 13) = (some (.bulk (str "one")), some (.bulk (str "two"))) ∧
    exDelDied (.itemFlag 14) = (some .nil, some (.bulk (str "two"))) ∧
    exDelDied (.itemOver 0) = (some .nil, some (.bulk (str "two"))) :=
  ⟨⟨_, (userRun_ok exTwoDel (by decide) (by decide) : UserRun none 7 _ exTwoDelBr exTwoDelStore).toLife, by decide⟩,
    rfl, rfl, rfl, rfl, rfl, rfl⟩

/-- What GET of ids 0 and 1 answer after the start that follows the death of the process at `p` while it deletes id 0. -/
def exSeqDelDied (p : Death) : Option Reply × Option Reply :=
  let f := deathFiles exCtx (fun _ => []) exTwoSeqStore .del [str "DEL", sid 0] p
  let l := loadNs (some .seq) (fun _ => []) 7 f.1 f.2
  (l.getK (sid 0), l.getK (sid 1))

set_option maxRecDepth 100000 in
/-- A case of `C36_seq`. -/
theorem C36_seq_example : (∃ tr, SeqLifeRun (some .seq) 7 tr (fun _ => []) exTwoSeqStore ∧ tr.length < maxEvents) ∧
    NearStore exTwoSeqStore (.cmd exCtx .del [str "DEL", sid 0]) ∧
    exSeqDelDied .start = (some (.bulk (str "old!")), some (.bulk (str "other"))) ∧
    exSeqDelDied (.dataHdr 3) = (some (.bulk (str "old!")), some (.bulk (str "other"))) ∧
    exSeqDelDied (.itemFlag 13) = (some (.bulk (str "old!")), some (.bulk (str "other"))) ∧
    exSeqDelDied (.itemFlag 14) = (some .nil, some (.bulk (str "other"))) ∧
    exSeqDelDied (.itemOver 0) = (some .nil, some (.bulk (str "other"))) := by
  have ok : ∀ argv, ArgsOK argv → EvOK (.cmd exCtx .set argv) := fun argv h => ⟨exCtx_ok, h⟩
  refine ⟨⟨[(.ev (.cmd exCtx .set [str "SET", [], str "old!"]), .bulk (sid 0)),
    (.ev (.cmd exCtx .set [str "SET", [], str "other"]), .bulk (sid 1))],
    ⟨⟨fun _ => [], freshStore .seq, Or.inl ⟨rfl, fun _ => [], freshNs_eq (some .seq) _ 7⟩,
    .ev (ok _ ⟨⟨_, _, rfl, by decide⟩, by decide⟩) (nearEvent_of (by decide +kernel))
      (.cmd exCtx .set _ rfl rfl (Or.inl rfl) (.nil _ _))
    (.ev (ok _ ⟨⟨_, _, rfl, by decide⟩, by decide⟩) (nearEvent_of (by decide +kernel))
      (.cmd exCtx .set _ rfl rfl (Or.inl rfl) (.nil _ _))
    (.nil _ _))⟩, by decide⟩, by decide⟩, nearEvent_of (by decide +kernel), rfl, rfl, rfl, rfl, rfl⟩

end Zdb
