/-
Cases of C74 and C75 in sequential mode.
-/
import Verif.Props.Backup
import Verif.Props.Missing
import Verif.Props.SeqCrash
namespace Zdb.Backup

set_option maxRecDepth 100000 in
/-- A case of `C74_seq_partial`: two ids are given in two files, the first is deleted; the closed file with the deleted id is in the
    list, and the script succeeded so far. -/
theorem C74_seq_example : ∃ tr br s b m, SeqCopies (some .seq) 7 tr br s b m ∧ (∀ x ∈ tr, Sound x) ∧
    tr.map (·.2) = [.bulk (sid 0), .ok, .bulk (sid 1), .ok] ∧ s.indexid = 1 ∧ dirtyList s.dirty = [0] ∧ (b.idx 0).isSome = true ∧
    b.idx 0 ≠ s.ifiles[0]? := by
  have ok : ∀ d argv, ArgsOK argv → EvOK (.cmd exCtx d argv) := fun d argv h => ⟨exCtx_ok, h⟩
  refine ⟨[(.cmd exCtx .set [str "SET", [], str "one"] (.exited 0) [], .bulk (sid 0)),
      (.cmd exCtx .nsjump [str "NSJUMP"] (.exited 0) [], .ok),
      (.cmd exCtx .set [str "SET", [], str "two"] (.exited 0) [], .bulk (sid 1)),
      (.cmd exCtx .del [str "DEL", sid 0] (.exited 0) [], .ok)], _, _, _, _,
    ⟨⟨fun _ => [], freshStore .seq, Or.inl ⟨rfl, fun _ => [], freshNs_eq (some .seq) _ 7⟩,
      .cmd exCtx .set _ _ [] rfl rfl (Or.inl rfl)
      (.cmd exCtx .nsjump _ _ [] rfl rfl (Or.inr (by decide +kernel))
      (.cmd exCtx .set _ _ [] rfl rfl (Or.inl rfl)
      (.cmd exCtx .del _ _ [] rfl rfl (Or.inl rfl) (.nil ..))))⟩, ?_, ?_, by decide⟩, ?_, rfl, rfl, rfl, rfl, by decide +kernel⟩
  · intro x hx
    simp only [List.mem_cons, List.not_mem_nil, or_false] at hx
    rcases hx with rfl | rfl | rfl | rfl <;> exact ok _ _ ⟨⟨_, _, rfl, by decide⟩, by decide⟩
  · refine ⟨nearEvent_of (by decide +kernel), nearEvent_of (by decide +kernel), nearEvent_of (by decide +kernel), nearEvent_of (by decide +kernel), trivial⟩
  · intro x hx
    simp only [List.mem_cons, List.not_mem_nil, or_false] at hx
    rcases hx with rfl | rfl | rfl | rfl <;> exact ⟨id, _, rfl⟩

end Zdb.Backup

namespace Zdb.Missing

set_option maxRecDepth 100000 in
/-- A case of `C75_seq_partial`: the data file of id 0 is copied and taken away, and brought back when id 0 is read. -/
theorem C75_seq_example : ∃ tr br s dir b m, SeqTaken (some .seq) 7 tr br s dir b m ∧ (∀ x ∈ kept tr, Backup.Sound x) ∧
    tr.map (·.2) = [.bulk (sid 0), .ok, .bulk (sid 1), .nil, .nil, .bulk (str "one")] ∧ (dir 0).isSome = true := by
  have ok : ∀ d argv, ArgsOK argv → EvOK (.cmd exCtx d argv) := fun d argv h => ⟨exCtx_ok, h⟩
  refine ⟨[(.ev (.cmd exCtx .set [str "SET", [], str "one"] (.exited 0) []), .bulk (sid 0)),
      (.ev (.cmd exCtx .nsjump [str "NSJUMP"] (.exited 0) []), .ok),
      (.ev (.cmd exCtx .set [str "SET", [], str "two"] (.exited 0) []), .bulk (sid 1)),
      (.ev (.late 0), .nil), (.take 0, .nil),
      (.ev (.cmd exCtx .get [str "GET", sid 0] (.exited 0) []), .bulk (str "one"))], _, _, _, _, _,
    ⟨⟨fun _ => [], freshStore .seq, Or.inl ⟨rfl, fun _ => [], freshNs_eq (some .seq) _ 7⟩,
      .cmd exCtx .set _ _ [] rfl rfl (Or.inl rfl)
      (.cmd exCtx .nsjump _ _ [] rfl rfl (Or.inr (by decide +kernel))
      (.cmd exCtx .set _ _ [] rfl rfl (Or.inl rfl)
      (.late 0 trivial
      (.take 0 (by decide +kernel) (by decide +kernel) trivial
      (.cmd exCtx .get _ _ [] rfl rfl (Or.inl rfl) (.nil ..))))))⟩, ?_, ?_, by decide⟩, ?_, rfl, by decide +kernel⟩
  · intro x hx
    simp only [kept, Event.kept, List.map_cons, List.map_nil, List.mem_cons, List.not_mem_nil, or_false] at hx
    rcases hx with rfl | rfl | rfl | rfl | rfl | rfl <;>
      first
      | trivial
      | exact ok _ _ ⟨⟨_, _, rfl, by decide⟩, by decide⟩
  · exact ⟨nearEvent_of (by decide +kernel), nearEvent_of (by decide +kernel), nearEvent_of (by decide +kernel), trivial, trivial,
      nearEvent_of (by decide +kernel), trivial⟩
  · intro x hx
    simp only [kept, Event.kept, List.map_cons, List.map_nil, List.mem_cons, List.not_mem_nil, or_false] at hx
    rcases hx with rfl | rfl | rfl | rfl | rfl | rfl <;>
      first
      | trivial
      | exact ⟨id, _, rfl⟩

end Zdb.Missing
