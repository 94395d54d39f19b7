/-
Concrete executions of the node, used by the examples next to the theorems.
-/
import Verif.Lemmas.NodeLife
import Verif.Spec.Example
namespace Zdb

/-- A process in user-key mode with an administrator password `pw` and a digest that is only an example. -/
def exS : Settings :=
  { cfg := some .user, limit := 2 ^ 28, adminpwd := some [112, 119], protect := false, maxsize := 0
    hash := fun salt pwd => ((salt ++ [58] ++ pwd) ++ List.replicate 40 48).take 40 }

/-- Environment of an event; `k` makes times and addresses differ. -/
def exE (k : Nat) : Env :=
  { us := 1700000000000000 + k * 1000000, io := Io.good, slice := 100, nonce := [110, UInt8.ofNat (65 + k)], uid := 1000 + k, owner := 0 }

/-- The node right after its first start. -/
def exNode (S : Settings) : Node :=
  (boot S { uid := 1, name := nameDefault, ifiles := [], dfiles := [], desc := [] } []).getD
    { br := fun _ => [], slots := [], effective := 0, clients := [] }

/-- The guard, computed for a process with a single mode. -/
def guardB (n : Node) : Event → Bool
  | .request _ e _ => (recs n).all (fun r => r.uid != e.uid)
  | .restart order => order == (recs n).tail.map (·.uid)
  | _ => true

/-- Running events: the node, and what was sent for each event. -/
def runNode (S : Settings) : Node → List Event → Option (Node × List (Event × List (Nat × Msg)))
  | n, [] => some (n, [])
  | n, ev :: l =>
    if guardB n ev then
      match nodeStep S n ev with
      | .ok n1 sent _ =>
        match runNode S n1 l with
        | some (n', l') => some (n', (ev, sent) :: l')
        | none => none
      | _ => none
    else none

theorem guardB_ok {S : Settings} {m : Mode} (hm : S.cfg = some m) {n : Node} (hi : NodeInv S n) {ev : Event}
    (h : guardB n ev = true) : Guard S n ev := by
  have hmode : ∀ r ∈ recs n, ModeOf S.cfg r.store.mode r.store.ifiles := fun r hr =>
    Or.inl (by rw [hi.single m hm r hr]; exact hm)
  cases ev with
  | request fd e argv =>
    refine ⟨fun r hr => ?_, hmode⟩
    have := List.all_eq_true.1 h r hr
    simpa using this
  | restart order =>
    refine ⟨hmode, ?_⟩
    have : order = (recs n).tail.map (·.uid) := by simpa [guardB] using h
    rw [this]
  | _ => trivial

theorem runNode_run {S : Settings} {m : Mode} (hm : S.cfg = some m) {n n' : Node} {evs : List Event}
    {l : List (Event × List (Nat × Msg))} (hi : NodeInv S n) (h : runNode S n evs = some (n', l)) : NodeRun S n l n' := by
  induction evs generalizing n l with
  | nil =>
    simp only [runNode, Option.some.injEq, Prod.mk.injEq] at h
    obtain ⟨rfl, rfl⟩ := h
    exact .nil _
  | cons ev evs ih =>
    simp only [runNode] at h
    split at h
    · rename_i hg
      split at h
      · rename_i n1 sent st hs
        split at h
        · rename_i n2 l2 h2
          simp only [Option.some.injEq, Prod.mk.injEq] at h
          obtain ⟨rfl, rfl⟩ := h
          have hg := guardB_ok hm hi hg
          exact .cons hg hs (ih (hi.step hg hs) h2)
        · exact absurd h (by simp)
      · exact absurd h (by simp)
    · exact absurd h (by simp)

/-- A run as a state and its messages, empty if it fails. -/
def ranNode (S : Settings) (evs : List Event) : Node := ((runNode S (exNode S) evs).map (·.1)).getD (exNode S)
def ranSent (S : Settings) (evs : List Event) : List (List (Nat × Msg)) :=
  ((runNode S (exNode S) evs).map (fun x => x.2.map (·.2))).getD []

end Zdb
