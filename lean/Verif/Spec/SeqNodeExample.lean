/-
A concrete execution of a process with a sequential namespace, for the examples next to the theorems about `SeqLife`.
-/
import Verif.Spec.NodeExample
import Verif.Spec.SeqExample
import Verif.Lemmas.NodeReq
namespace Zdb

/-- A process whose namespaces are sequential. -/
def exSeqS : Settings := { exS with cfg := some .seq }

def fairSeqB (n : Node) (u : Nat) : Event → Bool
  | .request _ e argv => e.io.iapp.isNone && e.io.iflag.isNone && e.io.iover.isNone &&
      argv.all (fun b => decide (b.length ≤ 2 ^ 23)) &&
      (match nsDeref n u with | some r => decide (r.conf.maxsize < 2 ^ 63) | none => true)
  | _ => true

def noSetB (n : Node) : Event → Bool
  | .request fd e argv => match pick n fd e argv with
    | some p => (match p.h with | .nsset => false | _ => true)
    | none => true
  | _ => true

def cleanB (n n1 : Node) (u : Nat) (v : List (NsEvent × Reply)) : Bool :=
  match storeOf n u, storeOf n1 u with
  | some s, some s1 => (s1.indexid == s.indexid || decide (29 < fileLen s.ifiles s.indexid)) &&
      (v.all (fun x => match x.1 with | .reload => false | _ => true) || s.indexid == 0 || decide (29 < fileLen s.ifiles s.indexid))
  | _, _ => false

/-- Running events in the life of `u`: the node, what was sent and what the namespace sees. -/
def seqLifeB (S : Settings) (u : Nat) : Node → List Event →
    Option (Node × List (Event × List (Nat × Msg)) × List (NsEvent × Reply))
  | n, [] => if (nsDeref n u).isSome then some (n, [], []) else none
  | n, ev :: l =>
    if (nsDeref n u).isSome && guardB n ev && fairSeqB n u ev && noSetB n ev then
      match nodeStep S n ev with
      | .ok n1 sent _ =>
        if cleanB n n1 u (view S u n sent ev) then (seqLifeB S u n1 l).map (fun x => (x.1, (ev, sent) :: x.2.1, view S u n sent ev ++ x.2.2))
        else none
      | _ => none
    else none

theorem seqLifeB_life {S : Settings} {u : Nat} {m : Mode} (hm : S.cfg = some m) {n n' : Node} {evs : List Event}
    {l : List (Event × List (Nat × Msg))} {tr : List (NsEvent × Reply)} (hi : NodeInv S n)
    (h : seqLifeB S u n evs = some (n', l, tr)) : SeqLife S u n l tr n' := by
  induction evs generalizing n l tr with
  | nil =>
    simp only [seqLifeB] at h
    split at h
    · rename_i hu
      simp only [Option.some.injEq, Prod.mk.injEq] at h
      obtain ⟨rfl, rfl, rfl⟩ := h
      exact .nil _ hu
    · cases h
  | cons ev evs ih =>
    simp only [seqLifeB] at h
    split at h
    · rename_i hb
      simp only [Bool.and_eq_true] at hb
      obtain ⟨⟨⟨hu, hg⟩, hf⟩, hw⟩ := hb
      split at h
      · rename_i n1 sent st hs
        split at h
        · rename_i hc
          obtain ⟨⟨n2, l2, tr2⟩, h2, he⟩ := Option.map_eq_some_iff.1 h
          simp only [Prod.mk.injEq] at he
          obtain ⟨rfl, rfl, rfl⟩ := he
          have hg := guardB_ok hm hi hg
          unfold cleanB at hc
          split at hc
          · rename_i s s1 e1 e2
            simp only [Bool.and_eq_true, Bool.or_eq_true, beq_iff_eq, decide_eq_true_eq] at hc
            refine .cons hu hg ?_ hs ?_ ?_ ?_ (ih (hi.step hg hs) h2)
            · cases ev with
              | request fd e argv =>
                simp only [fairSeqB, Bool.and_eq_true, Option.isNone_iff_eq_none] at hf
                obtain ⟨⟨⟨⟨h1, h2⟩, h3⟩, h4⟩, h5⟩ := hf
                refine ⟨⟨h1, h2, h3⟩, fun b hb => by simpa using List.all_eq_true.1 h4 b hb, fun r hr => ?_⟩
                rw [hr] at h5
                simpa using h5
              | _ => trivial
            · cases ev with
              | request fd e argv =>
                rintro ⟨p, hp, hh, -⟩
                simp only [noSetB, hp, hh] at hw
                cases hw
              | _ => exact id
            · intro t t1 f1 f2
              rw [e1] at f1; rw [e2] at f2
              injection f1 with f1; injection f2 with f2
              subst f1 f2
              exact hc.1
            · intro hr t f1
              rw [e1] at f1
              injection f1 with f1
              subst f1
              rcases hc.2 with (h | h) | h
              · exact absurd (List.all_eq_true.1 h _ hr) (by simp)
              · exact Or.inl h
              · exact Or.inr h
          · cases hc
        · cases h
      · cases h
    · cases h

theorem seqLifeB_events {S : Settings} {u : Nat} {n n' : Node} {evs : List Event} {l : List (Event × List (Nat × Msg))}
    {tr : List (NsEvent × Reply)} (h : seqLifeB S u n evs = some (n', l, tr)) : l.map (·.1) = evs := by
  induction evs generalizing n l tr with
  | nil =>
    simp only [seqLifeB] at h
    split at h
    · simp only [Option.some.injEq, Prod.mk.injEq] at h
      rw [← h.2.1]; rfl
    · cases h
  | cons ev evs ih =>
    simp only [seqLifeB] at h
    split at h
    · split at h
      · split at h
        · obtain ⟨⟨n2, l2, tr2⟩, h2, he⟩ := Option.map_eq_some_iff.1 h
          simp only [Prod.mk.injEq] at he
          obtain ⟨rfl, rfl, rfl⟩ := he
          rw [List.map_cons, ih h2]
        · cases h
      · cases h
    · cases h

/-- A value, a file change by an administrator, two more values, an overwrite, a deletion and a restart. -/
def exSeqNodeLife : List Event :=
  [.connect 5, .request 5 (exE 1) [str "AUTH", str "pw"], .connect 6, .request 6 (exE 1) [str "SET", [], str "one"],
    .request 5 (exE 2) [str "NSJUMP"], .request 6 (exE 3) [str "SET", [], str "two"],
    .request 6 (exE 4) [str "SET", [], str "three"], .request 6 (exE 5) [str "SET", sid 0, str "uno"],
    .request 6 (exE 6) [str "DEL", sid 1], .restart [], .connect 6]

theorem exSeq_reachable : Reachable exSeqS (exNode exSeqS) := ⟨_, [], ⟨1, rfl⟩, .nil _⟩

/-- Are the arguments small if they are ids? -/
def smallB : NsEvent → Bool
  | .cmd _ _ argv => argv.all (nearKeyB [])
  | _ => true

theorem smallB_near {es : List NsEvent} (h : es.all smallB = true) (m : Slots) : NearRun m es := by
  have hk : ∀ (argv : List Bytes) (m : Slots), argv.all (nearKeyB []) = true → ∀ k ∈ argv, NearKey m k := by
    intro argv m h k hk h8
    have := List.all_eq_true.1 h k hk
    simp [nearKeyB, h8] at this
    exact Or.inr this
  induction es generalizing m with
  | nil => trivial
  | cons e es ih =>
    rw [List.all_cons, Bool.and_eq_true] at h
    refine ⟨?_, ih h.2 _⟩
    cases e with
    | cmd c d argv =>
      have := hk argv m h.1
      cases d <;> first
        | exact fun k hk => this k (List.mem_of_mem_tail hk)
        | exact fun k hk => this k (List.mem_of_getElem? hk)
    | _ => trivial

/-- The execution `exSeqNodeLife` is a `SeqLife` whose keys are near. -/
theorem exSeqNodeLife_life : ∃ l tr n, SeqLife exSeqS 1 (exNode exSeqS) l tr n ∧ l.map (·.1) = exSeqNodeLife ∧ tr.length = 13 ∧
    NearRun [] (tr.map (·.1)) ∧ seqLifeB exSeqS 1 (exNode exSeqS) exSeqNodeLife = some (n, l, tr) := by
  have h : ((seqLifeB exSeqS 1 (exNode exSeqS) exSeqNodeLife).map
      (fun x => x.2.2.length == 13 && (x.2.2.map (·.1)).all smallB)) = some true := by decide +kernel
  obtain ⟨⟨n, l, tr⟩, hx, h⟩ := Option.map_eq_some_iff.1 h
  simp only [Bool.and_eq_true, beq_iff_eq] at h
  exact ⟨l, tr, n, seqLifeB_life (m := .seq) rfl exSeq_reachable.inv hx, seqLifeB_events hx, h.1, smallB_near h.2 [], hx⟩

end Zdb
