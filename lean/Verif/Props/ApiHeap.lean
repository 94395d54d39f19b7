/-
C80: memory of a program that uses the library: the replies of `zdb_api_*`.
-/
import Verif.Lemmas.ApiHeap
import Verif.Props.Heap
namespace Zdb.Heap

theorem CalmLib.nodup {l : Level} {s : Srv} {rs : List ApiRep} {M : Mem} (h : CalmLib l (s, rs) M) :
    (libBlocks s rs).Nodup := by
  refine List.nodup_iff_count.2 fun b => ?_
  have := h.1.le b
  rw [libBlocks, List.count_append]
  exact this

theorem CalmLib.live_iff {l : Level} {s : Srv} {rs : List ApiRep} {M : Mem} (h : CalmLib l (s, rs) M) (b : Nat) :
    M b = .live ↔ b ∈ libBlocks s rs := by
  have := (h.1 b).1
  rw [show (srvO s + repsO rs) b = (libBlocks s rs).count b from (List.count_append ..).symm] at this
  rw [← List.count_pos_iff]
  split at this
  · next e => simp [e, this]
  · next e => simp [e, this]

/-- **C80.** For a program that uses the library, whatever it calls, in whatever order it looks at replies and gives them
    back, and whatever files and clock do: no NULL pointer and no pointer to a block that is gone is followed, and nothing
    is freed twice, also when a reply is looked at long after later calls. No two replies share a block, none shares one
    with the library, and what is alive is what the library and the replies not given back hold. -/
theorem C80_owned (l : Level) (as : List ApiAct) (r : Res (Srv × List ApiRep)) (h : Exec l (useLib as) blank r) :
    r ≠ .bad ∧ ∀ s rs M, r = .done (s, rs) M → (libBlocks s rs).Nodup ∧ ∀ b, M b = .live ↔ b ∈ libBlocks s rs := by
  have hw : wp l (useLib as) (CalmLib l) blank := wp_call wp_start fun s M hs => wp_runActs as s [] M (.of hs)
  rcases wp_sound h hw with rfl | ⟨⟨s, rs⟩, M, rfl, hc⟩
  · exact ⟨fun e => (nomatch e), fun s rs M e => (nomatch e)⟩
  · refine ⟨fun e => (nomatch e), fun s' rs' M' e => ?_⟩
    cases e
    exact ⟨hc.nodup, hc.live_iff⟩

/-- **C80**, unlike SET of the server (`C71_set_leak_refuted`): from any state, the calls of the library forget no
    block. -/
theorem C80_forgets_nothing (l : Level) (as : List ApiAct) (s : Srv) (rs : List ApiRep) (M : Mem) (s' : Srv)
    (rs' : List ApiRep) (M' : Mem) (h : Exec l (runActs as s rs) M (.done (s', rs') M')) (hM : ∀ b, M b ≠ .lost) :
    ∀ b, M' b ≠ .lost := by
  intro b hb
  exact hM b (NoLose.kept h (nl_runActs as s rs) _ _ rfl b hb)

/-- **C80**, the end: when the program gives every reply back and closes the library, nothing is alive, and memory is as
    at the start where opening has forgotten nothing. -/
theorem C80_all_back (l : Level) (as : List ApiAct) (r : Res Unit) (h : Exec l (lifeLib as) blank r) :
    r ≠ .bad ∧ ∀ M, r = .done () M → (∀ b, M b ≠ .live) ∧ (l = .clean → M = blank) := by
  have hw : wp l (lifeLib as) (fun _ M => Holds l (cnt []) M) blank :=
    wp_call wp_start fun s M hs => wp_call (wp_runActs as s [] M (.of hs)) fun r M hr =>
      wp_eachFree (o := srvO r.1) (fun M h => wp_stop ⟨h, hr.2⟩) r.2 M hr.1
  rcases wp_sound h hw with rfl | ⟨_, M, rfl, hc⟩
  · exact ⟨fun e => (nomatch e), fun M e => (nomatch e)⟩
  · refine ⟨fun e => (nomatch e), fun M' e => ?_⟩
    cases e
    have hn : ∀ b, M b ≠ .live := by
      intro b hb
      have := (hc b).1
      simp [hb, cnt] at this
    refine ⟨hn, fun e => ?_⟩
    funext b
    have h2 := (hc b).2 e
    cases hb : M b with
    | gone => rfl
    | live => exact absurd hb (hn b)
    | lost => exact absurd hb h2

/-! ### runs -/

/-- Answers for a call of `zdb_api_set` that writes a new key. -/
def ansApiSet : List Nat := [1, 1, 0, 1, 0, 0, 1, 1, 1]
/-- Answers for a call of `zdb_api_set` with the value the key has, and of one with no room left. -/
def ansApiSame : List Nat := [1, 1, 1, 1, 0, 1] ++ [1, 1, 1, 0]
/-- Answers for a call of `zdb_api_get` of the key. -/
def ansApiGet : List Nat := [1, 1, 0, 1, 1]
/-- A program sets a key, sets it again to the same value and once more without room, gets it, gives the reply of the
    first SET back and looks at the others. -/
def libActs : List ApiAct := [.call .set, .call .set, .call .set, .call .get, .release 0, .look 0, .look 1, .look 2]

/-- A run that meets the hypotheses: three replies are held, with one, two and four blocks. -/
theorem exLib_run : ∃ s rs M, Exec .clean (useLib libActs) blank (.done (s, rs) M) ∧
    rs.map (·.blocks.length) = [1, 2, 4] ∧ (libBlocks s rs).length = s.blocks.length + 7 := by
  obtain ⟨⟨s, rs⟩, σ, h, hp⟩ := sees_exec (l := .clean) (p := useLib libActs)
    (as := ansStart ++ ansApiSet ++ ansApiSame ++ ansApiGet)
    (P := fun r _ => decide (r.2.map (·.blocks.length) = [1, 2, 4]) &&
      (libBlocks r.1 r.2).length == r.1.blocks.length + 7) (by decide +kernel)
  simp only [Bool.and_eq_true, beq_iff_eq, decide_eq_true_eq] at hp
  exact ⟨s, rs, _, h, hp.1, hp.2⟩

/-- A run to the end. -/
theorem exLib_life : Exec .clean (lifeLib libActs) blank (.done () blank) := by
  obtain ⟨_, σ, h, _⟩ := sees_exec (l := .clean) (p := lifeLib libActs)
    (as := ansStart ++ ansApiSet ++ ansApiSame ++ ansApiGet) (P := fun _ _ => true) (by decide +kernel)
  rw [((C80_all_back .clean _ _ h).2 _ rfl).2 rfl] at h
  exact h

end Zdb.Heap
