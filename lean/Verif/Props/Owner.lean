/-
C62: the requests of masters.
-/
import Verif.Lemmas.Editor
import Verif.Props.Answers
namespace Zdb.Server

theorem cstr_digits (n : Nat) : cstr (Resp.digits n) = Resp.digits n := by
  unfold cstr
  have h : ∀ l : Bytes, (∀ b ∈ l, b ≠ 0) → l.takeWhile (· != 0) = l := by
    intro l
    induction l with
    | nil => intro _; rfl
    | cons b l ih =>
      intro h
      rw [List.takeWhile_cons_of_pos (by simpa using h b (List.mem_cons_self ..)), ih (fun b hb => h b (List.mem_cons_of_mem _ hb))]
  apply h
  intro b hb h0
  have := Resp.digits_range n b hb
  subst h0
  exact absurd this.1 (by decide)

theorem strtoul_digits {n : Nat} (hn : n < 2 ^ 64) : strtoul (Resp.digits n) = n := by
  obtain ⟨d, ds, h1, h2, h3⟩ := Resp.digits_head n
  have hsk : atollSkip (Resp.digits n) = Resp.digits n := by
    rw [h1, atollSkip, if_neg]
    rintro (h | h)
    · subst h; exact absurd h2 (by decide)
    · exact absurd (UInt8.le_trans h2 h.2) (by decide)
  have h45 : d ≠ 45 := fun h => by subst h; exact absurd h2 (by decide)
  have h43 : d ≠ 43 := fun h => by subst h; exact absurd h2 (by decide)
  unfold strtoul
  rw [hsk]
  have : (min n (2 ^ 64 - 1) : Nat) = n := by omega
  split
  · rename_i h; rw [h1] at h; injection h with h _; exact absurd h h45
  · rename_i h; rw [h1] at h; injection h with h _; exact absurd h h43
  · rw [Resp.atollDigits_digits, this]

/-- C62, masters: whatever the state, the request of a master whose last argument is longer than 32 bytes is not answered, and
    nothing changes.  Otherwise it is executed without that argument, with the number in it as owner, and the answer of the
    command is what the master is sent first, unless the process crashes afterwards (`mirrorCrash`). -/
theorem C62_master {S : Settings} {n : Node} {fd : Nat} {c : Client} (hc : getClient n fd = some c) (hm : c.master = true) (e : Env)
    (argv : List Bytes) (o : Bytes) :
    (32 < o.length → request S n fd e (argv ++ [o]) = .ok n [] .keep) ∧
    (o.length ≤ 32 → ∃ k, k < 2 ^ 32 ∧ (∀ j, j < 2 ^ 32 → o = Resp.digits j → k = j) ∧
      ∀ n1 c1 m st, dispatch S { e with owner := k } n c argv = .done n1 c1 m st →
        request S n fd e (argv ++ [o]) = .crash ∨
        ∃ n2 l, request S n fd e (argv ++ [o]) = .ok n2 (m.toList.map (fun m => (fd, m)) ++ l) st) := by
  have hne : argv ++ [o] ≠ [] := by simp
  constructor
  · intro h
    unfold request
    simp only [hc]
    rw [if_neg hne]
    simp only [popOwner, hm, if_true, List.getLast?_concat, gt_iff_lt, h]
  · intro h
    refine ⟨strtoul (cstr o) % 2 ^ 32, Nat.mod_lt _ (by decide), ?_, ?_⟩
    · intro j hj ho
      rw [ho, cstr_digits, strtoul_digits (by omega), Nat.mod_eq_of_lt hj]
    · intro n1 c1 m st hd
      have hp : popOwner e c (argv ++ [o]) = some ({ e with owner := strtoul (cstr o) % 2 ^ 32 }, argv) := by
        have : ¬ o.length > 32 := by omega
        simp only [popOwner, hm, if_true, List.getLast?_concat, this, if_false, List.dropLast_concat]
      unfold request
      simp only [hc, hp, hd]
      rw [if_neg hne]
      split
      · exact .inl rfl
      · exact .inr ⟨_, _, rfl⟩

/-- Client 5 becomes a master and sends a SET with an owner of 32 digits, and one with the owner 12. -/
def exOwners : List Event := exEvents ++
  [.request 5 (exE 4) [str "MASTER"], .request 5 (exE 5) [str "SET", str "k", str "w", List.replicate 32 49],
   .request 5 (exE 6) [str "SET", str "l", str "w", str "12"], .request 5 (exE 7) [str "GET", str "l", str "18446744073709551615"]]

set_option maxRecDepth 100000 in
/-- A case: these requests are executed and answered. -/
theorem C62_master_example : NodeRun exS (exNode exS) (exLog exOwners) (ranNode exS exOwners) ∧
    (getClient (ranNode exS exOwners) 5).map (·.master) = some true ∧
    (toldTo 5 (since 5 (exLog exOwners))).drop 2 =
      [.reply (.simple "Hello, master"), .reply (.bulk (str "k")), .reply (.bulk (str "l")), .reply (.bulk (str "w"))] :=
  ⟨exLog_run (by decide +kernel), by decide +kernel, rfl⟩

end Zdb.Server
