/-
C30: which command a request runs.
-/
import Verif.Props.Auth
namespace Zdb

theorem lower_zero (a : UInt8) : lower a = 0 ↔ a = 0 := by
  unfold lower
  constructor
  · intro h
    split at h
    · rename_i hh
      obtain ⟨h1, h2⟩ := hh
      have h1' : 65 ≤ a.toNat := by exact_mod_cast (UInt8.le_iff_toNat_le.1 h1)
      have h2' : a.toNat ≤ 90 := by exact_mod_cast (UInt8.le_iff_toNat_le.1 h2)
      have h3 : (a + 32).toNat = 0 := by rw [h]; rfl
      rw [UInt8.toNat_add] at h3
      have : (32 : UInt8).toNat = 32 := rfl
      omega
    · exact h
  · rintro rfl; rfl

theorem strnCaseEq_congr {a a' : Bytes} (h : a.map lower = a'.map lower) (b : Bytes) : strnCaseEq a b = strnCaseEq a' b := by
  induction a generalizing a' b with
  | nil => cases a' with
    | nil => rfl
    | cons y a' => simp at h
  | cons x a ih =>
    cases a' with
    | nil => simp at h
    | cons y a' =>
      simp only [List.map_cons, List.cons.injEq] at h
      cases b with
      | nil =>
        simp only [strnCaseEq]
        have : x = 0 ↔ y = 0 := by rw [← lower_zero x, ← lower_zero y, h.1]
        by_cases hx : x = 0
        · rw [hx, this.1 hx]
        · have hy : ¬ y = 0 := fun hy => hx (this.2 hy)
          rw [beq_eq_false_iff_ne.2 hx, beq_eq_false_iff_ne.2 hy]
      | cons z b => simp only [strnCaseEq, h.1, ih h.2]

theorem strnCaseEq_cstr {a b : Bytes} (hb : (0 : UInt8) ∉ b) (h : strnCaseEq a b = true) : (cstr a).map lower <+: b.map lower := by
  induction a generalizing b with
  | nil => simp [cstr]
  | cons x a ih =>
    by_cases hx : x = 0
    · subst hx; simp [cstr]
    · have hc : cstr (x :: a) = x :: cstr a := by unfold cstr; rw [List.takeWhile_cons_of_pos (by simpa using hx)]
      rw [hc]
      cases b with
      | nil => simp [strnCaseEq, hx] at h
      | cons y b =>
        simp only [strnCaseEq, Bool.and_eq_true, beq_iff_eq] at h
        simp only [List.map_cons, List.cons_prefix_cons]
        exact ⟨h.1, ih (fun hm => hb (List.mem_cons_of_mem _ hm)) h.2⟩

theorem lookup_names : ∀ i < handlers.length, lookupCmd ((handlers[i]?.map (·.1)).getD []) = some i := by
  decide +kernel

theorem handler_names_no_nul : ∀ x ∈ handlers, (0 : UInt8) ∉ x.1 := by decide +kernel

/-- The request names this command of the table: the word is its name, in any letter case. -/
def Names (word : Bytes) (i : Nat) (h : Handler) : Prop :=
  ∃ name, handlers[i]? = some (name, h) ∧ word.map lower = name.map lower

/-- C30: a request of a client in a namespace, whose first argument is the name of a command in any letter case, runs that
    command (here for clients that are not masters; the arguments of a master are preceded by a number). -/
theorem C30_name_runs_command {n : Node} {fd : Nat} {e : Env} {word : Bytes} {rest : List Bytes} {c : Client} {u i : Nat}
    {h : Handler} {S : Settings} (hn : Reachable S n) (hc : getClient n fd = some c) (hm : c.master = false) (hu : c.ns = some u)
    (hw : Names word i h) :
    ∃ p, pick n fd e (word :: rest) = some p ∧ p.h = h ∧ p.argv = word :: rest ∧ p.c = c ∧ p.r.uid = u ∧ lookupCmd word = some i := by
  obtain ⟨name, hi, hw⟩ := hw
  have hlt : i < handlers.length := by
    apply Classical.byContradiction
    intro hge
    rw [List.getElem?_eq_none (by omega)] at hi; exact absurd hi (by simp)
  have hl : lookupCmd word = some i := by
    have := lookup_names i hlt
    rw [hi] at this
    simp only [Option.map_some, Option.getD_some] at this
    unfold lookupCmd at this ⊢
    rw [← this]
    congr 1
    funext x
    exact strnCaseEq_congr hw x.1
  obtain ⟨r, hr, hru⟩ := hn.inv.attached fd c u hc hu
  have hd : ∃ r, nsDeref n u = some r := Option.isSome_iff_exists.1 (nsDeref_isSome.2 ⟨r, hr, hru⟩)
  obtain ⟨r', hr'⟩ := hd
  have hpop : popOwner e c (word :: rest) = some (e, word :: rest) := by simp [popOwner, hm]
  exact ⟨_, pick_of hc hpop hu rfl hl hr' hi, rfl, rfl, rfl, (nsDeref_some hr').2, hl⟩

/-- C30, for words that are not the beginning of a command name: the request is refused and changes nothing. -/
theorem C30_unknown_refused_partial {S : Settings} {n n' : Node} {fd : Nat} {e : Env} {word : Bytes} {rest : List Bytes}
    {sent : List (Nat × Msg)} {st : Status} (hs : request S n fd e (word :: rest) = .ok n' sent st) {c : Client}
    (hc : getClient n fd = some c) (hm : c.master = false)
    (hw : ∀ x ∈ handlers, ¬ (cstr word).map lower <+: x.1.map lower) : Refused n n' fd sent := by
  have hl : lookupCmd word = none := by
    unfold lookupCmd
    rw [List.findIdx?_eq_none_iff]
    intro x hx
    cases hq : strnCaseEq word x.1 with
    | false => rfl
    | true => exact absurd (strnCaseEq_cstr (handler_names_no_nul x hx) hq) (hw x hx)
  have hpop : popOwner e c (word :: rest) = some (e, word :: rest) := by simp [popOwner, hm]
  obtain ⟨c0, hc0, -, hcase⟩ := request_cases hs
  rw [hc] at hc0; injection hc0 with hc0; subst hc0
  rcases hcase with ⟨hp, -⟩ | ⟨e', argv', n1, c1, m, hp, hd, hn', hsent⟩
  · rw [hpop] at hp; exact absurd hp (by simp)
  · rw [hpop] at hp
    simp only [Option.some.injEq, Prod.mk.injEq] at hp
    obtain ⟨rfl, rfl⟩ := hp
    have hpost := post_rest e fd (putClient n1 fd (some c1)) c1
    have hme : getClient n' fd = some c1 := by rw [hn']; exact post_me _ _ _ _
    rcases dispatch_cases hd with ⟨hns, rfl, rfl, -, rfl⟩ | ⟨u, key, rest0, hu, ha, hcase⟩
    · exact ⟨⟨_, by rw [hsent]; rfl⟩, by rw [hn']; exact ⟨hpost.2.1, hpost.1, hpost.2.2⟩, c1, c1, hc, hme, rfl⟩
    · injection ha with ha1 ha2
      subst ha1
      rcases hcase with ⟨-, rfl, rfl, -, rfl⟩ | ⟨i, r, name, hh, hl', -⟩
      · exact ⟨⟨_, by rw [hsent]; rfl⟩, by rw [hn']; exact ⟨hpost.2.1, hpost.1, hpost.2.2⟩, c, _, hc, hme, rfl⟩
      · rw [hl] at hl'; exact absurd hl' (by simp)

set_option maxRecDepth 100000 in
/-- C30 as stated is false: `GE` is not a command, but runs GET; `s` runs SET; and `get` followed by a NUL and anything runs GET. -/
theorem C30_refuted : (∀ x ∈ handlers, x.1.map lower ≠ (str "GE").map lower) ∧ (∀ x ∈ handlers, x.1.map lower ≠ (str "s").map lower) ∧
    ranSent exS (exEvents ++ [.request 6 (exE 4) [str "GE", str "k"], .request 6 (exE 5) [str "s", str "k", str "w"],
      .request 6 (exE 6) [str "get" ++ [0, 120], str "k"]]) =
    ranSent exS exEvents ++ [[(6, .reply (.bulk (str "v")))], [(6, .reply (.bulk (str "k")))], [(6, .reply (.bulk (str "w")))]] :=
  ⟨by decide +kernel, by decide +kernel, rfl⟩

set_option maxRecDepth 100000 in
theorem C30_example : (∀ x ∈ handlers, ¬ (cstr (str "GETS")).map lower <+: x.1.map lower) ∧
    ranSent exS (exEvents ++ [.request 6 (exE 4) [str "gEt", str "k"], .request 6 (exE 5) [str "GETS", str "k"],
      .request 6 (exE 6) [str "pInG"]]) =
    ranSent exS exEvents ++ [[(6, .reply (.bulk (str "v")))], [(6, .reply (.err "Command not supported"))],
      [(6, .reply (.simple "PONG"))]] := ⟨by decide +kernel, rfl⟩

end Zdb
