/-
KEYCUR and KSCAN in a user-key namespace.
-/
import Verif.Lemmas.ScanSession
namespace Zdb

theorem notFrozen {conf : NsConf} (h : conf.lock ≠ .frozen) : conf.isFrozen = false := by
  rw [NsConf.isFrozen]
  cases hl : conf.lock <;> simp_all

/-! ### KEYCUR -/

theorem key8_eq {k : Bytes} (h : k.length ≤ 255) : key8 k = k := by
  rw [key8, Nat.mod_eq_of_lt (by omega), List.take_length]

/-- KEYCUR gives the cursor of the live record of the key. -/
theorem UInv.keycur {br : Branches} {s : Store} {G : Log} {c : Ctx} (h : UInv br c.u s G)
    {n k b : Bytes} (hk : k.length ≤ 255) (hr : cmdKeycur c br s [n, k] = .bulk b) :
    ∃ l, liveGet G k = some l ∧ b = cursorOf l.scanned := by
  rw [cmdKeycur] at hr
  cases hv : argsValidate [n, k] 2 with
  | some e =>
    simp only [hv] at hr
    subst hr
    exfalso
    simp only [argsValidate] at hv
    split at hv
    · cases hv
    · split at hv <;> simp [errArgs, errArg] at hv
  | none =>
    simp only [hv, key8_eq hk, h.indexGet] at hr
    cases hf : c.conf.isFrozen with
    | true => simp [hf, errFrozen] at hr
    | false =>
      simp only [hf] at hr
      cases hg : liveGet G k with
      | none => simp [hg] at hr
      | some l =>
        simp only [hg, Option.map_some] at hr
        have hw := (h.recs l (live_mem (liveGet_some hg).1)).wf
        refine ⟨l, rfl, ?_⟩
        simp at hr
        rw [← hr, cursorOf]
        simp only [Loc.entry, Loc.scanned, hw.1]

/-! ### KSCAN -/

theorem flatMap_filter_perm {α : Type} (f : α → Nat) (L : List α) (N : Nat) :
    ((List.range N).flatMap (fun h => L.filter (fun x => f x == h))).Perm (L.filter (fun x => decide (f x < N))) := by
  induction N with
  | zero => simp
  | succ N ih =>
    rw [List.range_succ, List.flatMap_append]
    refine (ih.append_right _).trans ?_
    simp only [List.flatMap_cons, List.flatMap_nil, List.append_nil]
    clear ih
    induction L with
    | nil => simp
    | cons x L ih =>
      rcases Nat.lt_trichotomy (f x) N with h | h | h
      · have h1 : ¬ f x = N := by omega
        have h2 : f x < N + 1 := by omega
        simpa [h, h1, h2] using ih
      · have h1 : ¬ f x < N := by omega
        have h2 : f x < N + 1 := by omega
        have e1 : (x :: L).filter (fun x => decide (f x < N)) = L.filter (fun x => decide (f x < N)) := by
          simp [h1]
        have e2 : (x :: L).filter (fun x => f x == N) = x :: L.filter (fun x => f x == N) := by
          simp [h]
        have e3 : (x :: L).filter (fun x => decide (f x < N + 1)) = x :: L.filter (fun x => decide (f x < N + 1)) := by
          simp [h2]
        rw [e1, e2, e3]
        exact (List.perm_middle).trans (ih.cons x)
      · have h1 : ¬ f x = N := by omega
        have h2 : ¬ f x < N + 1 := by omega
        have h3 : ¬ f x < N := by omega
        simpa [h1, h2, h3] using ih

theorem flatMap_perm {α β : Type} (L : List α) (f g : α → List β) (h : ∀ x ∈ L, (f x).Perm (g x)) :
    (L.flatMap f).Perm (L.flatMap g) := by
  induction L with
  | nil => simp
  | cons x L ih =>
    simp only [List.flatMap_cons]
    exact (h x (by simp)).append (ih (fun y hy => h y (by simp [hy])))

theorem keyHash_lt (id : Bytes) : keyHash id < 2 ^ 24 := by
  rw [keyHash, Nat.and_two_pow_sub_one_eq_mod]
  exact Nat.mod_lt _ (by decide)

theorem UInv.kscanSel {br : Branches} {u : Nat} {s : Store} {G : Log} (h : UInv br u s G) (key : Bytes) :
    ((Zdb.kscanSel br u buckets key).map Entry.id).Perm
      (((absKV G).filter (fun x => key.isPrefixOf x.1)).map (·.1)) := by
  have hN : ∀ l : Loc, keyHash l.id < 2 ^ 24 := fun l => keyHash_lt _
  have hb : buckets = 2 ^ 24 := by unfold buckets; rfl
  rw [← hb] at hN
  generalize buckets = N at hN ⊢
  have h1 : (Zdb.kscanSel br u N key).Perm
      ((List.range N).flatMap fun i => ((live G).filter (fun l => key.isPrefixOf l.id)).filter
        (fun l => keyHash l.id == i) |>.map (Loc.entry u)) := by
    apply flatMap_perm
    intro i _
    have := (h.brs i).filter (fun e => key.isPrefixOf e.id)
    rw [nsBranch, List.filter_filter] at this
    have e1 : (br i).filter (fun e => e.ns == u && key.isPrefixOf e.id) =
        (br i).filter (fun a => key.isPrefixOf a.id && a.ns == u) :=
      List.filter_congr (fun x _ => Bool.and_comm _ _)
    rw [e1]
    refine this.trans ?_
    rw [ents, List.filter_map, List.filter_filter, List.filter_filter]
    have e2 : (live G).filter (fun l => ((fun e : Entry => key.isPrefixOf e.id) ∘ Loc.entry u) l && keyHash l.id == i) =
        (live G).filter (fun l => keyHash l.id == i && key.isPrefixOf l.id) :=
      List.filter_congr (fun x _ => Bool.and_comm _ _)
    rw [e2]
  refine (h1.map Entry.id).trans ?_
  rw [← List.map_flatMap, List.map_map]
  have h2 := flatMap_filter_perm (fun l => keyHash l.id) ((live G).filter (fun l => key.isPrefixOf l.id)) N
  refine (h2.map _).trans ?_
  rw [List.filter_eq_self.2 (by intro l _; simpa using hN l), absKV, List.filter_map, List.map_map]
  exact .refl _

end Zdb
