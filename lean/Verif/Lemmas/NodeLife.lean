/-
The life of one namespace among others.
-/
import Verif.Lemmas.NodeSeg
import Verif.Lemmas.UserRun
import Verif.Lemmas.SeqRun
namespace Zdb

theorem Started.inv {S : Settings} {n : Node} (h : Started S n) : NodeInv S n := by
  obtain ⟨u, h⟩ := h
  refine (boot_inv rfl (by simp) (by simp) ?_ h).1
  intro x hx
  simp only [List.mem_singleton] at hx
  subst hx
  refine ⟨⟨S.cfg.getD .user, ?_⟩, Or.inl rfl, Or.inl rfl⟩
  cases hc : S.cfg with
  | none => exact Or.inr ⟨rfl, by intro i f hi hf; simp at hf, Or.inl rfl⟩
  | some m => exact Or.inl rfl

theorem NodeRun.inv {S : Settings} {n n' : Node} {l : List (Event × List (Nat × Msg))} (h : NodeRun S n l n')
    (hi : NodeInv S n) : NodeInv S n' := by
  induction h with
  | nil => exact hi
  | cons hg hs _ ih => exact ih (hi.step hg hs)

theorem NodeRun.append {S : Settings} {n n1 n2 : Node} {l l' : List (Event × List (Nat × Msg))} (h : NodeRun S n l n1)
    (h' : NodeRun S n1 l' n2) : NodeRun S n (l ++ l') n2 := by
  induction h with
  | nil => exact h'
  | cons hg hs _ ih => exact .cons hg hs (ih h')

theorem Life.nodeRun {S : Settings} {u : Nat} {n n' : Node} {l : List (Event × List (Nat × Msg))} {tr : List (NsEvent × Reply)}
    (h : Life S u n l tr n') : NodeRun S n l n' := by
  induction h with
  | nil => exact .nil _
  | cons hu hg hf hs hw _ ih => exact .cons hg hs ih

theorem Life.ends {S : Settings} {u : Nat} {n n' : Node} {l : List (Event × List (Nat × Msg))} {tr : List (NsEvent × Reply)}
    (h : Life S u n l tr n') : (nsDeref n' u).isSome = true := by
  induction h with
  | nil n hu => exact hu
  | cons _ _ _ _ _ _ ih => exact ih

theorem Life.starts {S : Settings} {u : Nat} {n n' : Node} {l : List (Event × List (Nat × Msg))} {tr : List (NsEvent × Reply)}
    (h : Life S u n l tr n') : (nsDeref n u).isSome = true := by
  cases h with
  | nil n hu => exact hu
  | cons hu => exact hu

/-- A stretch of life is an execution of the namespace alone. -/
theorem Life.nsRun {S : Settings} {u : Nat} {n n' : Node} {l : List (Event × List (Nat × Msg))} {tr : List (NsEvent × Reply)}
    (h : Life S u n l tr n') (hi : NodeInv S n) : ∀ {r r' : NsRec}, nsDeref n u = some r → nsDeref n' u = some r' →
    NsRun S.cfg u n.br r.store tr n'.br r'.store := by
  induction h with
  | nil n hu => intro r r' h1 h2; rw [h1] at h2; injection h2 with h2; subst h2; exact .nil _ _
  | cons hu hg hf hs hw h ih =>
    intro r r' h1 h2
    obtain ⟨r1, hr1⟩ := Option.isSome_iff_exists.1 h.starts
    exact (seg_step hi hg hs h1 hr1 hw).nsRun (ih (hi.step hg hs) hr1 h2)

theorem lookup_nil : lookupCmd [] = some 0 := rfl

theorem pick_args {n : Node} {fd : Nat} {e : Env} {argv : List Bytes} {p : Picked} (h : pick n fd e argv = some p)
    {d : DsCmd} (hd : p.h = .ds d) (hl : ∀ b ∈ argv, b.length ≤ 2 ^ 23) : ArgsOK p.argv := by
  obtain ⟨-, hp, u, key, rest, i, name, -, ha, hk, -, hh⟩ := pick_some h
  refine ⟨⟨key, rest, ha, ?_⟩, ?_⟩
  · rintro rfl
    rw [lookup_nil] at hk
    injection hk with hk
    subst hk
    rw [mem_handlers_star] at hh
    simp only [Option.some.injEq, Prod.mk.injEq] at hh
    rw [hd] at hh
    exact absurd hh.2 (by simp)
  · unfold popOwner at hp
    split at hp
    · split at hp
      · exact absurd hp (by simp)
      · split at hp
        · exact absurd hp (by simp)
        · simp only [Option.some.injEq, Prod.mk.injEq] at hp
          rw [← hp.2]
          exact fun b hb => hl b (List.dropLast_subset _ hb)
    · simp only [Option.some.injEq, Prod.mk.injEq] at hp
      rw [← hp.2]; exact hl

theorem popOwner_io {e e' : Env} {c : Client} {argv argv' : List Bytes} (hp : popOwner e c argv = some (e', argv')) :
    e'.io = e.io := by
  unfold popOwner at hp
  split at hp
  · split at hp
    · exact absurd hp (by simp)
    · split at hp
      · exact absurd hp (by simp)
      · simp only [Option.some.injEq, Prod.mk.injEq] at hp; rw [← hp.1]
  · simp only [Option.some.injEq, Prod.mk.injEq] at hp; rw [← hp.1]

theorem view_ok {S : Settings} {n : Node} {u : Nat} {ev : Event} {sent : List (Nat × Msg)} (hlim : S.limit ≤ 2 ^ 31)
    (hi : NodeInv S n) (hf : Fair n u ev) : ∀ x ∈ view S u n sent ev, EvOK x.1 := by
  intro x hx
  cases ev with
  | request fd e argv =>
    simp only [view, List.mem_singleton] at hx
    subst hx
    unfold viewRequest
    cases hp : pick n fd e argv with
    | none => trivial
    | some p =>
      simp only
      cases hh : p.h with
      | ds d =>
        simp only
        split
        · rename_i hu
          obtain ⟨-, hpo, u0, key, rest, i, name, -, -, -, hd, -⟩ := pick_some hp
          obtain ⟨f1, f2, f3⟩ := hf
          have hpr : nsDeref n u = some p.r := by rw [← hu]; exact nsDeref_mem hi.uids (nsDeref_some hd).1
          have hio := popOwner_io hpo
          refine ⟨⟨?_, ?_, ?_, hlim, f3 _ hpr⟩, pick_args hp hh f2⟩
          · simp only [ctxOf, hio]; exact f1.1
          · simp only [ctxOf, hio]; exact f1.2.1
          · simp only [ctxOf, hio]; exact f1.2.2
        · trivial
      | _ => simp only; split <;> trivial
  | rotate v =>
    simp only [view, List.mem_singleton] at hx
    subst hx
    split
    · refine ⟨⟨rfl, rfl, rfl, hlim, Nat.two_pow_pos 63⟩, ⟨_, _, rfl, by simp⟩, ?_⟩
      intro b hb
      simp only [List.mem_singleton] at hb
      subst hb
      decide
    · trivial
  | restart order =>
    simp only [view, List.mem_cons, List.not_mem_nil, or_false] at hx
    rcases hx with rfl | rfl | rfl <;> trivial
  | connect fd => simp only [view, List.mem_singleton] at hx; subst hx; trivial
  | disconnect fd => simp only [view, List.mem_singleton] at hx; subst hx; trivial
  | tick us => simp only [view, List.mem_singleton] at hx; subst hx; trivial

theorem Life.ok {S : Settings} {u : Nat} {n n' : Node} {l : List (Event × List (Nat × Msg))} {tr : List (NsEvent × Reply)}
    (h : Life S u n l tr n') (hi : NodeInv S n) (hlim : S.limit ≤ 2 ^ 31) : ∀ x ∈ tr, EvOK x.1 := by
  induction h with
  | nil => simp
  | cons hu hg hf hs hw h ih =>
    intro x hx
    rcases List.mem_append.1 hx with hx | hx
    · exact view_ok hlim hi hf x hx
    · exact ih (hi.step hg hs) x hx

/-- The life of a user-key namespace from its creation on is one of the executions the theorems on namespaces are
    about. -/
theorem Life.userRun {S : Settings} {u : Nat} {n n' : Node} {l : List (Event × List (Nat × Msg))} {tr : List (NsEvent × Reply)}
    (h : Life S u n l tr n') (hi : NodeInv S n) (hlim : S.limit ≤ 2 ^ 31) (hcfg : S.cfg = none ∨ S.cfg = some .user)
    (h0 : storeOf n u = some (freshStore .user)) (hlen : tr.length ≤ maxEvents) {s' : Store} (h1 : storeOf n' u = some s') :
    UserRun S.cfg u tr n'.br s' := by
  unfold storeOf at h0 h1
  obtain ⟨r, hr, hr0⟩ := Option.map_eq_some_iff.1 h0
  obtain ⟨r', hr', hr0'⟩ := Option.map_eq_some_iff.1 h1
  have hrun := h.nsRun hi hr hr'
  rw [hr0, hr0'] at hrun
  refine ⟨hcfg, ⟨n.br, n.br, freshStore .user, ?_, ?_, hrun⟩, h.ok hi hlim, hlen⟩
  · obtain ⟨h2, h3⟩ := nsDeref_some hr
    intro k
    rw [← h3]
    exact hi.used r h2 (by rw [hr0]; rfl) k
  · rw [freshNs_eq]
    rcases hcfg with hc | hc <;> rw [hc] <;> rfl

/-! ### sequential namespaces -/

theorem SeqLife.life {S : Settings} {u : Nat} {n n' : Node} {l : List (Event × List (Nat × Msg))} {tr : List (NsEvent × Reply)}
    (h : SeqLife S u n l tr n') : Life S u n l tr n' := by
  induction h with
  | nil n hu => exact .nil n hu
  | cons hu hg hf hs hw hc hl _ ih => exact .cons hu hg hf hs hw ih

theorem SeqLife.cleanRun {S : Settings} {u : Nat} {n n' : Node} {l : List (Event × List (Nat × Msg))} {tr : List (NsEvent × Reply)}
    (h : SeqLife S u n l tr n') (hi : NodeInv S n) : ∀ {r r' : NsRec}, nsDeref n u = some r → nsDeref n' u = some r' →
    CleanRun S.cfg u n.br r.store tr n'.br r'.store := by
  induction h with
  | nil n hu => intro r r' h1 h2; rw [h1] at h2; injection h2 with h2; subst h2; exact .nil _ _
  | @cons n n1 n2 ev sent st l tr hu hg hf hs hw hc hl h ih =>
    intro r r' h1 h2
    obtain ⟨r1, hr1⟩ := Option.isSome_iff_exists.1 h.life.starts
    have e1 : storeOf n u = some r.store := by unfold storeOf; rw [h1]; rfl
    have e2 : storeOf n1 u = some r1.store := by unfold storeOf; rw [hr1]; rfl
    exact (seg_step hi hg hs h1 hr1 hw).cleanRun (hc _ _ e1 e2) (fun hm => hl hm _ e1) (ih (hi.step hg hs) hr1 h2)

/-- The life of a sequential namespace from its creation, or its change of mode, on. -/
theorem SeqLife.seqRun {S : Settings} {u : Nat} {n n' : Node} {l : List (Event × List (Nat × Msg))} {tr : List (NsEvent × Reply)}
    (h : SeqLife S u n l tr n') (hi : NodeInv S n) (hlim : S.limit ≤ 2 ^ 31) (hcfg : S.cfg = none ∨ S.cfg = some .seq)
    (h0 : storeOf n u = some (freshStore .seq)) (hnear : NearRun [] (tr.map (·.1))) (hlen : tr.length ≤ maxEvents)
    {s' : Store} (h1 : storeOf n' u = some s') : SeqRun S.cfg u tr n'.br s' := by
  unfold storeOf at h0 h1
  obtain ⟨r, hr, hr0⟩ := Option.map_eq_some_iff.1 h0
  obtain ⟨r', hr', hr0'⟩ := Option.map_eq_some_iff.1 h1
  have hrun := h.cleanRun hi hr hr'
  rw [hr0, hr0'] at hrun
  refine ⟨⟨n.br, freshStore .seq, ?_, hrun⟩, h.life.ok hi hlim, hnear, hlen⟩
  rcases hcfg with hc | hc
  · rw [hc]
    exact Or.inr ⟨rfl, n.br, freshStore .user, freshNs_eq none _ u, setMode_fresh.symm⟩
  · rw [hc]
    exact Or.inl ⟨rfl, n.br, freshNs_eq (some .seq) _ u⟩

/-! ### births -/

/-- A namespace just created is empty, in the mode of the process, and known under its address. -/
theorem born_new {S : Settings} {n n' : Node} (hi : NodeInv S n) {fd : Nat} {e : Env} {argv : List Bytes}
    {sent : List (Nat × Msg)} {st : Status} (hg : Guard S n (.request fd e argv))
    (hs : request S n fd e argv = .ok n' sent st) {p : Picked} (hp : pick n fd e argv = some p) (hh : p.h = .nsnew)
    (hok : replyOf sent = .ok) : storeOf n' e.uid = some (freshStore (S.cfg.getD .user)) := by
  rcases request_pick hs with ⟨hp', -⟩ | ⟨p', n1, c1, m, i, hp', hrun, hn', hsent⟩
  · rw [hp'] at hp; exact absurd hp (by simp)
  · rw [hp'] at hp
    injection hp with hp
    subst hp
    have hpost := post_rest p'.e fd (putClient n1 fd (some c1)) c1
    have hder : storeOf n' e.uid = storeOf n1 e.uid := by
      unfold storeOf; rw [hn']; rw [nsDeref_congr hpost.2.1]; rfl
    rw [hder]
    have he := runHandler_eff hrun
    have hpu : p'.e.uid = e.uid := popOwner_uid (pick_some hp').2.1
    rw [hh] at he
    cases he with
    | same h m hd hq =>
      obtain ⟨s, rfl⟩ := hq rfl
      rw [hsent] at hok
      exact absurd hok (by simp [replyOf, errMsg, Reply.ok])
    | nsnew name br s ha hl hn hv hf h0 hk hs =>
      rw [freshNs_eq] at hs
      injection hs with hs1 hs2
      unfold storeOf nsDeref
      simp only
      rw [hpu]
      have hne : ∀ x ∈ recs n, x.uid ≠ e.uid := hg.1
      have hfind : ((pushSlot { uid := e.uid, conf := defaultConf name, store := s, desc := encDesc (defaultConf name) } n.slots).filterMap
          id).find? (fun r => r.uid == e.uid) = some { uid := e.uid, conf := defaultConf name, store := s, desc := encDesc (defaultConf name) } := by
        have hperm := pushSlot_perm { uid := e.uid, conf := defaultConf name, store := s, desc := encDesc (defaultConf name) } n.slots
        refine find_unique (r := { uid := e.uid, conf := defaultConf name, store := s, desc := encDesc (defaultConf name) }) ?_
          (hperm.mem_iff.2 (List.mem_cons_self ..))
        rw [(hperm.map _).nodup_iff, List.map_cons, List.nodup_cons]
        refine ⟨?_, hi.uids⟩
        intro hm
        obtain ⟨x, hx, hxu⟩ := List.mem_map.1 hm
        exact hne x hx hxu
      rw [hfind, ← hs2]; rfl

/-- The default namespace of a process started for the first time. -/
theorem born_default {S : Settings} {n : Node} (h : Started S n) :
    ∃ u, storeOf n u = some (freshStore (S.cfg.getD .user)) := by
  obtain ⟨u, h⟩ := h
  refine ⟨u, ?_⟩
  unfold boot at h
  simp only [loadDirs] at h
  have hd : loadDesc nameDefault [] = some (defaultConf nameDefault, encDesc (defaultConf nameDefault)) := rfl
  have hl : loadNs S.cfg (fun _ => []) u [] [] = .ok (fun _ => []) (freshStore (S.cfg.getD .user)) := freshNs_eq S.cfg (fun _ => []) u
  rw [hd] at h
  simp only [hl] at h
  injection h with h
  rw [← h]
  simp [storeOf, nsDeref]

end Zdb
