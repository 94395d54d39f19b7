/-
One event of the node seen from one namespace.
-/
import Verif.Spec.NodeView
namespace Zdb

/-- Executions of one namespace made of one event of the node. -/
inductive Seg (cfg : Option Mode) (u : Nat) (br : Branches) (s : Store) :
    List (NsEvent × Reply) → Branches → Store → Prop where
  | cmd (c : Ctx) (d : DsCmd) (argv : List Bytes) (r : Reply) (br' : Branches) (s' : Store) (hu : c.u = u)
      (h : dsCommand c br s d argv = (br', s', r)) : Seg cfg u br s [(.cmd c d argv, r)] br' s'
  | foreign (br' : Branches) (h : SameTags u br br') : Seg cfg u br s [(.foreign, .nil)] br' s
  | reload (br' : Branches) (s' : Store) (h : reloadNs cfg br u s = .ok br' s') : Seg cfg u br s [(.reload, .ok)] br' s'
  | restart (br1 br2 br3 : Branches) (s' : Store) (h1 : SameTags u br br1) (h2 : reloadNs cfg br1 u s = .ok br2 s')
      (h3 : SameTags u br2 br3) : Seg cfg u br s [(.foreign, .nil), (.reload, .ok), (.foreign, .nil)] br3 s'

theorem Seg.nsRun {cfg : Option Mode} {u : Nat} {br br' br'' : Branches} {s s' s'' : Store} {tr tr' : List (NsEvent × Reply)}
    (h : Seg cfg u br s tr br' s') (hr : NsRun cfg u br' s' tr' br'' s'') : NsRun cfg u br s (tr ++ tr') br'' s'' := by
  cases h with
  | cmd c d argv r br' s' hu h => exact .cmd c d argv hu h hr
  | foreign br' h => exact .foreign (fun k => (h k).symm) hr
  | reload br' s' h => exact .reload h hr
  | restart br1 br2 br3 s' h1 h2 h3 =>
    exact .foreign (fun k => (h1 k).symm) (.reload h2 (.foreign (fun k => (h3 k).symm) hr))

theorem Seg.cleanRun {cfg : Option Mode} {u : Nat} {br br' br'' : Branches} {s s' s'' : Store} {tr tr' : List (NsEvent × Reply)}
    (h : Seg cfg u br s tr br' s') (hc : CleanStep s s')
    (hl : (.reload, .ok) ∈ tr → s.indexid = 0 ∨ 29 < fileLen s.ifiles s.indexid)
    (hr : CleanRun cfg u br' s' tr' br'' s'') : CleanRun cfg u br s (tr ++ tr') br'' s'' := by
  cases h with
  | cmd c d argv r br' s' hu h => exact .cmd c d argv hu h hc hr
  | foreign br' h => exact .foreign (fun k => (h k).symm) hr
  | reload br' s' h => exact .reload h (hl (by simp)) hr
  | restart br1 br2 br3 s' h1 h2 h3 =>
    exact .foreign (fun k => (h1 k).symm) (.reload h2 (hl (by simp)) (.foreign (fun k => (h3 k).symm) hr))

/-- `pick` and the dispatcher agree. -/
theorem pick_of {n : Node} {fd : Nat} {e e' : Env} {argv argv' : List Bytes} {c : Client} {r : NsRec} {u i : Nat}
    {key name : Bytes} {rest : List Bytes} {h : Handler} (hc : getClient n fd = some c)
    (hp : popOwner e c argv = some (e', argv')) (hu : c.ns = some u) (ha : argv' = key :: rest)
    (hl : lookupCmd key = some i) (hr : nsDeref n u = some r) (hh : handlers[i]? = some (name, h)) :
    pick n fd e argv = some ⟨c, r, h, e', argv'⟩ := by
  subst ha
  unfold pick
  simp only [hc, hp, hu, hl, hr, hh, Option.map_some]

theorem pick_some {n : Node} {fd : Nat} {e : Env} {argv : List Bytes} {p : Picked} (h : pick n fd e argv = some p) :
    getClient n fd = some p.c ∧ popOwner e p.c argv = some (p.e, p.argv) ∧ ∃ u key rest i name, p.c.ns = some u ∧
      p.argv = key :: rest ∧ lookupCmd key = some i ∧ nsDeref n u = some p.r ∧ handlers[i]? = some (name, p.h) := by
  unfold pick at h
  split at h
  · exact absurd h (by simp)
  · rename_i c hc
    split at h
    · rename_i e' key rest u hp hu
      split at h
      · rename_i i r hl hr
        cases hh : handlers[i]? with
        | none => rw [hh] at h; exact absurd h (by simp)
        | some x =>
          rw [hh, Option.map_some, Option.some.injEq] at h
          subst h
          exact ⟨hc, hp, u, key, rest, i, x.1, hu, rfl, hl, hr, hh⟩
      · exact absurd h (by simp)
    · exact absurd h (by simp)

theorem popOwner_uid {e e' : Env} {c : Client} {argv argv' : List Bytes} (hp : popOwner e c argv = some (e', argv')) :
    e'.uid = e.uid := by
  unfold popOwner at hp
  split at hp
  · split at hp
    · exact absurd hp (by simp)
    · split at hp
      · exact absurd hp (by simp)
      · simp only [Option.some.injEq, Prod.mk.injEq] at hp; rw [← hp.1]
  · simp only [Option.some.injEq, Prod.mk.injEq] at hp; rw [← hp.1]

/-- What a request does: nothing runs, or a handler does. -/
theorem request_pick {S : Settings} {n n' : Node} {fd : Nat} {e : Env} {argv : List Bytes} {sent : List (Nat × Msg)}
    {st : Status} (h : request S n fd e argv = .ok n' sent st) :
    (pick n fd e argv = none ∧ n'.br = n.br ∧ n'.slots = n.slots ∧ n'.effective = n.effective) ∨
    ∃ p n1 c1 m i, pick n fd e argv = some p ∧ runHandler S p.e n { p.c with executed := some i } p.r p.h p.argv = .done n1 c1 m st ∧
      n' = (post p.e fd (putClient n1 fd (some c1)) c1).1 ∧
      sent = m.toList.map (fun m => (fd, m)) ++ (post p.e fd (putClient n1 fd (some c1)) c1).2 := by
  obtain ⟨c, hc, -, hcase⟩ := request_cases h
  rcases hcase with ⟨hp, rfl, -, -⟩ | ⟨e', argv', n1, c1, m, hp, hd, rfl, hs⟩
  · left
    refine ⟨?_, rfl, rfl, rfl⟩
    unfold pick; simp only [hc, hp]
  · have hpost := post_rest e' fd (putClient n1 fd (some c1)) c1
    rcases dispatch_cases hd with ⟨hn, rfl, rfl, -, -⟩ | ⟨u, key, rest, hu, ha, hcase⟩
    · left
      refine ⟨?_, hpost.1, hpost.2.1, hpost.2.2⟩
      unfold pick; simp only [hc, hp, hn]
    · rcases hcase with ⟨hl, rfl, rfl, -, -⟩ | ⟨i, r, name, hh, hl, hr, hi, hrun⟩
      · left
        refine ⟨?_, hpost.1, hpost.2.1, hpost.2.2⟩
        unfold pick; simp only [hc, hp, hu, ha, hl]
      · right
        exact ⟨⟨c, r, hh, e', argv'⟩, n1, c1, m, i, pick_of hc hp hu ha hl hr hi, hrun, rfl, hs⟩

theorem nsDeref_congr {n n' : Node} (h : n'.slots = n.slots) (u : Nat) : nsDeref n' u = nsDeref n u := by
  unfold nsDeref; rw [h]

theorem replyOf_cons (fd : Nat) (r : Reply) (l : List (Nat × Msg)) :
    replyOf ((some (Msg.reply r)).toList.map (fun m => (fd, m)) ++ l) = r := rfl

/-- Reloading a namespace, seen from any namespace. -/
theorem seg_reload {S : Settings} {n : Node} {u : Nat} {x r r' : NsRec} {br : Branches} {s : Store}
    (hr : reloadNs S.cfg n.br x.uid x.store = .ok br s) (hx : x ∈ recs n) (hi : NodeInv S n) (hu : nsDeref n u = some r)
    (hu' : nsDeref (nsUpdate { n with br := br } x.uid (fun r => { r with store := s })) u = some r') :
    (x.uid = u → Seg S.cfg u n.br r.store [(.reload, .ok)] br r'.store) ∧
    (x.uid ≠ u → Seg S.cfg u n.br r.store [(.foreign, .nil)] br r'.store) := by
  rw [nsDeref_update _ _ _ (fun r => { r with store := s }) (fun _ => rfl), show nsDeref { n with br := br } u = nsDeref n u from rfl, hu] at hu'
  simp only [Option.map_some, Option.some.injEq] at hu'
  have hru := (nsDeref_some hu).2
  constructor
  · intro hxu
    have : r = x := uid_inj hi.uids (nsDeref_some hu).1 hx (hru.trans hxu.symm)
    subst this
    simp only [beq_self_eq_true, if_true] at hu'
    subst hu'
    rw [← hru]
    exact .reload _ _ hr
  · intro hxu
    have : (r.uid == x.uid) = false := by simp [hru, Ne.symm hxu]
    simp only [this] at hu'
    subst hu'
    exact .foreign _ (fun k => (reloadNs_only hr u k (Ne.symm hxu)).symm)

/-- A request seen from a namespace. -/
theorem seg_request {S : Settings} {n n' : Node} {fd : Nat} {e : Env} {argv : List Bytes} {sent : List (Nat × Msg)}
    {st : Status} (hi : NodeInv S n) (hg : Guard S n (.request fd e argv))
    (h : request S n fd e argv = .ok n' sent st) {u : Nat} {r r' : NsRec} (hu : nsDeref n u = some r) (hu' : nsDeref n' u = some r')
    (hsw : ∀ p, pick n fd e argv = some p → p.h = .nsset → r'.store = r.store) :
    Seg S.cfg u n.br r.store (view S u n sent (.request fd e argv)) n'.br r'.store := by
  have hru := (nsDeref_some hu).2
  rcases request_pick h with ⟨hp, h1, h2, -⟩ | ⟨p, n1, c1, m, i, hp, hrun, hn', hsent⟩
  · rw [nsDeref_congr h2, hu] at hu'
    injection hu' with hu'
    subst hu'
    simp only [view, hp, h1, viewRequest]
    exact .foreign _ (.refl _ _)
  · have hpost := post_rest p.e fd (putClient n1 fd (some c1)) c1
    have hbr : n'.br = n1.br := by rw [hn']; exact hpost.1
    have hder : nsDeref n' u = nsDeref n1 u := by rw [hn']; exact nsDeref_congr hpost.2.1 u
    rw [hder] at hu'
    rw [hbr]
    have hpr : p.r ∈ recs n := by
      obtain ⟨-, -, u0, _, _, _, _, -, -, -, hd, -⟩ := pick_some hp
      exact (nsDeref_some hd).1
    have hpu : p.e.uid = e.uid := by
      obtain ⟨-, hpo, -⟩ := pick_some hp
      exact popOwner_uid hpo
    have hsame : n1.slots = n.slots → SameTags u n.br n1.br → Seg S.cfg u n.br r.store [(.foreign, .nil)] n1.br r'.store := by
      intro h1 h2
      rw [nsDeref_congr h1, hu] at hu'; injection hu' with hu'; subst hu'
      exact .foreign _ h2
    have hsw := hsw p hp
    have he := runHandler_eff hrun
    simp only [view, hp]
    generalize hq : p.h = ph at he hsw
    cases he with
    | same h m hd hqm =>
      have : viewRequest S u n sent (some p) = (.foreign, .nil) := by
        unfold viewRequest
        simp only [hq]
        have hno : ((replyOf sent).isOk && asksReload n p u) = false := by
          by_cases ha : ph.acts = true
          · obtain ⟨s, rfl⟩ := hqm ha
            rw [hsent]; rfl
          · have : asksReload n p u = false := by
              unfold asksReload
              rw [hq]
              cases ph <;> first | rfl | exact absurd rfl ha
            rw [this, Bool.and_false]
        rw [hno]
        cases ph with
        | ds d => exact absurd rfl (hd d)
        | _ => rfl
      rw [this]
      exact hsame rfl (.refl _ _)
    | ds d br s rep hd hc =>
      have hrep : replyOf sent = rep := by rw [hsent]; rfl
      simp only [viewRequest, hq, hrep]
      rw [nsDeref_update _ _ _ (fun r => { r with store := s }) (fun _ => rfl),
        show nsDeref { n with br := br } u = nsDeref n u from rfl, hu] at hu'
      simp only [Option.map_some, Option.some.injEq] at hu'
      by_cases hpu : p.r.uid = u
      · rw [if_pos hpu]
        have : r = p.r := uid_inj hi.uids (nsDeref_some hu).1 hpr (hru.trans hpu.symm)
        subst this
        simp only [beq_self_eq_true, if_true] at hu'
        subst hu'
        exact .cmd _ _ _ _ _ _ hpu hd
      · rw [if_neg hpu]
        have : (r.uid == p.r.uid) = false := by simp [hru, Ne.symm hpu]
        simp only [this] at hu'
        subst hu'
        have ho := dsCommand_only (ctxOf S p.e { p.c with executed := some i } p.r) n.br p.r.store d p.argv
        rw [hd] at ho
        exact .foreign _ (fun k => (ho u k (Ne.symm hpu)).symm)
    | nsnew name br s ha hl hn hv hf h0 hk hs =>
      have : viewRequest S u n sent (some p) = (.foreign, .nil) := by
        unfold viewRequest asksReload
        simp only [hq, Bool.and_false]; rfl
      rw [this]
      have hne : ∀ x ∈ recs n, x.uid ≠ p.e.uid := by rw [hpu]; exact hg.1
      have hmem := (nsDeref_some hu').1
      have hmem := List.mem_cons.1 ((pushSlot_perm _ _).mem_iff.1 hmem)
      have huu := (nsDeref_some hu').2
      rw [freshNs_eq] at hs
      injection hs with hs1 hs2
      rcases hmem with hmem | hmem
      · exact absurd (by rw [hru, ← huu, hmem]) (hne r (nsDeref_some hu).1)
      · have : r' = r := uid_inj hi.uids hmem (nsDeref_some hu).1 (huu.trans hru.symm)
        rw [this]
        exact .foreign _ (by rw [← hs1]; exact .refl _ _)
    | nsdel name x ha hl hn hd hx hc =>
      have : viewRequest S u n sent (some p) = (.foreign, .nil) := by
        unfold viewRequest asksReload
        simp only [hq, Bool.and_false]; rfl
      rw [this]
      have hmem := (nsDeref_some hu').1
      have huu := (nsDeref_some hu').2
      have hmem : r' ∈ (kickSlot x.uid n.slots).filterMap id := hmem
      rw [kickSlot_filterMap] at hmem
      change r' ∈ (recs n).eraseP (fun r => r.uid == x.uid) at hmem
      rw [eraseP_uid hi.uids, List.mem_filter] at hmem
      have : r' = r := uid_inj hi.uids hmem.1 (nsDeref_some hu).1 (huu.trans hru.symm)
      have hxu : r'.uid ≠ x.uid := by simpa using hmem.2
      rw [this]
      refine .foreign _ (fun k => (cleanNs_only n.br x u k ?_).symm)
      rw [← huu]; exact hxu
    | nsset a b prop value target x y ha hargs hv hn hx hp =>
      have : viewRequest S u n sent (some p) = (.foreign, .nil) := by
        unfold viewRequest asksReload
        simp only [hq, Bool.and_false]; rfl
      rw [this, hsw rfl]
      exact .foreign _ (.refl _ _)
    | reload name x br s ha hl hn hx hr =>
      have hrep : replyOf sent = .ok := by rw [hsent]; rfl
      have hok : Reply.isOk .ok = true := by decide
      have hask : asksReload n p u = (x.uid == u) := by
        simp only [asksReload, hq, hn, hx, Option.any_some]
      have hseg := seg_reload hr (nsGet_some hx).1 hi hu hu'
      simp only [viewRequest, hq, hrep, hok, hask, Bool.true_and]
      by_cases hxu : x.uid = u
      · rw [if_pos (by simpa using hxu)]; exact hseg.1 hxu
      · rw [if_neg (by simpa using hxu)]; exact hseg.2 hxu
    | flush br s hp' hw hr' =>
      have hrep : replyOf sent = .ok := by rw [hsent]; rfl
      have hok : Reply.isOk .ok = true := by decide
      have hask : asksReload n p u = (p.r.uid == u) := by
        simp only [asksReload, hq]
      have hseg := seg_reload hr' hpr hi hu hu'
      simp only [viewRequest, hq, hrep, hok, hask, Bool.true_and]
      by_cases hxu : p.r.uid = u
      · rw [if_pos (by simpa using hxu)]; exact hseg.1 hxu
      · rw [if_neg (by simpa using hxu)]; exact hseg.2 hxu

/-- Stopping and starting, seen from a namespace. -/
theorem seg_restart {S : Settings} {n n' : Node} (hi : NodeInv S n) {order : List Nat} (hg : Guard S n (.restart order))
    (hr : restartNode S n order = some n') {u : Nat} {r r' : NsRec} (hu : nsDeref n u = some r) (hu' : nsDeref n' u = some r') :
    Seg S.cfg u n.br r.store [(.foreign, .nil), (.reload, .ok), (.foreign, .nil)] n'.br r'.store := by
  obtain ⟨-, -, hl⟩ := hi.restart hg hr
  obtain ⟨hrm, hru⟩ := nsDeref_some hu
  obtain ⟨d, hd, hdu, br1, br2, conf, h1, h2, h3, -, -⟩ := hl r' (nsDeref_some hu').1
  have : d = r := uid_inj hi.uids hd hrm (by rw [hru, ← (nsDeref_some hu').2, hdu])
  subst this
  rw [hru] at h1 h2 h3
  cases hm : d.store.mode with
  | user =>
    refine .restart (fun k => nsBranch n.br u k ++ br1 k) br2 _ _ ?_ ?_ (fun k => (h3 k).symm)
    · intro k
      change nsBranch n.br u k = (nsBranch n.br u k ++ br1 k).filter (fun e => e.ns == u)
      rw [List.filter_append]
      have h2k : (br1 k).filter (fun e => e.ns == u) = [] := h2 k
      rw [h2k, List.append_nil]
      unfold nsBranch
      rw [List.filter_filter]
      simp
    · unfold reloadNs
      simp only [hm]
      have : brClean (fun k => nsBranch n.br u k ++ br1 k) u = br1 := by
        funext k
        unfold brClean
        rw [List.filter_append]
        have ha : (nsBranch n.br u k).filter (fun e => !e.ns == u) = [] := by
          rw [List.filter_eq_nil_iff]
          intro e he
          have := (List.mem_filter.1 he).2
          simpa using this
        have hb : (br1 k).filter (fun e => !e.ns == u) = br1 k := by
          rw [List.filter_eq_self]
          intro e he
          simp only [Bool.not_eq_true', beq_eq_false_iff_ne, ne_eq]
          intro hh
          have : e ∈ nsBranch br1 u k := List.mem_filter.2 ⟨he, by simpa using hh⟩
          rw [h2 k] at this
          simp at this
        rw [ha, hb, List.nil_append]
      rw [this]; exact h1
  | seq =>
    refine .restart br1 br2 _ _ ?_ ?_ (fun k => (h3 k).symm)
    · intro k
      have := hi.seqs d hrm hm k
      rw [hru] at this
      rw [this, h2 k]
    · unfold reloadNs
      simp only [hm]
      exact h1

/-- One event of the node, seen from a namespace that exists before and after. -/
theorem seg_step {S : Settings} {n n' : Node} (hi : NodeInv S n) {ev : Event} {sent : List (Nat × Msg)} {st : Status}
    (hg : Guard S n ev) (hs : nodeStep S n ev = .ok n' sent st) {u : Nat} {r r' : NsRec} (hu : nsDeref n u = some r)
    (hu' : nsDeref n' u = some r') (hsw : ¬ Switches n u ev n') :
    Seg S.cfg u n.br r.store (view S u n sent ev) n'.br r'.store := by
  have hsame : n'.slots = n.slots → n'.br = n.br → Seg S.cfg u n.br r.store [(.foreign, .nil)] n'.br r'.store := by
    intro h1 h2
    rw [nsDeref_congr h1, hu] at hu'; injection hu' with hu'; subst hu'
    rw [h2]
    exact .foreign _ (.refl _ _)
  cases ev with
  | connect fd => simp only [nodeStep] at hs; injection hs with h1 _ _; subst h1; exact hsame rfl rfl
  | disconnect fd => simp only [nodeStep] at hs; injection hs with h1 _ _; subst h1; exact hsame rfl rfl
  | tick us => simp only [nodeStep] at hs; injection hs with h1 _ _; subst h1; exact hsame rfl rfl
  | request fd e argv =>
    refine seg_request hi hg hs hu hu' ?_
    intro p hp hh
    apply Classical.byContradiction
    intro hne
    exact hsw ⟨p, hp, hh, by simp only [storeOf, hu, hu', Option.map_some, ne_eq, Option.some.injEq]; exact hne⟩
  | rotate v =>
    simp only [nodeStep] at hs
    injection hs with h1 _ _
    subst h1
    have hru := (nsDeref_some hu).2
    rw [nsDeref_update _ _ _ (fun r => { r with store := jump r.store }) (fun _ => rfl), hu] at hu'
    simp only [Option.map_some, Option.some.injEq] at hu'
    simp only [view]
    by_cases hv : v = u
    · rw [if_pos hv]
      have : (r.uid == v) = true := by simp [hru, hv]
      simp only [this, if_true] at hu'
      subst hu'
      exact .cmd (rotateCtx S u) .nsjump _ .ok n.br _ rfl rfl
    · rw [if_neg hv]
      have : (r.uid == v) = false := by simp [hru, Ne.symm hv]
      simp only [this] at hu'
      subst hu'
      exact .foreign _ (.refl _ _)
  | restart order =>
    simp only [nodeStep] at hs
    cases hr : restartNode S n order with
    | none => rw [hr] at hs; exact absurd hs (by simp)
    | some n1 =>
      rw [hr] at hs
      injection hs with h1 _ _
      subst h1
      exact seg_restart hi hg hr hu hu'

end Zdb
