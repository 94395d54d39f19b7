/-
C83: nothing clients are sent depends on the password of a namespace.
-/
import Verif.Lemmas.Secret
import Verif.Props.Namespaces
import Verif.Props.Access
namespace Zdb

variable {S : Settings} {u : Nat} {q d : Bytes} {n n1 : Node}

theorem dispatch_repass {fd : Nat} {e e' : Env} {argv argv' : List Bytes} {c : Client} (hi : NodeInv S n) (he : e'.uid ≠ u)
    (hq : Untold S u n (repass u q d n) (.request fd e argv)) (hc : getClient n fd = some c) (hp : popOwner e c argv = some (e', argv')) :
    ∃ q' d', dispatch S e' (repass u q d n) c argv' = (dispatch S e' n c argv').mapN (repass u q' d') := by
  unfold dispatch
  cases hns : c.ns with
  | none => exact ⟨q, d, rfl⟩
  | some v =>
    simp only
    cases argv' with
    | nil => exact ⟨q, d, rfl⟩
    | cons key rest =>
      simp only
      cases hl : lookupCmd key with
      | none => exact ⟨q, d, rfl⟩
      | some i =>
        simp only
        rw [nsDeref_repass]
        cases hr : nsDeref n v with
        | none => exact ⟨q, d, rfl⟩
        | some r =>
          cases hh : handlers[i]? with
          | none => exact ⟨q, d, rfl⟩
          | some x =>
            simp only [Option.map_some]
            have hk := pick_of hc hp hns rfl hl hr hh
            have key := fun (a : Bytes) (y : NsRec) (ha : (key :: rest)[1]? = some a) (hg : nsGet n (cstr a) = some y)
                (hy : y.uid = u) =>
              have hm : nsDeref n u = some y := hy ▸ nsDeref_mem hi.uids (nsGet_some hg).1
              hq _ y (alter u q d y) hk hm (by rw [nsDeref_repass, hm]; rfl) (by
                show ((key :: rest)[1]?).map cstr = _
                rw [ha, Option.map_some, (nsGet_some hg).2])
            have hpw : ∀ y : NsRec, y.uid = u → (alter u q d y).conf.password = y.conf.password.map (fun _ => q) :=
              fun y hy => by rw [alter_self hy]
            refine runHandler_repass S e' n _ r x.2 _ he (fun h a y h1 h2 h3 => ?_) (fun h a y h1 h2 h3 => ?_)
            · by_cases hE : y.conf.password.map (fun _ => q) = y.conf.password
              · exact Or.inl hE
              · exact Or.inr ((key a y h1 h2 h3 (fun e => hE (by rw [← hpw y h3]; exact e.symm))).1 h)
            · by_cases hE : y.conf.password.map (fun _ => q) = y.conf.password
              · exact Or.inl hE
              · have := (key a y h1 h2 h3 (fun e => hE (by rw [← hpw y h3]; exact e.symm))).2 h
                rw [hpw y h3] at this
                exact Or.inr this

theorem step_repass {ev : Event} {sent : List (Nat × Msg)} {st : Status} (hi : NodeInv S n) (hi' : NodeInv S (repass u q d n))
    (hg : Guard S n ev) (hu : (nsDeref n u).isSome) (hq : Untold S u n (repass u q d n) ev)
    (hd : ∀ r o, ev = .restart o → nsDeref n u = some r → r.conf.name ≠ nameDefault) (hs : nodeStep S n ev = .ok n1 sent st) :
    ∃ q' d', nodeStep S (repass u q d n) ev = .ok (repass u q' d' n1) sent st := by
  cases ev with
  | restart order =>
    obtain ⟨r, hr⟩ := Option.isSome_iff_exists.1 hu
    have hpw : (alter u q d r).conf.password = r.conf.password.map (fun _ => q) := by rw [alter_self (nsDeref_some hr).2]
    have h1 := hd r order rfl hr
    have h2 := ((hq r (alter u q d r) hr (by rw [nsDeref_repass, hr]; rfl)).resolve_right (fun h => h1 h.1)).2
    rw [hpw] at h2
    simp only [nodeStep] at hs ⊢
    cases hres : restartNode S n order with
    | none => rw [hres] at hs; cases hs
    | some n2 =>
      rw [hres] at hs
      injection hs with k1 k2 k3
      subst k1 k2 k3
      exact ⟨q, d, by rw [restart_repass hi hi' hr h1 h2 hres]⟩
  | connect fd =>
    simp only [nodeStep] at hs ⊢
    injection hs with h1 h2 h3
    subst h1 h2 h3
    refine ⟨q, d, ?_⟩
    have : newClient S (repass u q d n) = newClient S n := by
      unfold newClient repass
      rcases n.slots with _ | ⟨_ | r, l⟩
      · rfl
      · rfl
      · simp only [List.map_cons, Option.map_some, alter_uid]
    rw [this]
    rfl
  | disconnect fd =>
    simp only [nodeStep] at hs ⊢
    injection hs with h1 h2 h3
    subst h1 h2 h3
    exact ⟨q, d, rfl⟩
  | tick us =>
    simp only [nodeStep] at hs ⊢
    injection hs with h1 h2 h3
    subst h1 h2 h3
    exact ⟨q, d, rfl⟩
  | rotate v =>
    simp only [nodeStep] at hs ⊢
    injection hs with h1 h2 h3
    subst h1 h2 h3
    refine ⟨q, d, ?_⟩
    rw [nsUpdate_repass n (f := fun r => { r with store := jump r.store }) (d' := d) ?_ (Or.inl rfl)]
    intro r _
    rw [alter_store]
    exact alter_withStore r _
  | request fd e argv =>
    simp only [nodeStep, request] at hs ⊢
    have hgc : getClient (repass u q d n) fd = getClient n fd := rfl
    rw [hgc]
    cases hc : getClient n fd with
    | none => rw [hc] at hs; cases hs
    | some c =>
      rw [hc] at hs
      simp only at hs ⊢
      split at hs
      · cases hs
      · rename_i ha
        rw [if_neg ha]
        cases hp : popOwner e c argv with
        | none =>
          rw [hp] at hs
          simp only at hs ⊢
          injection hs with h1 h2 h3
          subst h1 h2 h3
          exact ⟨q, d, rfl⟩
        | some x =>
          obtain ⟨e', argv'⟩ := x
          rw [hp] at hs
          simp only at hs ⊢
          obtain ⟨r, hr⟩ := Option.isSome_iff_exists.1 hu
          have he : e'.uid ≠ u := by
            rw [popOwner_uid hp]
            intro h
            exact hg.1 r (nsDeref_some hr).1 ((nsDeref_some hr).2.trans h.symm)
          obtain ⟨q', d', hd⟩ := dispatch_repass (d := d) hi he hq hc hp
          rw [hd]
          cases ho : dispatch S e' n c argv' with
          | done n2 c2 m st2 =>
            rw [ho] at hs
            simp only [Out.mapN] at hs ⊢
            have hcl : (repass u q' d' n2).clients = n2.clients := rfl
            rw [hcl]
            split at hs
            · cases hs
            · rename_i hm
              rw [if_neg hm]
              refine ⟨q', d', ?_⟩
              have hput : putClient (repass u q' d' n2) fd (some c2) = repass u q' d' (putClient n2 fd (some c2)) := rfl
              rw [hput]
              generalize putClient n2 fd (some c2) = n3 at hs
              unfold post at hs ⊢
              cases hx : c2.executed with
              | none =>
                rw [hx] at hs
                simp only at hs ⊢
                injection hs with h1 h2 h3
                subst h1 h2 h3
                rfl
              | some i =>
                rw [hx] at hs
                simp only at hs ⊢
                injection hs with h1 h2 h3
                subst h1 h2 h3
                rfl
          | exit => rw [ho] at hs; cases hs
          | crash => rw [ho] at hs; cases hs
          | outside => rw [ho] at hs; cases hs

theorem Guard.repass {ev : Event} (hg : Guard S n ev) : Guard S (Zdb.repass u q d n) ev := by
  have hm : recs (Zdb.repass u q d n) = (recs n).map (alter u q d) := recs_repass n
  have hmode : (∀ r ∈ recs n, ModeOf S.cfg r.store.mode r.store.ifiles) →
      ∀ r ∈ recs (Zdb.repass u q d n), ModeOf S.cfg r.store.mode r.store.ifiles := by
    intro h r hr
    rw [hm] at hr
    obtain ⟨r0, h0, rfl⟩ := List.mem_map.1 hr
    rw [alter_store]; exact h r0 h0
  cases ev with
  | restart order =>
    refine ⟨hmode hg.1, ?_⟩
    have : (recs (Zdb.repass u q d n)).tail.map (·.uid) = (recs n).tail.map (·.uid) := by
      rw [hm, ← List.map_tail, List.map_map]
      congr 1
      funext r
      exact alter_uid r
    rw [this]
    exact hg.2
  | request fd e argv =>
    refine ⟨fun r hr => ?_, hmode hg.2⟩
    rw [hm] at hr
    obtain ⟨r0, h0, rfl⟩ := List.mem_map.1 hr
    rw [alter_uid]; exact hg.1 r0 h0
  | _ => trivial

theorem repass_none (h : nsDeref n u = none) : repass u q d n = n := by
  have : ∀ x ∈ n.slots, Option.map (alter u q d) x = x := by
    intro x hx
    cases x with
    | none => rfl
    | some r =>
      have hr : r ∈ n.slots.filterMap id := List.mem_filterMap.2 ⟨some r, hx, rfl⟩
      have := List.find?_eq_none.1 h r hr
      rw [Option.map_some, alter_other (by simpa using this)]
  unfold repass
  rw [List.map_congr_left (g := id) this, List.map_id]

theorem PassTwin.refl (hi : NodeInv S n) : PassTwin u n n := by
  cases h : nsDeref n u with
  | none => exact ⟨[], [], (repass_none h).symm⟩
  | some r =>
    refine ⟨r.conf.password.getD [], r.desc, ?_⟩
    have : ∀ x ∈ n.slots, Option.map (alter u (r.conf.password.getD []) r.desc) x = x := by
      intro x hx
      cases x with
      | none => rfl
      | some y =>
        have hy : y ∈ recs n := List.mem_filterMap.2 ⟨some y, hx, rfl⟩
        by_cases hu : y.uid = u
        · have := nsDeref_mem hi.uids hy
          rw [hu, h] at this
          injection this with this
          subst this
          rw [Option.map_some, alter_self hu]
          have : r.conf.password.map (fun _ => r.conf.password.getD []) = r.conf.password := by
            cases r.conf.password <;> rfl
          rw [this]
        · rw [Option.map_some, alter_other hu]
    unfold repass
    rw [List.map_congr_left (g := id) this, List.map_id]

theorem restart_default {S' : Settings} {q0 d0 : Bytes} {r : NsRec} {order : List Nat} (hi : NodeInv S n) (hr : nsDeref n u = some r)
    (hname : r.conf.name = nameDefault) (hdesc : (alter u q0 d0 r).desc = r.desc) :
    restartNode S' (repass u q0 d0 n) order = restartNode S' n order := by
  have hru := (nsDeref_some hr).2
  rw [alter_self hru] at hdesc
  obtain ⟨dd, l, hs, hdn⟩ := hi.head
  have hdd : dd ∈ recs n := by rw [mem_recs, hs]; exact List.mem_cons_self ..
  have hnd := hi.uids
  have hrr : r = dd := by
    have hrec : recs n = dd :: l.filterMap id := by unfold recs; rw [hs]; rfl
    have hnm := hi.names
    have hrm := (nsDeref_some hr).1
    rw [hrec] at hnm hrm
    rcases List.mem_cons.1 hrm with h1 | h1
    · exact h1
    · simp only [List.map_cons, List.nodup_cons, List.mem_map, not_exists, not_and] at hnm
      exact absurd (hname.trans hdn.symm) (hnm.1 r h1)
  subst hrr
  have hl' : ∀ x ∈ l, Option.map (alter u q0 d0) x = x := by
    intro x hx
    cases x with
    | none => rfl
    | some y =>
      have hy : y ∈ l.filterMap id := List.mem_filterMap.2 ⟨some y, hx, rfl⟩
      have hyu : y.uid ≠ u := by
        intro e
        have : recs n = r :: l.filterMap id := by unfold recs; rw [hs]; rfl
        rw [this] at hnd
        simp only [List.map_cons, List.nodup_cons, List.mem_map, not_exists, not_and] at hnd
        exact hnd.1 y hy (e.trans hru.symm)
      rw [Option.map_some, alter_other hyu]
  have hs' : (repass u q0 d0 n).slots = some (alter u q0 d0 r) :: l := by
    show n.slots.map _ = _
    rw [hs, List.map_cons, Option.map_some, List.map_congr_left (g := id) hl', List.map_id]
  have hdir : (alter u q0 d0 r).dir = r.dir := by
    rw [alter_self hru]
    have hdesc : d0 = r.desc := hdesc
    simp only [NsRec.dir, hdesc]
  unfold restartNode
  rw [hs, hs']
  simp only [hdir]

theorem step_twin {m : Node} {ev : Event} {sent : List (Nat × Msg)} {st : Status} (hi : NodeInv S n) (hi' : NodeInv S m)
    (ht : PassTwin u n m) (hg : Guard S n ev) (hq : Untold S u n m ev) (hs : nodeStep S n ev = .ok n1 sent st) :
    ∃ m1, nodeStep S m ev = .ok m1 sent st ∧ PassTwin u n1 m1 ∧ Guard S m ev := by
  obtain ⟨q, d, rfl⟩ := ht
  cases hu : nsDeref n u with
  | none =>
    rw [repass_none hu]
    exact ⟨n1, hs, .refl (hi.step hg hs), hg⟩
  | some r =>
    by_cases hd : ∀ r o, ev = .restart o → nsDeref n u = some r → r.conf.name ≠ nameDefault
    · obtain ⟨q', d', h⟩ := step_repass hi hi' hg (by rw [hu]; rfl) hq hd hs
      exact ⟨_, h, ⟨q', d', rfl⟩, hg.repass⟩
    · refine ⟨n1, ?_, .refl (hi.step hg hs), hg.repass⟩
      have ⟨r0, o, hev, hr0, hname⟩ : ∃ r o, ev = .restart o ∧ nsDeref n u = some r ∧ r.conf.name = nameDefault := by
        apply Classical.byContradiction
        intro h
        exact hd (fun r o h1 h2 h3 => h ⟨r, o, h1, h2, h3⟩)
      subst hev
      have h2 := ((hq r0 (alter u q d r0) hr0 (by rw [nsDeref_repass, hr0]; rfl)).resolve_left (fun h => h.1 hname)).2
      rw [← hs]
      simp only [nodeStep, restart_default (S' := S) hi hr0 hname h2]

/-- **C83**, one event: with another password of the namespace, the event does the same: clients are sent the same, and the servers
    differ in nothing else afterwards. -/
theorem C83_step {m : Node} {ev : Event} {sent : List (Nat × Msg)} {st : Status} (hn : Reachable S n) (hm : Reachable S m)
    (ht : PassTwin u n m) (hg : Guard S n ev) (hq : Untold S u n m ev) (hs : nodeStep S n ev = .ok n1 sent st) :
    ∃ m1, nodeStep S m ev = .ok m1 sent st ∧ PassTwin u n1 m1 := by
  obtain ⟨m1, h1, h2, -⟩ := step_twin hn.inv hm.inv ht hg hq hs
  exact ⟨m1, h1, h2⟩

/-- **C83**, executions: with any other password of the namespace all clients are sent the same in the same order, up to the event at
    which somebody gives one of the two passwords or a master asks for it, and without end once it is set anew or the namespace is
    deleted.  Missing: restarts for the default namespace after its settings were changed; false with an empty password
    (`C83_refuted`). -/
theorem C83_run_partial {m : Node} {l : List (Event × List (Nat × Msg))} {n' : Node} (hn : Reachable S n) (hm : Reachable S m)
    (ht : PassTwin u n m) (h : NodeRun S n l n') (hq : UntoldRun S u n m l) : ∃ m', NodeRun S m l m' ∧ PassTwin u n' m' := by
  have hi := hn.inv
  have hi' := hm.inv
  clear hn hm
  induction h generalizing m with
  | nil n => exact ⟨m, .nil _, ht⟩
  | cons hg hs _ ih =>
    obtain ⟨h2, h3⟩ := hq
    obtain ⟨m1, hd, ht1, hg1⟩ := step_twin hi hi' ht hg h2 hs
    obtain ⟨m', hr, hr'⟩ := ih ht1 (h3 _ _ _ _ hs hd) (hi.step hg hs) (hi'.step hg1 hd)
    exact ⟨m', .cons hg1 hd hr, hr'⟩

/-- `Untold`, computed. -/
def untoldB (S : Settings) (u : Nat) (n m : Node) : Event → Bool
  | .restart _ =>
    match nsDeref n u, nsDeref m u with
    | some r, some r' => (r.conf.name != nameDefault && (r.conf.password == some []) == (r'.conf.password == some [])) ||
        (r.conf.name == nameDefault && r'.desc == r.desc)
    | _, _ => true
  | .request fd e argv =>
    match pick n fd e argv, nsDeref n u, nsDeref m u with
    | some p, some r, some r' =>
      (p.argv[1]?).map cstr != some r.conf.name || r.conf.password == r'.conf.password ||
        match p.h with
        | .nsinfo => !p.c.master
        | .select =>
          match p.argv with
          | [_, _, g] => r.conf.password.all (fun x => cstr g != x) && r'.conf.password.all (fun x => cstr g != x)
          | [_, _, _, h] =>
            match p.c.nonce with
            | none => true
            | some k => r.conf.password.all (fun x => cstr h != S.hash k x) && r'.conf.password.all (fun x => cstr h != S.hash k x)
          | _ => true
        | _ => true
    | _, _, _ => true
  | _ => true

theorem untoldB_ok {m : Node} {ev : Event} (h : untoldB S u n m ev = true) : Untold S u n m ev := by
  cases ev with
  | restart order =>
    intro r r' hr hr'
    simp only [untoldB, hr, hr', Bool.or_eq_true, Bool.and_eq_true, bne_iff_ne, beq_iff_eq] at h
    rcases h with h | h
    · refine Or.inl ⟨h.1, ?_⟩
      rw [← beq_iff_eq (a := r.conf.password), ← beq_iff_eq (a := r'.conf.password), h.2]
    · exact Or.inr h
  | request fd e argv =>
    intro p r r' hp hr hr' ha hne
    simp only [untoldB, hp, hr, hr', ha, bne_self_eq_false, Bool.false_or, beq_eq_false_iff_ne.2 hne] at h
    refine ⟨fun hh => ?_, fun hh x hx => ?_⟩
    · simpa [hh] using h
    · simp only [hh] at h
      split at h
      · rename_i e
        rw [e]
        simp only [Bool.and_eq_true] at h
        rcases hx with hx | hx
        · have h := h.1; rw [hx] at h; exact bne_iff_ne.1 h
        · have h := h.2; rw [hx] at h; exact bne_iff_ne.1 h
      · rename_i e
        rw [e]
        rintro ⟨k, h1, h2⟩
        rw [h1] at h
        simp only [Bool.and_eq_true] at h
        rcases hx with hx | hx
        · have h := h.1; rw [hx] at h; exact (bne_iff_ne.1 h) h2
        · have h := h.2; rw [hx] at h; exact (bne_iff_ne.1 h) h2
      · rename_i h1 h2
        intro hg
        unfold Gives at hg
        split at hg
        · rename_i e; exact h1 _ _ _ e
        · rename_i e; exact h2 _ _ _ _ e
        · exact hg
  | _ => trivial

/-- Running events as in `UntoldRun`. -/
def runUntold (S : Settings) (u : Nat) : Node → Node → List Event → Option (Node × List (Event × List (Nat × Msg)))
  | n, _, [] => some (n, [])
  | n, m, ev :: evs =>
    if guardB n ev && untoldB S u n m ev then
      match nodeStep S n ev, nodeStep S m ev with
      | .ok n1 sent _, .ok m1 _ _ => (runUntold S u n1 m1 evs).map (fun x => (x.1, (ev, sent) :: x.2))
      | _, _ => none
    else none

theorem runUntold_run {md : Mode} (hm : S.cfg = some md) {m n' : Node} {evs : List Event}
    {l : List (Event × List (Nat × Msg))} (hi : NodeInv S n) (h : runUntold S u n m evs = some (n', l)) :
    NodeRun S n l n' ∧ UntoldRun S u n m l := by
  induction evs generalizing n m l with
  | nil =>
    simp only [runUntold, Option.some.injEq, Prod.mk.injEq] at h
    obtain ⟨rfl, rfl⟩ := h
    exact ⟨.nil _, trivial⟩
  | cons ev evs ih =>
    simp only [runUntold] at h
    split at h
    · rename_i hg
      simp only [Bool.and_eq_true] at hg
      split at h
      · rename_i n1 sent st m1 sent' st' hs hs1
        obtain ⟨⟨n2, l2⟩, h2, h3⟩ := Option.map_eq_some_iff.1 h
        simp only [Prod.mk.injEq] at h3
        obtain ⟨rfl, rfl⟩ := h3
        have hgu := guardB_ok hm hi hg.1
        obtain ⟨i1, i2⟩ := ih (hi.step hgu hs) h2
        refine ⟨.cons hgu hs i1, untoldB_ok hg.2, fun n3 m3 sent3 st3 hs3 hs4 => ?_⟩
        simp only at hs3 hs4
        rw [hs] at hs3
        rw [hs1] at hs4
        injection hs3 with h1 _ _
        injection hs4 with h4 _ _
        subst h1 h4
        exact i2
      · cases h
    · cases h

/-- A namespace with a password and a payload. -/
def exSecret (p : Bytes) : List Event :=
  exEvents ++ [.request 5 (exE 4) [str "NSSET", str "foo", str "password", p], .connect 7]

/-- Another client tries a password, looks at the settings, reads, may not write; an administrator changes another setting; the server
    is restarted, and a client tries another password and a digest.  Then
    the password is set anew, a client gives it, and the namespace is deleted. -/
def exTries : List Event :=
  [.request 7 (exE 5) [str "SELECT", str "foo", str "s4"], .request 7 (exE 6) [str "NSINFO", str "foo"],
   .request 7 (exE 7) [str "SELECT", str "foo"], .request 7 (exE 8) [str "GET", str "k"],
   .request 7 (exE 9) [str "SET", str "k", str "w"], .request 5 (exE 10) [str "NSSET", str "foo", str "worm", str "1"],
   .request 6 (exE 11) [str "SET", str "l", str "x"], .request 7 (exE 12) [str "NSLIST"], .restart [1001], .connect 7,
   .request 7 (exE 13) [str "SELECT", str "foo", str "s5"], .request 7 (exE 14) [str "AUTH", str "SECURE", str "CHALLENGE"],
   .request 7 (exE 15) [str "SELECT", str "foo", str "SECURE", List.replicate 40 48], .connect 8,
   .request 8 (exE 16) [str "AUTH", str "pw"], .request 8 (exE 17) [str "NSSET", str "foo", str "password", str "s6"],
   .request 7 (exE 18) [str "SELECT", str "foo", str "s6"], .request 8 (exE 19) [str "NSDEL", str "foo"],
   .request 8 (exE 20) [str "NSINFO", str "foo"]]

/-- What was sent first at each event, if it is a reply. -/
def firstReplies (l : List (Event × List (Nat × Msg))) : List (Option Reply) :=
  l.map (fun x => match x.2 with
    | (_, .reply r) :: _ => some r
    | _ => none)

set_option maxRecDepth 100000 in
/-- A case of `C83_run_partial`. -/
theorem C83_example : ∃ n m n' l r r', Reachable exS n ∧ Reachable exS m ∧ PassTwin 1001 n m ∧ NodeRun exS n l n' ∧
    UntoldRun exS 1001 n m l ∧ nsDeref n 1001 = some r ∧ r.conf.password = some (str "s3") ∧ nsDeref m 1001 = some r' ∧
    r'.conf.password = some (str "other") ∧
    firstReplies l = [some (.err "Access denied"), none, some .ok, some (.bulk (str "v")), some (.err "Namespace is in read-only mode"),
      some .ok, some (.bulk (str "l")), none, none, none, some (.err "Access denied"),
      none, some (.err "Access denied"), none, some .ok, some .ok, some .ok, some .ok,
      some (.err "Namespace not found")] := by
  have hr := ran_reachable (S := exS) (m := .user) rfl exNode_started (exSecret (str "s3"))
  have hr' := ran_reachable (S := exS) (m := .user) rfl exNode_started (exSecret (str "other"))
  have htwin : ranNode exS (exSecret (str "other")) = repass 1001 (str "other")
      (((nsDeref (ranNode exS (exSecret (str "other"))) 1001).map (·.desc)).getD []) (ranNode exS (exSecret (str "s3"))) := rfl
  have hq : ((runUntold exS 1001 (ranNode exS (exSecret (str "s3"))) (ranNode exS (exSecret (str "other"))) exTries).map (fun x => firstReplies x.2)) =
    some [some (.err "Access denied"), none, some .ok, some (.bulk (str "v")), some (.err "Namespace is in read-only mode"),
      some .ok, some (.bulk (str "l")), none, none, none, some (.err "Access denied"),
      none, some (.err "Access denied"), none, some .ok, some .ok, some .ok, some .ok,
      some (.err "Namespace not found")] := rfl
  obtain ⟨⟨n1, l⟩, h, h2⟩ := Option.map_eq_some_iff.1 hq
  obtain ⟨hl1, hl2⟩ := runUntold_run (md := .user) rfl hr.inv h
  have hp : (nsDeref (ranNode exS (exSecret (str "s3"))) 1001).map (·.conf.password) = some (some (str "s3")) := rfl
  obtain ⟨r, h3, h4⟩ := Option.map_eq_some_iff.1 hp
  have hp' : (nsDeref (ranNode exS (exSecret (str "other"))) 1001).map (·.conf.password) = some (some (str "other")) := rfl
  obtain ⟨r', h5, h6⟩ := Option.map_eq_some_iff.1 hp'
  exact ⟨_, _, n1, l, r, r', hr, hr', ⟨_, _, htwin⟩, hl1, hl2, h3, h4, h5, h6, h2⟩

/-- A restart, and a client that gives no password. -/
def exRestart : List Event :=
  [.restart [1001], .connect 7, .request 7 (exE 5) [str "SELECT", str "foo"], .request 7 (exE 6) [str "SET", str "l", str "x"]]

set_option maxRecDepth 100000 in
/-- C83 is false for a password that begins with a NUL byte (see `C33_refuted`): nobody gives a password and no master asks, but after a
    restart a client may write in one of the two servers, and not in the other. -/
theorem C83_refuted : ∃ n m n' m' l l', Reachable exS n ∧ Reachable exS m ∧ PassTwin 1001 n m ∧ NodeRun exS n l n' ∧
    NodeRun exS m l' m' ∧ l.map (·.1) = exRestart ∧ l'.map (·.1) = exRestart ∧
    firstReplies l = [none, none, some .ok, some (.bulk (str "l"))] ∧
    firstReplies l' = [none, none, some .ok, some (.err "Namespace is in read-only mode")] := by
  have hr := ran_reachable (S := exS) (m := .user) rfl exNode_started (exSecret [0, 120])
  have hr' := ran_reachable (S := exS) (m := .user) rfl exNode_started (exSecret (str "other"))
  have htwin : ranNode exS (exSecret (str "other")) = repass 1001 (str "other")
      (((nsDeref (ranNode exS (exSecret (str "other"))) 1001).map (·.desc)).getD []) (ranNode exS (exSecret [0, 120])) := rfl
  have h1 : (runNode exS (ranNode exS (exSecret [0, 120])) exRestart).map (fun x => (x.2.map (·.1), firstReplies x.2)) =
    some (exRestart, [none, none, some .ok, some (.bulk (str "l"))]) := rfl
  have h2 : (runNode exS (ranNode exS (exSecret (str "other"))) exRestart).map (fun x => (x.2.map (·.1), firstReplies x.2)) =
    some (exRestart, [none, none, some .ok, some (.err "Namespace is in read-only mode")]) := rfl
  obtain ⟨⟨n', l⟩, h3, h4⟩ := Option.map_eq_some_iff.1 h1
  obtain ⟨⟨m', l'⟩, h5, h6⟩ := Option.map_eq_some_iff.1 h2
  simp only [Prod.mk.injEq] at h4 h6
  exact ⟨_, _, n', m', l, l', hr, hr', ⟨_, _, htwin⟩, runNode_run (m := .user) rfl hr.inv h3, runNode_run (m := .user) rfl hr'.inv h5,
    h4.1, h6.1, h4.2, h6.2⟩

end Zdb
