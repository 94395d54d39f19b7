/-
C83, from the command that sets the password on: the password given to NSSET has no effect on what anybody is sent.
-/
import Verif.Props.Secret
namespace Zdb

variable {S : Settings} {n n1 n2 : Node}

theorem nsset_password {c c1 : Client} {w a prop v : Bytes} {st : Status}
    (h : cmdNsset S n c [w, a, prop, v] = .done n1 c1 (some (.reply .ok)) st) (hp : cstr prop = str "password")
    (hv : cstr v ≠ wordStar) : ∃ r, nsGet n (cstr a) = some r ∧
      n1 = nsUpdate n r.uid (fun _ => commitNs { r with conf := { r.conf with password := some (cstr v) } }) ∧ c1 = c ∧ st = .keep := by
  have hs : str "password" = [112, 97, 115, 115, 119, 111, 114, 100] := by decide +kernel
  have hv : (cstr v == wordStar) = false := beq_eq_false_iff_ne.2 hv
  unfold cmdNsset at h
  split at h
  · cases h
  · split at h
    · rename_i x hx
      injection h with _ _ h _
      injection h with h
      injection h with h
      subst h
      unfold argsValidate at hx
      repeat' split at hx
      all_goals cases hx
    · cases hn : nsArg [w, a, prop, v] with
      | error s => rw [hn] at h; cases h
      | ok target =>
        rw [hn] at h
        obtain ⟨b, hb, rfl, -⟩ := nsArg_ok hn
        injection hb with hb
        subst hb
        simp only at h
        split at h
        · cases h
        · split at h
          · cases h
          · split at h
            · cases h
            · cases hg : nsGet n (cstr a) with
              | none => rw [hg] at h; cases h
              | some r =>
                rw [hg, hp, hs] at h
                simp only at h
                by_cases ht : (cstr a == nameDefault) = true
                · have he : nsProperty S r (cstr a) [112, 97, 115, 115, 119, 111, 114, 100] (cstr v) =
                      .error "Cannot update default namespace" := by simp only [nsProperty, ht]; rfl
                  rw [he] at h
                  cases h
                · have he : nsProperty S r (cstr a) [112, 97, 115, 115, 119, 111, 114, 100] (cstr v) =
                      .ok { r with conf := { r.conf with password := some (cstr v) } } := by simp only [nsProperty, ht, hv]; rfl
                  rw [he] at h
                  injection h with h1 h2 _ h3
                  exact ⟨r, rfl, h1.symm, h2.symm, h3.symm⟩

theorem twin_set {r : NsRec} {v v' : Bytes} : PassTwin r.uid
    (nsUpdate n r.uid (fun _ => commitNs { r with conf := { r.conf with password := some v } }))
    (nsUpdate n r.uid (fun _ => commitNs { r with conf := { r.conf with password := some v' } })) := by
  refine ⟨v', (commitNs { r with conf := { r.conf with password := some v' } }).desc, ?_⟩
  unfold nsUpdate repass
  simp only [List.map_map]
  congr 1
  apply List.map_congr_left
  intro x _
  cases x with
  | none => rfl
  | some y =>
    simp only [Function.comp, Option.map_some, Option.some.injEq, beq_iff_eq]
    by_cases hv : y.uid = r.uid
    · rw [if_pos hv, if_pos hv]
      exact (alter_self (u := r.uid) (r := commitNs { r with conf := { r.conf with password := some v } }) rfl).symm
    · rw [if_neg hv, if_neg hv, alter_other hv]

theorem PassTwin.clients {u : Nat} (h : PassTwin u n1 n2) (l : List (Option Client)) :
    PassTwin u { n1 with clients := l } { n2 with clients := l } := by
  obtain ⟨q, d, rfl⟩ := h
  exact ⟨q, d, rfl⟩

/-- **C83**, how the two servers come about: NSSET with one password or another is answered alike, and afterwards the servers differ in
    the password and in nothing else. -/
theorem C83_set {fd : Nat} {e : Env} {w a prop v v' : Bytes} {p : Picked} {sent sent' : List (Nat × Msg)} {st st' : Status}
    (hp : pick n fd e [w, a, prop, v] = some p) (hh : p.h = .nsset) (hm : p.c.master = false) (hprop : cstr prop = str "password")
    (hv : cstr v ≠ str "*") (hv' : cstr v' ≠ str "*")
    (h : nodeStep S n (.request fd e [w, a, prop, v]) = .ok n1 sent st) (hok : GotOk fd sent)
    (h' : nodeStep S n (.request fd e [w, a, prop, v']) = .ok n2 sent' st') (hok' : GotOk fd sent') :
    ∃ r, nsGet n (cstr a) = some r ∧ PassTwin r.uid n1 n2 ∧ sent' = sent ∧ st' = st := by
  have hstar : str "*" = wordStar := by decide +kernel
  rw [hstar] at hv hv'
  obtain ⟨hc, ho, u0, key, rest, i, name, hns, hkey, hl, hr, hhd⟩ := pick_some hp
  have hown : ∀ argv, popOwner e p.c argv = some (e, argv) := fun argv => by simp [popOwner, hm]
  rw [hown] at ho
  injection ho with ho
  injection ho with ho1 ho2
  rw [← ho2] at hkey
  injection hkey with hk1 hk2
  subst hk1
  have hreq : ∀ x, request S n fd e [w, a, prop, x] =
      match cmdNsset S n { p.c with executed := some i } [w, a, prop, x] with
      | .exit => .exit
      | .crash => .crash
      | .outside => .outside
      | .done n c m st =>
        if mirrorCrash e fd c n.clients then .crash
        else
          let (n, ms) := post e fd (putClient n fd (some c)) c
          .ok n ((m.toList.map (fun m => (fd, m))) ++ ms) st := by
    intro x
    simp only [request, hc, hown, dispatch, hns, hl, hr, hhd, hh, runHandler, reduceCtorEq, if_false]
    rfl
  have key : ∀ x nx sx stx, cstr x ≠ wordStar → request S n fd e [w, a, prop, x] = .ok nx sx stx → GotOk fd sx →
      ∃ r, nsGet n (cstr a) = some r ∧ stx = .keep ∧
        nx = { nsUpdate n r.uid (fun _ => commitNs { r with conf := { r.conf with password := some (cstr x) } }) with
          clients := (post e fd (putClient n fd (some { p.c with executed := some i })) { p.c with executed := some i }).1.clients } ∧
        sx = (fd, .reply .ok) :: (post e fd (putClient n fd (some { p.c with executed := some i })) { p.c with executed := some i }).2 := by
    intro x nx sx stx hx hreqx hokx
    rw [hreq] at hreqx
    cases hcmd : cmdNsset S n { p.c with executed := some i } [w, a, prop, x] with
    | exit => rw [hcmd] at hreqx; cases hreqx
    | crash => rw [hcmd] at hreqx; cases hreqx
    | outside => rw [hcmd] at hreqx; cases hreqx
    | done na ca ma sta =>
      rw [hcmd] at hreqx
      simp only at hreqx
      split at hreqx
      · cases hreqx
      · injection hreqx with k1 k2 k3
        have hma : ma = some (.reply .ok) := by
          cases ma with
          | none =>
            exfalso
            have : ∀ y, cmdNsset S n { p.c with executed := some i } [w, a, prop, x] ≠ .done na ca none y := by
              intro y hy
              unfold cmdNsset at hy
              simp only [say, sayErr, sayOk, errMsg] at hy
              repeat' split at hy
              all_goals cases hy
            exact this _ hcmd
          | some ma =>
            rw [← k2] at hokx
            simp only [Option.toList, List.map_cons, List.map_nil, List.singleton_append, GotOk, List.head?_cons, Option.some.injEq,
              Prod.mk.injEq, true_and] at hokx
            rw [hokx]
        subst hma
        obtain ⟨r, j1, j2, j3, j4⟩ := nsset_password hcmd hprop hx
        subst j2 j3 j4
        exact ⟨r, j1, k3.symm, k1.symm, k2.symm⟩
  obtain ⟨r, a1, a2, a3, a4⟩ := key v n1 sent st hv h hok
  obtain ⟨r', b1, b2, b3, b4⟩ := key v' n2 sent' st' hv' h' hok'
  rw [a1] at b1
  injection b1 with b1
  subst b1
  refine ⟨r, a1, ?_, by rw [a4, b4], by rw [a2, b2]⟩
  rw [a3, b3]
  exact twin_set.clients _

/-- **C83**, from the command on: whether an administrator sets one password or another, all clients are sent the same from then on, up
    to the event at which somebody gives one of the two.  Missing: as for `C83_run_partial`. -/
theorem C83_set_run_partial {fd : Nat} {e : Env} {w a prop v v' : Bytes} {p : Picked} {sent sent' : List (Nat × Msg)} {st st' : Status}
    {l : List (Event × List (Nat × Msg))} {n' : Node} (hn : Reachable S n) (hg : ∀ x, Guard S n (.request fd e [w, a, prop, x]))
    (hp : pick n fd e [w, a, prop, v] = some p) (hh : p.h = .nsset) (hm : p.c.master = false) (hprop : cstr prop = str "password")
    (hv : cstr v ≠ str "*") (hv' : cstr v' ≠ str "*")
    (h : nodeStep S n (.request fd e [w, a, prop, v]) = .ok n1 sent st) (hok : GotOk fd sent)
    (h' : nodeStep S n (.request fd e [w, a, prop, v']) = .ok n2 sent' st') (hok' : GotOk fd sent')
    (hl : NodeRun S n1 l n') (hq : ∀ r, nsGet n (cstr a) = some r → UntoldRun S r.uid n1 n2 l) :
    sent' = sent ∧ ∃ m', NodeRun S n2 l m' := by
  obtain ⟨r, hr, ht, hs, -⟩ := C83_set hp hh hm hprop hv hv' h hok h' hok'
  obtain ⟨n0, l0, h0, hrun⟩ := hn
  have r1 : Reachable S n1 := ⟨n0, _, h0, hrun.append (.cons (hg v) h (.nil _))⟩
  have r2 : Reachable S n2 := ⟨n0, _, h0, hrun.append (.cons (hg v') h' (.nil _))⟩
  obtain ⟨m', hm', -⟩ := C83_run_partial r1 r2 ht hl (hq r hr)
  exact ⟨hs, m', hm'⟩

set_option maxRecDepth 100000 in
/-- A case of `C83_set`: the two passwords of `C83_example`. -/
theorem C83_set_example : ∃ n p n1 n2 sent sent' st st', Reachable exS n ∧
    pick n 5 (exE 4) [str "NSSET", str "foo", str "password", str "s3"] = some p ∧ p.h = .nsset ∧ p.c.master = false ∧
    nodeStep exS n (.request 5 (exE 4) [str "NSSET", str "foo", str "password", str "s3"]) = .ok n1 sent st ∧ GotOk 5 sent ∧
    nodeStep exS n (.request 5 (exE 4) [str "NSSET", str "foo", str "password", str "other"]) = .ok n2 sent' st' ∧ GotOk 5 sent' := by
  have hr := ran_reachable (S := exS) (m := .user) rfl exNode_started exEvents
  exact ⟨_, _, _, _, _, _, _, _, hr, rfl, rfl, rfl, rfl, rfl, rfl, rfl⟩

end Zdb
