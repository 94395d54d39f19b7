/-
C82: the settings of a namespace change only when an administrator says so.
-/
import Verif.Spec.AdminSet
import Verif.Lemmas.Editor
import Verif.Props.Settings
import Verif.Props.Access
namespace Zdb

theorem nsProperty_told {S : Settings} {x y : NsRec} {target prop value : Bytes} (h : nsProperty S x target prop value = .ok y) :
    Told x.conf prop value y.conf := by
  unfold nsProperty at h
  simp only at h
  split at h
  · rename_i hp
    have hp : prop = str "mode" := (by simpa using hp : prop = [109, 111, 100, 101]).trans (by decide +kernel)
    repeat' split at h
    all_goals first
      | (cases h; done)
      | (injection h with h; subst h; exact .mode hp)
  split at h
  · rename_i hp
    have hp : prop = str "lock" := (by simpa using hp : prop = [108, 111, 99, 107]).trans (by decide +kernel)
    injection h with h; subst h
    simpa using Told.lock (c := x.conf) (value := value) hp
  split at h
  · rename_i hp
    have hp : prop = str "freeze" := (by simpa using hp : prop = [102, 114, 101, 101, 122, 101]).trans (by decide +kernel)
    injection h with h; subst h
    simpa using Told.freeze (c := x.conf) (value := value) hp
  split at h
  · cases h
  split at h
  · rename_i hp
    have hp : prop = str "maxsize" := (by simpa using hp : prop = [109, 97, 120, 115, 105, 122, 101]).trans (by decide +kernel)
    injection h with h; subst h
    refine Told.maxsize (c := x.conf) (value := value) hp _ ?_
    intro k hk hv
    rw [hv, Editor.atoll_digits hk]
    omega
  split at h
  · rename_i hp
    have hp : prop = str "password" := (by simpa using hp : prop = [112, 97, 115, 115, 119, 111, 114, 100]).trans (by decide +kernel)
    injection h with h; subst h
    by_cases hv : value = wordStar
    · have hv' : value = str "*" := hv.trans (by decide +kernel)
      simpa [hv] using Told.nopassword (c := x.conf) hp hv'
    · have hv' : value ≠ str "*" := fun h => hv (h.trans (by decide +kernel))
      simpa [hv] using Told.password (c := x.conf) hp hv'
  split at h
  · rename_i hp
    have hp : prop = str "public" := (by simpa using hp : prop = [112, 117, 98, 108, 105, 99]).trans (by decide +kernel)
    injection h with h; subst h
    exact Told.isPublic (c := x.conf) (value := value) hp
  split at h
  · rename_i hp
    have hp : prop = str "worm" := (by simpa using hp : prop = [119, 111, 114, 109]).trans (by decide +kernel)
    injection h with h; subst h
    exact Told.worm (c := x.conf) (value := value) hp
  · cases h

theorem Told.name {c c' : NsConf} {prop value : Bytes} (h : Told c prop value c') : c'.name = c.name := by
  cases h <;> rfl

theorem SetBy.says {S : Settings} {n : Node} {fd : Nat} {e : Env} {argv : List Bytes} {sent : List (Nat × Msg)} {r r' : NsRec}
    (h : SetBy S n fd e argv sent r r') : AdminSays n (.request fd e argv) sent r.conf r'.conf := by
  obtain ⟨p, hp, hh, hadm, a, b, prop, value, hargs, harg, y, hy, rfl, -, -⟩ := h.ex
  refine ⟨fd, e, argv, p, a, b, prop, value, rfl, hp, hh, hadm, hargs, ?_, (nsProperty_told hy : Told r.conf _ _ y.conf), h.ok⟩
  rw [hargs] at harg
  simp only [nsArg, List.getElem?_cons_succ, List.getElem?_cons_zero] at harg
  split at harg
  · cases harg
  · injection harg

/-- **C82**, one event: the settings of a namespace stay as they are, or an administrator was acknowledged the change, or the server
    was restarted. -/
theorem C82_step {S : Settings} {n n' : Node} {ev : Event} {sent : List (Nat × Msg)} {st : Status} (hn : Reachable S n)
    (hg : Guard S n ev) (hs : nodeStep S n ev = .ok n' sent st) {u : Nat} {r r' : NsRec} (hu : nsDeref n u = some r)
    (hu' : nsDeref n' u = some r') : r'.conf = r.conf ∨ AdminSays n ev sent r.conf r'.conf ∨ ∃ order, ev = .restart order := by
  have hi := hn.inv
  cases ev with
  | request fd e argv =>
    rcases conf_request hi hg hs hu hu' with ⟨h1, -, -⟩ | h1
    · exact Or.inl h1
    · exact Or.inr (Or.inl h1.says)
  | restart order => exact Or.inr (Or.inr ⟨order, rfl⟩)
  | connect fd =>
    simp only [nodeStep] at hs
    injection hs with h1 _ _
    subst h1
    change nsDeref n u = some r' at hu'
    rw [hu] at hu'
    injection hu' with hu'
    exact Or.inl (by rw [hu'])
  | disconnect fd =>
    simp only [nodeStep] at hs
    injection hs with h1 _ _
    subst h1
    change nsDeref n u = some r' at hu'
    rw [hu] at hu'
    injection hu' with hu'
    exact Or.inl (by rw [hu'])
  | tick us =>
    simp only [nodeStep] at hs
    injection hs with h1 _ _
    subst h1
    change nsDeref n u = some r' at hu'
    rw [hu] at hu'
    injection hu' with hu'
    exact Or.inl (by rw [hu'])
  | rotate v =>
    simp only [nodeStep] at hs
    injection hs with h1 _ _
    subst h1
    rw [nsDeref_update _ _ _ (fun r => { r with store := jump r.store }) (fun _ => rfl), hu] at hu'
    simp only [Option.map_some, Option.some.injEq] at hu'
    left
    rw [← hu']
    split <;> rfl

/-- **C82**, a restart: all settings but the locked or frozen state are kept. -/
theorem C82_restart {S : Settings} {n n' : Node} {order : List Nat} {sent : List (Nat × Msg)} {st : Status} (hn : Reachable S n)
    (hg : Guard S n (.restart order)) (hs : nodeStep S n (.restart order) = .ok n' sent st) {u : Nat} {r r' : NsRec}
    (hu : nsDeref n u = some r) (hu' : nsDeref n' u = some r') (hd : r.conf.name ≠ nameDefault) :
    lasting r'.conf = lasting r.conf ∧ r'.conf.lock = .unlocked := by
  have hi := hn.inv
  simp only [nodeStep] at hs
  cases hr : restartNode S n order with
  | none => rw [hr] at hs; exact absurd hs (by simp)
  | some n1 =>
    rw [hr] at hs
    injection hs with h1 _ _
    subst h1
    obtain ⟨hm, hru⟩ := nsDeref_some hu
    obtain ⟨r1, hr1, hu1, hc⟩ := restart_conf hi hg hr hm hd
    obtain ⟨hm', hru'⟩ := nsDeref_some hu'
    have : r1 = r' := uid_inj (hi.restart hg hr).1.uids hr1 hm' (by rw [hu1, hru, hru'])
    subst this
    refine ⟨?_, by rw [hc]⟩
    rw [hc]
    simp only [lasting]
    congr 1
    cases hq : r.conf.password with
    | none => rfl
    | some p =>
      have h0 := ((hi.desc r hm).pass hd p hq).1
      unfold loadedPass
      rw [Option.getD_some]
      cases p with
      | nil => rfl
      | cons b p => rw [if_neg (by simp), cstr_eq h0]

/-- **C82**, executions: as long as a namespace (other than the default one, whose settings are those of the command line) exists, if a
    setting differs from what it was, then an administrator was acknowledged a change in between.  For the locked or frozen state,
    there may have been a restart instead. -/
theorem C82_run_partial {S : Settings} {n n' : Node} {l : List (Event × List (Nat × Msg))} {u : Nat} (hn : Reachable S n)
    (h : NodeRun S n l n') (hex : Along S (fun m => (nsDeref m u).isSome) n l) {r r' : NsRec} (hu : nsDeref n u = some r)
    (hu' : nsDeref n' u = some r') (hd : r.conf.name ≠ nameDefault) :
    r'.conf.name = r.conf.name ∧
    (lasting r'.conf ≠ lasting r.conf → ∃ l1 ev sent l2 n1 c c', l = l1 ++ (ev, sent) :: l2 ∧ NodeRun S n l1 n1 ∧
      AdminSays n1 ev sent c c' ∧ c.name = r.conf.name ∧ lasting c' ≠ lasting c) ∧
    (r'.conf.lock ≠ r.conf.lock → (∃ l1 ev sent l2 n1 c c', l = l1 ++ (ev, sent) :: l2 ∧ NodeRun S n l1 n1 ∧
      AdminSays n1 ev sent c c' ∧ c.name = r.conf.name ∧ c'.lock ≠ c.lock) ∨ ∃ order sent, (Event.restart order, sent) ∈ l) := by
  induction h generalizing r with
  | nil n =>
    rw [hu] at hu'
    injection hu' with hu'
    subst hu'
    exact ⟨rfl, fun h => absurd rfl h, fun h => absurd rfl h⟩
  | @cons n n1 n2 ev sent st l hg hs h ih =>
    have hex1 := hex.2 n1 sent st hs
    have : (nsDeref n1 u).isSome := by
      cases l with
      | nil => exact hex1
      | cons x l => exact hex1.1
    obtain ⟨r1, hr1⟩ := Option.isSome_iff_exists.1 this
    have hstep := C82_step hn hg hs hu hr1
    have hname : r1.conf.name = r.conf.name := by
      rcases hstep with h1 | ⟨_, _, _, _, _, _, _, _, _, _, _, _, _, _, h1, _⟩ | ⟨order, rfl⟩
      · rw [h1]
      · exact h1.name
      · exact (congrArg NsConf.name (C82_restart hn hg hs hu hr1 hd).1 : (lasting r1.conf).name = (lasting r.conf).name)
    obtain ⟨i1, i2, i3⟩ := ih (hn.step hg hs) hex1 hr1 hu' (by rw [hname]; exact hd)
    refine ⟨i1.trans hname, fun hne => ?_, fun hne => ?_⟩
    · by_cases he : lasting r'.conf = lasting r1.conf
      · rcases hstep with h1 | h1 | ⟨order, rfl⟩
        · rw [h1] at he; exact absurd he hne
        · exact ⟨[], ev, sent, l, n, r.conf, r1.conf, rfl, .nil _, h1, rfl, fun h => hne (he.trans h)⟩
        · exact absurd (he.trans (C82_restart hn hg hs hu hr1 hd).1) hne
      · obtain ⟨l1, ev', sent', l2, m, c, c', h1, h2, h3, h4, h5⟩ := i2 he
        exact ⟨(ev, sent) :: l1, ev', sent', l2, m, c, c', by rw [h1]; rfl, .cons hg hs h2, h3, h4.trans hname, h5⟩
    · by_cases he : r'.conf.lock = r1.conf.lock
      · rcases hstep with h1 | h1 | ⟨order, rfl⟩
        · rw [h1] at he; exact absurd he hne
        · exact Or.inl ⟨[], ev, sent, l, n, r.conf, r1.conf, rfl, .nil _, h1, rfl, fun h => hne (he.trans h)⟩
        · exact Or.inr ⟨order, sent, List.mem_cons_self ..⟩
      · rcases i3 he with ⟨l1, ev', sent', l2, m, c, c', h1, h2, h3, h4, h5⟩ | ⟨order, sent', h1⟩
        · exact Or.inl ⟨(ev, sent) :: l1, ev', sent', l2, m, c, c', by rw [h1]; rfl, .cons hg hs h2, h3, h4.trans hname, h5⟩
        · exact Or.inr ⟨order, sent', List.mem_cons_of_mem _ h1⟩

/-- Running events in a node, as long as namespace `u` exists. -/
def runKept (S : Settings) (u : Nat) : Node → List Event → Option (Node × List (Event × List (Nat × Msg)))
  | n, [] => if (nsDeref n u).isSome then some (n, []) else none
  | n, ev :: evs =>
    if (nsDeref n u).isSome && guardB n ev then
      match nodeStep S n ev with
      | .ok n1 sent _ => (runKept S u n1 evs).map (fun x => (x.1, (ev, sent) :: x.2))
      | _ => none
    else none

theorem runKept_run {S : Settings} {m : Mode} (hm : S.cfg = some m) {u : Nat} {n n' : Node} {evs : List Event}
    {l : List (Event × List (Nat × Msg))} (hi : NodeInv S n) (h : runKept S u n evs = some (n', l)) :
    NodeRun S n l n' ∧ Along S (fun m => (nsDeref m u).isSome) n l := by
  induction evs generalizing n l with
  | nil =>
    simp only [runKept] at h
    split at h
    · rename_i hu
      simp only [Option.some.injEq, Prod.mk.injEq] at h
      obtain ⟨rfl, rfl⟩ := h
      exact ⟨.nil _, hu⟩
    · cases h
  | cons ev evs ih =>
    simp only [runKept] at h
    split at h
    · rename_i hg
      simp only [Bool.and_eq_true] at hg
      split at h
      · rename_i n1 sent st hs
        obtain ⟨⟨n2, l2⟩, h2, h3⟩ := Option.map_eq_some_iff.1 h
        simp only [Prod.mk.injEq] at h3
        obtain ⟨rfl, rfl⟩ := h3
        have hgu := guardB_ok hm hi hg.2
        obtain ⟨i1, i2⟩ := ih (hi.step hgu hs) h2
        refine ⟨.cons hgu hs i1, hg.1, fun m sent' st' hs' => ?_⟩
        simp only at hs'
        rw [hs] at hs'
        injection hs' with h1 _ _
        rw [← h1]
        exact i2
      · cases h
    · cases h

/-- A namespace gets a password and is locked. -/
def exSettings : List Event :=
  [.request 5 (exE 2) [str "NSSET", str "foo", str "password", str "s3"], .request 6 (exE 3) [str "SELECT", str "foo", str "s3"],
   .request 6 (exE 4) [str "SET", str "k", str "v"], .restart [1001], .connect 7, .request 7 (exE 5) [str "AUTH", str "pw"],
   .request 7 (exE 6) [str "NSSET", str "foo", str "lock", str "1"]]

set_option maxRecDepth 100000 in
/-- A case of `C82_run_partial`: both kinds of settings change, with a restart in between. -/
theorem C82_example : ∃ n n' l r r', Reachable exS n ∧ NodeRun exS n l n' ∧ Along exS (fun m => (nsDeref m 1001).isSome) n l ∧
    nsDeref n 1001 = some r ∧ nsDeref n' 1001 = some r' ∧ r.conf.name ≠ nameDefault ∧ lasting r'.conf ≠ lasting r.conf ∧
    r'.conf.lock ≠ r.conf.lock := by
  have hr := ran_reachable (S := exS) (m := .user) rfl exNode_started exBirth
  have hlive : (runKept exS 1001 (ranNode exS exBirth) exSettings).isSome = true := by decide +kernel
  obtain ⟨⟨n1, l⟩, h⟩ := Option.isSome_iff_exists.1 hlive
  obtain ⟨hl1, hl2⟩ := runKept_run (m := .user) rfl hr.inv h
  have hq : ((runKept exS 1001 (ranNode exS exBirth) exSettings).map (fun x =>
      match nsDeref (ranNode exS exBirth) 1001, nsDeref x.1 1001 with
      | some r, some r' => decide (r.conf.name ≠ nameDefault ∧ lasting r'.conf ≠ lasting r.conf ∧ r'.conf.lock ≠ r.conf.lock)
      | _, _ => false)) = some true := by decide +kernel
  rw [h] at hq
  simp only [Option.map_some, Option.some.injEq] at hq
  split at hq
  · rename_i r r' h1 h2
    simp only [decide_eq_true_eq] at hq
    exact ⟨_, n1, l, r, r', hr, hl1, hl2, h1, h2, hq⟩
  · cases hq

set_option maxRecDepth 100000 in
/-- C82 is false for locking and freezing, which share one variable: `NSSET lock 0`, and even `NSSET lock 1`, thaw a frozen namespace,
    and `NSSET freeze 0` unlocks a locked one. -/
theorem C82_thaw_refuted :
    ranSent exS (exFreeze ++ [.request 6 (exE 7) [str "GET", str "k"], .request 5 (exE 8) [str "NSSET", str "foo", str "lock", str "1"],
      .request 6 (exE 9) [str "GET", str "k"]]) = ranSent exS exFreeze ++
      [[(6, .reply errFrozen)], [(5, .reply .ok)], [(6, .reply (.bulk (str "v")))]] ∧
    ranSent exS (exEvents ++ [.request 5 (exE 4) [str "NSSET", str "foo", str "lock", str "1"],
      .request 6 (exE 7) [str "SET", str "k", str "w"], .request 5 (exE 8) [str "NSSET", str "foo", str "freeze", str "0"],
      .request 6 (exE 9) [str "SET", str "k", str "w"]]) = ranSent exS exEvents ++
      [[(5, .reply .ok)], [(6, .reply errLocked)], [(5, .reply .ok)], [(6, .reply (.bulk (str "k")))]] :=
  ⟨rfl, rfl⟩

set_option maxRecDepth 100000 in
/-- C82, the value: everything that does not begin with `1` switches a flag off, and is acknowledged: `NSSET lock true` unlocks.  A
    size is read up to the first byte that is not a digit, as in the editor (`C66_unit_refuted`): after `NSSET maxsize 1K` the limit is
    one byte, after `NSSET maxsize x10` there is none. -/
theorem C82_value_refuted :
    ranSent exS (exEvents ++ [.request 5 (exE 4) [str "NSSET", str "foo", str "lock", str "1"],
      .request 6 (exE 7) [str "SET", str "k", str "w"], .request 5 (exE 8) [str "NSSET", str "foo", str "lock", str "true"],
      .request 6 (exE 9) [str "SET", str "k", str "w"]]) = ranSent exS exEvents ++
      [[(5, .reply .ok)], [(6, .reply errLocked)], [(5, .reply .ok)], [(6, .reply (.bulk (str "k")))]] ∧
    ranSent exS (exEvents ++ [.request 5 (exE 4) [str "NSSET", str "foo", str "maxsize", str "1K"],
      .request 6 (exE 7) [str "SET", str "k2", str "ww"], .request 5 (exE 8) [str "NSSET", str "foo", str "maxsize", str "x10"],
      .request 6 (exE 9) [str "SET", str "k2", str "a long payload"]]) = ranSent exS exEvents ++
      [[(5, .reply .ok)], [(6, .reply (.err "No space left on this namespace"))], [(5, .reply .ok)], [(6, .reply (.bulk (str "k2")))]] :=
  ⟨rfl, rfl⟩

set_option maxRecDepth 100000 in
/-- C82, restarts: a locked namespace can be written to after a restart. -/
theorem C82_restart_refuted :
    ranSent exS (exEvents ++ [.request 5 (exE 4) [str "NSSET", str "foo", str "lock", str "1"],
      .request 6 (exE 7) [str "SET", str "k", str "w"], .restart [1001], .connect 7, .request 7 (exE 8) [str "SELECT", str "foo"],
      .request 7 (exE 9) [str "SET", str "k", str "w"]]) = ranSent exS exEvents ++
      [[(5, .reply .ok)], [(6, .reply errLocked)], [], [], [(7, .reply .ok)], [(7, .reply (.bulk (str "k")))]] :=
  rfl

end Zdb
