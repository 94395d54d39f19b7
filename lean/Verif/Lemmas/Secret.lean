/-
Lemmas for C83: servers that differ in a password answer alike.
-/
import Verif.Spec.Secret
import Verif.Lemmas.NodeInv
import Verif.Lemmas.NodeSeg
import Verif.Lemmas.NodeStep
namespace Zdb

variable {u : Nat} {q d d' : Bytes}

theorem dsCommand_pw (c : Ctx) (p : Option Bytes) (br : Branches) (s : Store) (x : DsCmd) (argv : List Bytes) :
    dsCommand { c with conf := { c.conf with password := p } } br s x argv = dsCommand c br s x argv := by
  cases x <;> rfl

theorem lookedUp_pw (c : Ctx) (p : Option Bytes) (x : DsCmd) (argv : List Bytes) :
    lookedUp { c with conf := { c.conf with password := p } } x argv = lookedUp c x argv := by
  cases x <;> rfl

theorem alter_other {r : NsRec} (h : r.uid ≠ u) : alter u q d r = r := by simp [alter, h]
theorem alter_self {r : NsRec} (h : r.uid = u) :
    alter u q d r = { r with conf := { r.conf with password := r.conf.password.map (fun _ => q) }, desc := d } := by simp [alter, h]
theorem alter_uid (r : NsRec) : (alter u q d r).uid = r.uid := by unfold alter; split <;> rfl
theorem alter_store (r : NsRec) : (alter u q d r).store = r.store := by unfold alter; split <;> rfl
theorem alter_conf (r : NsRec) : ∃ p, (alter u q d r).conf = { r.conf with password := p } ∧ p.isSome = r.conf.password.isSome := by
  unfold alter
  split
  · exact ⟨_, rfl, by simp⟩
  · exact ⟨r.conf.password, rfl, rfl⟩
theorem alter_name (r : NsRec) : (alter u q d r).conf.name = r.conf.name := by unfold alter; split <;> rfl

theorem alter_withStore (r : NsRec) (s : Store) :
    { alter u q d r with store := s } = alter u q d { r with store := s } := by
  unfold alter
  by_cases h : r.uid = u
  · simp only [h, if_true]
  · simp only [h, if_false]

theorem nsIter_repass (n : Node) : nsIter (repass u q d n).slots = (nsIter n.slots).map (alter u q d) := by
  have hf : ∀ l : List (Option NsRec), (l.map (Option.map (alter u q d))).filterMap id = (l.filterMap id).map (alter u q d) := by
    intro l
    induction l with
    | nil => rfl
    | cons x l ih => cases x <;> simp_all
  show nsIter (n.slots.map (Option.map (alter u q d))) = _
  rcases n.slots with _ | ⟨_ | r, l⟩
  · rfl
  · rfl
  · simp only [List.map_cons, Option.map_some, nsIter, hf]

theorem recs_repass (n : Node) : (repass u q d n).slots.filterMap id = (n.slots.filterMap id).map (alter u q d) := by
  show (n.slots.map (Option.map (alter u q d))).filterMap id = _
  induction n.slots with
  | nil => rfl
  | cons x l ih => cases x <;> simp_all

theorem find_alter (l : List NsRec) (P : NsRec → Bool) (hP : ∀ r, P (alter u q d r) = P r) :
    (l.map (alter u q d)).find? P = (l.find? P).map (alter u q d) := by
  induction l with
  | nil => rfl
  | cons x l ih =>
    simp only [List.map_cons, List.find?_cons, hP]
    split
    · rfl
    · exact ih

theorem nsGet_repass (n : Node) (name : Bytes) : nsGet (repass u q d n) name = (nsGet n name).map (alter u q d) := by
  unfold nsGet
  rw [nsIter_repass, find_alter _ _ (fun r => by rw [alter_name])]

theorem nsDeref_repass (n : Node) (v : Nat) : nsDeref (repass u q d n) v = (nsDeref n v).map (alter u q d) := by
  unfold nsDeref
  rw [recs_repass, find_alter _ _ (fun r => by rw [alter_uid])]

theorem nsUpdate_repass (n : Node) {v : Nat} {f g : NsRec → NsRec}
    (h : ∀ r, r.uid = v → g (alter u q d r) = alter u q d' (f r)) (hd : d' = d ∨ v = u) :
    nsUpdate (repass u q d n) v g = repass u q d' (nsUpdate n v f) := by
  unfold nsUpdate repass
  simp only [List.map_map]
  congr 1
  apply List.map_congr_left
  intro x _
  cases x with
  | none => rfl
  | some r =>
    simp only [Function.comp, Option.map_some, Option.some.injEq, alter_uid, beq_iff_eq]
    by_cases hv : r.uid = v
    · rw [if_pos hv, if_pos hv]; exact h r hv
    · rw [if_neg hv, if_neg hv]
      rcases hd with rfl | rfl
      · rfl
      · rw [alter_other hv, alter_other hv]

theorem nsUpdate_repass_self (n : Node) {q' : Bytes} {f g : NsRec → NsRec}
    (h : ∀ r, r.uid = u → g (alter u q d r) = alter u q' d' (f r)) :
    nsUpdate (repass u q d n) u g = repass u q' d' (nsUpdate n u f) := by
  unfold nsUpdate repass
  simp only [List.map_map]
  congr 1
  apply List.map_congr_left
  intro x _
  cases x with
  | none => rfl
  | some r =>
    simp only [Function.comp, Option.map_some, Option.some.injEq, alter_uid, beq_iff_eq]
    by_cases hv : r.uid = u
    · rw [if_pos hv, if_pos hv]; exact h r hv
    · rw [if_neg hv, if_neg hv, alter_other hv, alter_other hv]

theorem pushSlot_repass (l : List (Option NsRec)) {r : NsRec} (h : r.uid ≠ u) :
    pushSlot r (l.map (Option.map (alter u q d))) = (pushSlot r l).map (Option.map (alter u q d)) := by
  induction l with
  | nil => simp [pushSlot, alter_other h]
  | cons x l ih => cases x <;> simp [pushSlot, alter_other h, ih]

theorem kickSlot_repass (l : List (Option NsRec)) (v : Nat) :
    kickSlot v (l.map (Option.map (alter u q d))) = (kickSlot v l).map (Option.map (alter u q d)) := by
  induction l with
  | nil => rfl
  | cons x l ih =>
    cases x with
    | none => simp [kickSlot, ih]
    | some r =>
      simp only [List.map_cons, Option.map_some, kickSlot, alter_uid]
      split <;> simp [ih]

/-- The same answer, with the node changed. -/
def Out.mapN (f : Node → Node) : Out → Out
  | .done n c m st => .done (f n) c m st
  | .exit => .exit
  | .crash => .crash
  | .outside => .outside

theorem ctxOf_alter (S : Settings) (e : Env) (c : Client) (r : NsRec) :
    ∃ p, ctxOf S e c (alter u q d r) = { ctxOf S e c r with conf := { (ctxOf S e c r).conf with password := p } } := by
  obtain ⟨p, hp, -⟩ := alter_conf (u := u) (q := q) (d := d) r
  exact ⟨p, by unfold ctxOf; rw [hp, alter_uid]⟩

theorem withStore_repass (n : Node) (v : Nat) (s : Store) :
    nsUpdate (repass u q d n) v (fun r => { r with store := s }) = repass u q d (nsUpdate n v (fun r => { r with store := s })) :=
  nsUpdate_repass (g := fun r => { r with store := s }) (f := fun r => { r with store := s }) n (fun r _ => alter_withStore r s)
    (Or.inl rfl)

theorem cmdDs_repass (S : Settings) (e : Env) (n : Node) (c : Client) (r : NsRec) (x : DsCmd) (argv : List Bytes) :
    cmdDs S e (repass u q d n) c (alter u q d r) x argv = (cmdDs S e n c r x argv).mapN (repass u q d) := by
  obtain ⟨p, hp⟩ := ctxOf_alter (u := u) (q := q) (d := d) S e c r
  have hb : (repass u q d n).br = n.br := rfl
  unfold cmdDs
  rw [hp, lookedUp_pw, dsCommand_pw, alter_store, alter_uid, hb]
  split
  · rfl
  · rcases dsCommand (ctxOf S e c r) n.br r.store x argv with ⟨br, s, rep⟩
    have hk := withStore_repass (u := u) (q := q) (d := d) { n with br := br } r.uid s
    cases rep <;> first | rfl | exact congrArg (fun n' => Out.done n' c (some (.reply _)) .keep) hk

theorem reloadRec_repass (S : Settings) (n : Node) (c : Client) (r : NsRec) :
    reloadRec S (repass u q d n) c (alter u q d r) = (reloadRec S n c r).mapN (repass u q d) := by
  have hb : (repass u q d n).br = n.br := rfl
  unfold reloadRec
  rw [alter_store, alter_uid, hb]
  cases reloadNs S.cfg n.br r.uid r.store with
  | ok br s =>
    exact congrArg (fun n' => Out.done n' c (some (.reply .ok)) .keep) (withStore_repass { n with br := br } r.uid s)
  | exit => rfl
  | ub => rfl

theorem cmdReload_repass (S : Settings) (n : Node) (c : Client) (argv : List Bytes) :
    cmdReload S (repass u q d n) c argv = (cmdReload S n c argv).mapN (repass u q d) := by
  unfold cmdReload
  split
  · rfl
  · split
    · rfl
    · split
      · rfl
      · rename_i name _
        rw [nsGet_repass]
        cases nsGet n name with
        | none => rfl
        | some r => exact reloadRec_repass S n c r

theorem cmdFlush_repass (S : Settings) (n : Node) (c : Client) (r : NsRec) :
    cmdFlush S (repass u q d n) c (alter u q d r) = (cmdFlush S n c r).mapN (repass u q d) := by
  obtain ⟨p, hp, hs⟩ := alter_conf (u := u) (q := q) (d := d) r
  unfold cmdFlush
  rw [hp]
  have : p.isNone = r.conf.password.isNone := by cases p <;> cases h : r.conf.password <;> simp_all
  simp only [this]
  split
  · rfl
  · split
    · rfl
    · exact reloadRec_repass S n c r

theorem cmdNsnew_repass (S : Settings) (e : Env) (n : Node) (c : Client) (argv : List Bytes) (he : e.uid ≠ u) :
    cmdNsnew S e (repass u q d n) c argv = (cmdNsnew S e n c argv).mapN (repass u q d) := by
  unfold cmdNsnew
  split
  · rfl
  · split
    · rfl
    · split
      · rfl
      · rename_i name _
        rw [nsGet_repass, Option.isSome_map]
        split
        · rfl
        · split
          · rfl
          · split
            · rfl
            · split
              · rfl
              · have hb : (repass u q d n).br = n.br := rfl
                rw [hb]
                cases freshNs S.cfg n.br e.uid with
                | ok br s =>
                  simp only [sayOk, say, Out.mapN, repass]
                  rw [pushSlot_repass _ he]
                | exit => rfl
                | ub => rfl

theorem cmdNsdel_repass (n : Node) (c : Client) (argv : List Bytes) :
    cmdNsdel (repass u q d n) c argv = (cmdNsdel n c argv).mapN (repass u q d) := by
  unfold cmdNsdel
  split
  · rfl
  · split
    · rfl
    · split
      · rfl
      · rename_i name _
        split
        · rfl
        · rw [nsGet_repass]
          cases nsGet n name with
          | none => rfl
          | some r =>
            simp only [Option.map_some, alter_uid]
            split
            · rfl
            · simp only [sayOk, say, Out.mapN, repass, cleanNs, alter_uid, alter_store]
              rw [kickSlot_repass]

theorem cmdNslist_repass (n : Node) (c : Client) :
    cmdNslist (repass u q d n) c = (cmdNslist n c).mapN (repass u q d) := by
  unfold cmdNslist
  rw [nsIter_repass, List.map_map]
  have : ((fun r : NsRec => Reply.bulk r.conf.name) ∘ alter u q d) = (fun r => Reply.bulk r.conf.name) := by
    funext r; simp only [Function.comp, alter_name]
  rw [this]
  rfl

theorem infoOf_alter {c : Client} {r : NsRec} (h : r.uid = u → r.conf.password.map (fun _ => q) = r.conf.password ∨ c.master = false) :
    infoOf c (alter u q d r) = infoOf c r := by
  by_cases hu : r.uid = u
  · rw [alter_self hu]
    rcases h hu with h | h
    · simp only [infoOf, h]
    · simp [infoOf, h]
      rfl
  · rw [alter_other hu]

theorem cmdNsinfo_repass (n : Node) (c : Client) (argv : List Bytes)
    (h : ∀ a r, argv[1]? = some a → nsGet n (cstr a) = some r → r.uid = u →
      r.conf.password.map (fun _ => q) = r.conf.password ∨ c.master = false) :
    cmdNsinfo (repass u q d n) c argv = (cmdNsinfo n c argv).mapN (repass u q d) := by
  unfold cmdNsinfo
  split
  · rfl
  · split
    · rfl
    · rename_i name hn
      rw [nsGet_repass]
      cases hg : nsGet n name with
      | none => rfl
      | some r =>
        have hi : infoOf c (alter u q d r) = infoOf c r := infoOf_alter (by
          unfold nsArg at hn
          split at hn
          · cases hn
          · rename_i a ha
            split at hn
            · cases hn
            · injection hn with hn
              subst hn
              exact h a r ha hg)
        simp only [Option.map_some, hi]
        rfl

theorem accessOf_alter (S : Settings) (c : Client) {r : NsRec} {argv : List Bytes}
    (h : r.uid = u → r.conf.password.map (fun _ => q) = r.conf.password ∨
      ∀ x, (r.conf.password = some x ∨ r.conf.password.map (fun _ => q) = some x) → ¬ Gives S c x argv) :
    accessOf S c (alter u q d r).conf argv = accessOf S c r.conf argv := by
  by_cases hu : r.uid = u
  · rw [alter_self hu]
    unfold accessOf
    rcases h hu with h | h
    · simp only [h]
    cases hp : r.conf.password with
    | none => rfl
    | some pwd =>
      simp only [Option.map_some]
      have h2 := h q (Or.inr (by rw [hp]; rfl))
      have h3 := h pwd (Or.inl hp)
      match argv, h2, h3 with
      | [], _, _ => rfl
      | [_], _, _ => rfl
      | [_, _], _, _ => rfl
      | [_, _, g], h2, h3 => simp only [selectAccess, beq_eq_false_iff_ne.2 h2, beq_eq_false_iff_ne.2 h3]
      | [_, _, w, g], h2, h3 =>
        simp only [selectAccess]
        cases hk : c.nonce with
        | none => rfl
        | some k =>
          have h2 : cstr g ≠ S.hash k q := fun e => h2 ⟨k, hk, e⟩
          have h3 : cstr g ≠ S.hash k pwd := fun e => h3 ⟨k, hk, e⟩
          simp only [passwordCheck, beq_eq_false_iff_ne.2 h2, beq_eq_false_iff_ne.2 h3]
      | _ :: _ :: _ :: _ :: _ :: _, _, _ => rfl
  · rw [alter_other hu]

theorem cmdSelect_repass (S : Settings) (n : Node) (c : Client) (argv : List Bytes)
    (h : ∀ a r, argv[1]? = some a → nsGet n (cstr a) = some r → r.uid = u →
      r.conf.password.map (fun _ => q) = r.conf.password ∨
      ∀ x, (r.conf.password = some x ∨ r.conf.password.map (fun _ => q) = some x) → ¬ Gives S c x argv) :
    cmdSelect S (repass u q d n) c argv = (cmdSelect S n c argv).mapN (repass u q d) := by
  unfold cmdSelect
  cases hn : nsArg argv with
  | error s => rfl
  | ok name =>
    simp only
    rw [nsGet_repass]
    cases hg : nsGet n name with
    | none => rfl
    | some r =>
      obtain ⟨a, ha, rfl, -⟩ := nsArg_ok hn
      simp only [Option.map_some, accessOf_alter S c (h a r ha hg), alter_uid]
      cases accessOf S c r.conf argv <;> rfl

theorem nsProperty_alter (S : Settings) {r : NsRec} (hu : r.uid = u) (target value : Bytes) {prop : Bytes}
    (hp : prop ≠ str "password") :
    nsProperty S (alter u q d r) target prop value = (nsProperty S r target prop value).map (alter u q d) := by
  have hp : (prop == [112, 97, 115, 115, 119, 111, 114, 100]) = false :=
    beq_eq_false_iff_ne.2 (fun e => hp (e.trans (by decide +kernel)))
  rw [alter_self hu]
  unfold nsProperty
  simp only [hp]
  repeat' split
  all_goals first
    | rfl
    | (simp only [Except.map, alter, hu, if_true]; done)
    | (simp_all; done)

theorem nsProperty_uid {S : Settings} {r y : NsRec} {target prop value : Bytes} (h : nsProperty S r target prop value = .ok y) :
    y.uid = r.uid := by
  unfold nsProperty at h
  repeat' split at h
  all_goals first
    | (cases h; done)
    | (injection h with h; subst h; rfl)

/-- A new password takes the place of either. -/
theorem nsProperty_password (S : Settings) {r : NsRec} (hu : r.uid = u) (target value : Bytes) :
    ∃ q', nsProperty S (alter u q d r) target (str "password") value =
      (nsProperty S r target (str "password") value).map (alter u q' d) := by
  have h : str "password" = [112, 97, 115, 115, 119, 111, 114, 100] := by decide +kernel
  rw [alter_self hu, h]
  unfold nsProperty
  by_cases ht : (target == nameDefault) = true
  · exact ⟨q, by simp [ht, Except.map]⟩
  · refine ⟨value, ?_⟩
    simp only [ht]
    by_cases hv : (value == wordStar) = true
    · simp [hv, Except.map, alter, hu]
    · simp [hv, Except.map, alter, hu]

theorem cmdNsset_repass (S : Settings) (n : Node) (c : Client) (argv : List Bytes) :
    ∃ q' d', cmdNsset S (repass u q d n) c argv = (cmdNsset S n c argv).mapN (repass u q' d') := by
  unfold cmdNsset
  split
  · exact ⟨q, d, rfl⟩
  · split
    · exact ⟨q, d, rfl⟩
    · cases hn : nsArg argv with
      | error s => exact ⟨q, d, rfl⟩
      | ok target =>
        dsimp only
        split
        · rename_i w a0 prop value _
          split
          · exact ⟨q, d, rfl⟩
          · split
            · exact ⟨q, d, rfl⟩
            · split
              · exact ⟨q, d, rfl⟩
              · rw [nsGet_repass]
                cases hg : nsGet n target with
                | none => exact ⟨q, d, rfl⟩
                | some r =>
                  simp only [Option.map_some, alter_uid]
                  obtain ⟨a, ha, rfl, -⟩ := nsArg_ok hn
                  by_cases hu : r.uid = u
                  · by_cases hp : cstr prop = str "password"
                    · rw [hp]
                      obtain ⟨q', hq'⟩ := nsProperty_password S hu (q := q) (d := d) (cstr a) (cstr value)
                      cases hy : nsProperty S r (cstr a) (str "password") (cstr value) with
                      | error s => rw [hy] at hq'; rw [hq']; exact ⟨q, d, rfl⟩
                      | ok y =>
                        rw [hy] at hq'
                        have hyu : y.uid = u := (nsProperty_uid hy).trans hu
                        rw [hq']
                        refine ⟨q', (commitNs (alter u q' d y)).desc, ?_⟩
                        subst hu
                        refine congrArg (fun n' => Out.done n' c (some (.reply .ok)) .keep) (nsUpdate_repass_self n (fun _ _ => ?_))
                        rw [alter_self (r := commitNs y) hyu, alter_self (r := y) hyu]
                        rfl
                    · rw [nsProperty_alter S hu _ _ hp]
                      cases hy : nsProperty S r (cstr a) (cstr prop) (cstr value) with
                      | error s => exact ⟨q, d, rfl⟩
                      | ok y =>
                        have hyu : y.uid = u := (nsProperty_uid hy).trans hu
                        refine ⟨q, (commitNs (alter u q d y)).desc, ?_⟩
                        refine congrArg (fun n' => Out.done n' c (some (.reply .ok)) .keep) (nsUpdate_repass n (fun _ _ => ?_) (Or.inr hu))
                        rw [alter_self (r := commitNs y) hyu, alter_self (r := y) hyu]
                        rfl
                  · rw [alter_other hu]
                    cases hy : nsProperty S r (cstr a) (cstr prop) (cstr value) with
                    | error s => exact ⟨q, d, rfl⟩
                    | ok y =>
                      have hyu : y.uid ≠ u := fun e => hu ((nsProperty_uid hy).symm.trans e)
                      refine ⟨q, d, ?_⟩
                      refine congrArg (fun n' => Out.done n' c (some (.reply .ok)) .keep) (nsUpdate_repass n (fun _ _ => ?_) (Or.inl rfl))
                      exact (alter_other (r := commitNs y) hyu).symm
        · exact ⟨q, d, rfl⟩

theorem runHandler_repass (S : Settings) (e : Env) (n : Node) (c : Client) (r : NsRec) (x : Handler) (argv : List Bytes)
    (he : e.uid ≠ u)
    (hi : x = .nsinfo → ∀ a r, argv[1]? = some a → nsGet n (cstr a) = some r → r.uid = u →
      r.conf.password.map (fun _ => q) = r.conf.password ∨ c.master = false)
    (hl : x = .select → ∀ a r, argv[1]? = some a → nsGet n (cstr a) = some r → r.uid = u →
      r.conf.password.map (fun _ => q) = r.conf.password ∨
      ∀ x, (r.conf.password = some x ∨ r.conf.password.map (fun _ => q) = some x) → ¬ Gives S c x argv) :
    ∃ q' d', runHandler S e (repass u q d n) c (alter u q d r) x argv = (runHandler S e n c r x argv).mapN (repass u q' d') := by
  cases x with
  | nsset => exact cmdNsset_repass S n c argv
  | nsinfo => exact ⟨q, d, cmdNsinfo_repass n c argv (hi rfl)⟩
  | select => exact ⟨q, d, cmdSelect_repass S n c argv (hl rfl)⟩
  | ds y => exact ⟨q, d, cmdDs_repass S e n c r y argv⟩
  | nsnew => exact ⟨q, d, cmdNsnew_repass S e n c argv he⟩
  | nsdel => exact ⟨q, d, cmdNsdel_repass n c argv⟩
  | nslist => exact ⟨q, d, cmdNslist_repass n c⟩
  | reload => exact ⟨q, d, cmdReload_repass S n c argv⟩
  | flush => exact ⟨q, d, cmdFlush_repass S n c r⟩
  | wait =>
    refine ⟨q, d, ?_⟩
    simp only [runHandler, cmdWait]
    repeat' split
    all_goals rfl
  | auth =>
    refine ⟨q, d, ?_⟩
    simp only [runHandler, cmdAuth, cmdAuthRegular, cmdAuthSecure]
    repeat' split
    all_goals rfl
  | _ =>
    refine ⟨q, d, ?_⟩
    simp only [runHandler]
    repeat' split
    all_goals rfl

/-! ### restarts -/

/-- A directory with another settings file. -/
def altDir (u : Nat) (d : Bytes) (x : Dir) : Dir := if x.uid = u then { x with desc := d } else x

theorem dir_alter (r : NsRec) : (alter u q d r).dir = altDir u d r.dir := by
  unfold altDir
  by_cases hu : r.uid = u
  · have : r.dir.uid = u := hu
    rw [if_pos this, alter_self hu]; rfl
  · have : r.dir.uid ≠ u := hu
    rw [if_neg this, alter_other hu]

theorem loadDirs_alt (S : Settings) (ds : List Dir)
    (h : ∀ x ∈ ds, x.uid = u → ∃ c f, loadDesc x.name x.desc = some (c, f) ∧
      loadDesc x.name d = some ({ c with password := c.password.map (fun _ => q) }, d)) (br : Branches) :
    loadDirs S br (ds.map (altDir u d)) =
      match loadDirs S br ds with
      | .ok br l => .ok br (l.map (alter u q d))
      | r => r := by
  induction ds generalizing br with
  | nil => rfl
  | cons x ds ih =>
    have ih := fun br => ih (fun y hy => h y (List.mem_cons_of_mem _ hy)) br
    by_cases hu : x.uid = u
    · obtain ⟨c, f, h1, h2⟩ := h x (List.mem_cons_self ..) hu
      have hx : altDir u d x = { x with desc := d } := by unfold altDir; rw [if_pos hu]
      simp only [List.map_cons, hx, loadDirs, h1, h2]
      cases loadNs S.cfg br x.uid x.ifiles x.dfiles with
      | ok br1 s =>
        simp only [ih br1]
        cases loadDirs S br1 ds with
        | ok br2 l => simp only [List.map_cons, alter, hu, if_true]
        | exit => rfl
        | ub => rfl
      | exit => rfl
      | ub => rfl
    · have hx : altDir u d x = x := by unfold altDir; rw [if_neg hu]
      simp only [List.map_cons, hx, loadDirs]
      cases loadDesc x.name x.desc with
      | none => exact ih br
      | some y =>
        obtain ⟨c, f⟩ := y
        simp only
        cases loadNs S.cfg br x.uid x.ifiles x.dfiles with
        | ok br1 s =>
          simp only [ih br1]
          cases loadDirs S br1 ds with
          | ok br2 l => simp only [List.map_cons, alter, hu, if_false]
          | exit => rfl
          | ub => rfl
        | exit => rfl
        | ub => rfl

theorem loadDirs_head {S : Settings} {br br' : Branches} {x : Dir} {ds : List Dir} {r : NsRec} {l : List NsRec}
    (hx : (loadDesc x.name x.desc).isSome) (h : loadDirs S br (x :: ds) = .ok br' (r :: l)) : r.uid = x.uid := by
  obtain ⟨⟨c, f⟩, hc⟩ := Option.isSome_iff_exists.1 hx
  simp only [loadDirs, hc] at h
  split at h
  · rename_i br1 s _
    cases hh : loadDirs S br1 ds with
    | ok br2 l2 =>
      rw [hh] at h
      injection h with _ h
      injection h with h _
      rw [← h]
    | exit => rw [hh] at h; cases h
    | ub => rw [hh] at h; cases h
  · cases h
  · cases h

theorem loadDesc_alter {S : Settings} {n : Node} (hi : NodeInv S n) (hi' : NodeInv S (repass u q d n)) {r : NsRec} (hr : r ∈ recs n)
    (hu : r.uid = u) (hname : r.conf.name ≠ nameDefault) (hp : r.conf.password = some [] ↔ r.conf.password.map (fun _ => q) = some []) :
    ∃ c f, loadDesc r.conf.name r.desc = some (c, f) ∧
      loadDesc r.conf.name d = some ({ c with password := c.password.map (fun _ => q) }, d) := by
  have hr' : alter u q d r ∈ recs (repass u q d n) := by
    show _ ∈ (repass u q d n).slots.filterMap id
    rw [recs_repass]
    exact List.mem_map.2 ⟨r, hr, rfl⟩
  have hlen := goodName_len (hi.shape r hr)
  have hpl : ∀ x : NsRec, DescOK x → x.conf.name ≠ nameDefault → (x.conf.password.getD []).length < 256 := by
    intro x hx hn
    cases h : x.conf.password with
    | none => simp
    | some p => have := (hx.pass hn p h).2; simp only [Option.getD_some]; omega
  obtain ⟨c, tail, h1, h2⟩ := (hi.desc r hr).written
  obtain ⟨c', tail', h1', h2'⟩ := (hi'.desc _ hr').written
  have hname' : (alter u q d r).conf.name ≠ nameDefault := by rw [alter_name]; exact hname
  rw [h2 hname] at h1
  rw [h2' hname'] at h1'
  have hd : (alter u q d r).desc = d := by rw [alter_self hu]
  refine ⟨loadedConf r.conf.name r.conf, r.desc, ?_, ?_⟩
  · rw [h1]; exact loadDesc_enc _ _ _ hlen (hpl r (hi.desc r hr) hname)
  · have h3 := loadDesc_enc r.conf.name (alter u q d r).conf tail' (by rw [alter_name]; exact hlen) (hpl _ (hi'.desc _ hr') hname')
    rw [← h1', hd] at h3
    rw [h3]
    have hpass := (hi'.desc _ hr').pass hname'
    rw [alter_self hu] at hpass ⊢
    simp only at hpass
    congr 2
    simp only [loadedConf, NsConf.mk.injEq, true_and, and_true]
    cases hk : r.conf.password with
    | none => simp [loadedPass]
    | some p =>
      rw [hk] at hpass hp
      simp only [Option.map_some, Option.some.injEq] at hp
      by_cases hq : q = []
      · simp [loadedPass, hq, hp.2 hq]
      · have hp : p ≠ [] := fun e => hq (hp.1 e)
        simp only [Option.map_some, Option.getD_some, loadedPass, if_neg hp, if_neg hq, cstr_eq (hpass q rfl).1]

theorem restart_repass {S : Settings} {n n1 : Node} {order : List Nat} (hi : NodeInv S n) (hi' : NodeInv S (repass u q d n))
    {r : NsRec} (hu : nsDeref n u = some r) (hname : r.conf.name ≠ nameDefault) (hp : r.conf.password = some [] ↔ r.conf.password.map (fun _ => q) = some [])
    (h : restartNode S n order = some n1) : restartNode S (repass u q d n) order = some (repass u q d n1) := by
  obtain ⟨dd, l, hs, hdn⟩ := hi.head
  have hru := nsDeref_some hu
  have hdd : dd ∈ recs n := by rw [mem_recs, hs]; exact List.mem_cons_self ..
  have hdu : dd.uid ≠ u := by
    intro e
    have := nsDeref_mem hi.uids hdd
    rw [e, hu] at this
    injection this with this
    exact hname (this ▸ hdn)
  have hs' : (repass u q d n).slots = some dd :: l.map (Option.map (alter u q d)) := by
    show n.slots.map _ = _
    rw [hs, List.map_cons, Option.map_some, alter_other hdu]
  have hl : (l.map (Option.map (alter u q d))).filterMap id = (l.filterMap id).map (alter u q d) := by
    clear hs hs'
    induction l with
    | nil => rfl
    | cons x l ih => cases x <;> simp_all
  unfold restartNode at h ⊢
  rw [hs] at h
  rw [hs']
  simp only at h ⊢
  generalize hds : order.filterMap (fun u => ((l.filterMap id).find? (fun r => r.uid == u)).map NsRec.dir) = ds at h
  have hds' : order.filterMap (fun v => (((l.map (Option.map (alter u q d))).filterMap id).find? (fun r => r.uid == v)).map NsRec.dir) =
      ds.map (altDir u d) := by
    rw [← hds, List.map_filterMap]
    congr 1
    funext v
    rw [hl, find_alter _ _ (fun r => by rw [alter_uid]), Option.map_map, Option.map_map]
    congr 1
    funext r
    exact dir_alter r
  rw [hds']
  have hload := loadDirs_alt (u := u) (q := q) (d := d) S (dd.dir :: ds) (by
    intro x hx hxu
    rcases List.mem_cons.1 hx with rfl | hx
    · exact absurd hxu hdu
    · rw [← hds] at hx
      obtain ⟨v, -, hv⟩ := List.mem_filterMap.1 hx
      obtain ⟨y, hy, rfl⟩ := Option.map_eq_some_iff.1 hv
      have hym : y ∈ recs n := by
        have := List.mem_of_find?_eq_some hy
        unfold recs
        rw [hs]
        exact List.mem_cons_of_mem _ this
      have hyr := nsDeref_mem hi.uids hym
      have hyu : y.uid = u := hxu
      rw [hyu, hu] at hyr
      injection hyr with hyr
      subst hyr
      exact loadDesc_alter hi hi' hym hyu hname hp) (fun _ => [])
  have hx : altDir u d dd.dir = dd.dir := by unfold altDir; exact if_neg hdu
  rw [List.map_cons, hx] at hload
  unfold boot at h ⊢
  cases hdesc : loadDesc dd.dir.name dd.dir.desc with
  | none => rw [hdesc] at h; cases h
  | some z =>
    rw [hdesc] at h
    simp only at h ⊢
    rw [hload]
    split at h
    · rename_i br y l2 hl2
      rw [hl2]
      have hyu : y.uid ≠ u := by rw [loadDirs_head (by rw [hdesc]; rfl) hl2]; exact hdu
      injection h with h
      subst h
      simp only [List.map_cons, List.length_map]
      simp only [repass, List.map_cons, Option.map_some, List.map_map]
      rw [alter_other hyu, alter_other (r := { y with conf := startConf S y.conf }) hyu]
      rfl
    · cases h

end Zdb
