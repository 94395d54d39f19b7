/-
Settings of namespaces: worm mode, restarts, the growth of the log of a namespace.
-/
import Verif.Lemmas.NodeReq
import Verif.Lemmas.SeqRun
import Verif.Lemmas.SeqSpec
import Verif.Lemmas.UserSpec
namespace Zdb

/-! ### worm mode -/

/-- An event which, if it is a SET or a DEL, finds the namespace in worm mode. -/
def WormEvent : NsEvent → Prop
  | .cmd c d _ => d.writes = true → c.conf.worm = true
  | _ => True

theorem specSet_worm {conf : NsConf} (hw : conf.worm = true) (w st : Bool) {m : KV} {k : Bytes} {v : Val}
    (h : m.get k = some v) (k' p : Bytes) (t : Nat) : (specSet conf w st m k' p t).1.get k = some v := by
  unfold specSet
  repeat' split
  all_goals first
    | exact h
    | skip
  rename_i h1 _ _ _ _
  rw [KV.get_put, if_neg, h]
  rintro rfl
  exact h1 (by rw [h, hw]; rfl)

theorem specDel_worm {conf : NsConf} (hw : conf.worm = true) (w st : Bool) {m : KV} {k : Bytes} {v : Val}
    (h : m.get k = some v) (k' : Bytes) : (specDel conf w st m k').1.get k = some v := by
  unfold specDel
  repeat' split
  all_goals first
    | exact h
    | (rename_i h1 _; exact absurd hw h1)

theorem specEvent_worm {m : KV} {k : Bytes} {v : Val} (h : m.get k = some v) {e : NsEvent} (he : WormEvent e) :
    (specEvent m e).1.get k = some v := by
  cases e with
  | foreign => exact h
  | reload => exact h
  | cmd c d argv =>
    simp only [specEvent]
    by_cases hd : d.writes = true
    · have hw := he hd
      cases d <;> simp [DsCmd.writes] at hd
      · simp only [specCmd]
        repeat' split
        all_goals first
          | exact h
          | exact specSet_worm hw _ _ h _ _ _
      · simp only [specCmd]
        repeat' split
        all_goals first
          | exact h
          | exact specDel_worm hw _ _ h _
    · rw [specCmd_fst_of_not_writes c m d argv (by simpa using hd)]
      exact h

theorem specRun_worm {m : KV} {k : Bytes} {v : Val} (h : m.get k = some v) {es : List NsEvent} (he : ∀ e ∈ es, WormEvent e) :
    (specRun m es).get k = some v := by
  induction es generalizing m with
  | nil => exact h
  | cons e es ih =>
    exact ih (specEvent_worm h (he e (List.mem_cons_self ..))) (fun x hx => he x (List.mem_cons_of_mem _ hx))

theorem specRun_app (m : KV) (a b : List NsEvent) : specRun m (a ++ b) = specRun (specRun m a) b := by
  induction a generalizing m with
  | nil => rfl
  | cons e a ih => exact ih _

theorem specSeqSet_worm {conf : NsConf} (hw : conf.worm = true) (w st : Bool) {m : Slots} {k : Bytes} {v : Val}
    (h : m.get k = some v) (k' p : Bytes) (t : Nat) : (specSeqSet conf w st m k' p t).1.get k = some v := by
  rcases specSeqSet_cases conf w st m k' p t with ⟨-, h1⟩ | ⟨-, -, h1, -⟩ | ⟨v', h0, h1, -⟩
  · rw [h1]; exact h
  · rw [h1]
    obtain ⟨hk, hlt⟩ := Slots.some_lt h
    rw [Slots.get_eq _ hk] at h ⊢
    unfold Slots.push
    rw [List.getElem?_append_left hlt]
    exact h
  · exfalso
    unfold specSeqSet at h1
    rw [h0, hw] at h1
    simp only [Option.isSome_some, Bool.and_self, if_true] at h1
    repeat' split at h1
    all_goals simp at h1

theorem specSeqDel_worm {conf : NsConf} (hw : conf.worm = true) (w st : Bool) {m : Slots} {k : Bytes} {v : Val}
    (h : m.get k = some v) (k' : Bytes) : (specSeqDel conf w st m k').1.get k = some v := by
  unfold specSeqDel
  repeat' split
  all_goals first
    | exact h
    | (rename_i h1 _; exact absurd hw h1)

theorem specSeqEvent_worm {m : Slots} {k : Bytes} {v : Val} (h : m.get k = some v) {e : NsEvent} (he : WormEvent e) :
    (specSeqEvent m e).1.get k = some v := by
  cases e with
  | foreign => exact h
  | reload => exact h
  | cmd c d argv =>
    simp only [specSeqEvent]
    by_cases hd : d.writes = true
    · have hw := he hd
      cases d <;> simp [DsCmd.writes] at hd
      · simp only [specSeqCmd]
        repeat' split
        all_goals first
          | exact h
          | exact specSeqSet_worm hw _ _ h _ _ _
      · simp only [specSeqCmd]
        repeat' split
        all_goals first
          | exact h
          | exact specSeqDel_worm hw _ _ h _
    · rw [specSeqCmd_fst_of_not_writes c m d argv (by simpa using hd)]
      exact h

theorem specSeqRun_worm {m : Slots} {k : Bytes} {v : Val} (h : m.get k = some v) {es : List NsEvent}
    (he : ∀ e ∈ es, WormEvent e) : (specSeqRun m es).get k = some v := by
  induction es generalizing m with
  | nil => exact h
  | cons e es ih =>
    exact ih (specSeqEvent_worm h (he e (List.mem_cons_self ..))) (fun x hx => he x (List.mem_cons_of_mem _ hx))

theorem specSeqRun_app (m : Slots) (a b : List NsEvent) : specSeqRun m (a ++ b) = specSeqRun (specSeqRun m a) b := by
  induction a generalizing m with
  | nil => rfl
  | cons e a ih => exact ih _

/-! ### a property of all states of an execution of the node -/

/-- `P` holds before and after each of the events `l`, started in `n`. -/
def Along (S : Settings) (P : Node → Prop) : Node → List (Event × List (Nat × Msg)) → Prop
  | n, [] => P n
  | n, x :: l => P n ∧ ∀ n1 sent st, nodeStep S n x.1 = .ok n1 sent st → Along S P n1 l

/-- Namespace `u` is in worm mode. -/
def IsWorm (u : Nat) (n : Node) : Prop := ∃ r, nsDeref n u = some r ∧ r.conf.worm = true

theorem Life.worm {S : Settings} {u : Nat} {n n' : Node} {l : List (Event × List (Nat × Msg))} {tr : List (NsEvent × Reply)}
    (h : Life S u n l tr n') (hw : Along S (IsWorm u) n l) : ∀ e ∈ tr.map (·.1), WormEvent e := by
  induction h with
  | nil => simp
  | @cons n n1 n2 ev sent st l tr hu hg hf hs hsw h ih =>
    intro e he
    rw [List.map_append] at he
    rcases List.mem_append.1 he with he | he
    · cases ev with
      | request fd env argv =>
        simp only [view, List.map_cons, List.map_nil, List.mem_singleton] at he
        subst he
        unfold viewRequest
        cases hp : pick n fd env argv with
        | none => trivial
        | some p =>
          simp only
          obtain ⟨-, -, u0, key, rest, i, name, -, -, -, hder, -⟩ := pick_some hp
          split
          · split
            · rename_i hpu
              obtain ⟨r, hr, hrw⟩ := hw.1
              intro _
              have hpr : p.r = r := by
                obtain ⟨hm1, hm2⟩ := nsDeref_some hder
                rw [hm2] at hpu
                subst hpu
                rw [hder] at hr
                injection hr
              change p.r.conf.worm = true
              rw [hpr]; exact hrw
            · trivial
          · split <;> trivial
      | rotate v =>
        simp only [view, List.map_cons, List.map_nil, List.mem_singleton] at he
        subst he
        split
        · intro h; simp [DsCmd.writes] at h
        · trivial
      | restart order =>
        simp only [view, List.map_cons, List.map_nil, List.mem_cons, List.not_mem_nil, or_false] at he
        rcases he with rfl | rfl | rfl <;> trivial
      | _ =>
        simp only [view, List.map_cons, List.map_nil, List.mem_singleton] at he
        subst he; trivial
    · exact ih (hw.2 n1 sent st hs) e he

theorem Life.append {S : Settings} {u : Nat} {n n1 n2 : Node} {l l' : List (Event × List (Nat × Msg))}
    {tr tr' : List (NsEvent × Reply)} (h : Life S u n l tr n1) (h' : Life S u n1 l' tr' n2) :
    Life S u n (l ++ l') (tr ++ tr') n2 := by
  induction h with
  | nil n hu => exact h'
  | cons hu hg hf hs hw _ ih =>
    rw [List.append_assoc]
    exact .cons hu hg hf hs hw (ih h')

theorem SeqLife.append {S : Settings} {u : Nat} {n n1 n2 : Node} {l l' : List (Event × List (Nat × Msg))}
    {tr tr' : List (NsEvent × Reply)} (h : SeqLife S u n l tr n1) (h' : SeqLife S u n1 l' tr' n2) :
    SeqLife S u n (l ++ l') (tr ++ tr') n2 := by
  induction h with
  | nil n hu => exact h'
  | cons hu hg hf hs hw hc hl _ ih =>
    rw [List.append_assoc]
    exact .cons hu hg hf hs hw hc hl (ih h')

/-! ### restarts -/

/-- No namespace is lost in a restart. -/
theorem restart_keeps {S : Settings} {n n' : Node} (h : NodeInv S n) {order : List Nat} (hg : Guard S n (.restart order))
    (hr : restartNode S n order = some n') {r : NsRec} (hm : r ∈ recs n) : ∃ r' ∈ recs n', r'.uid = r.uid := by
  obtain ⟨d, l, ds, hrecs, hd, hp, hb⟩ := restartNode_boot h hr hg.2
  have hok : ∀ x ∈ d.dir :: ds, DirOK S x := by
    intro x hx
    rcases List.mem_cons.1 hx with rfl | hx
    · have : d ∈ recs n := by rw [hrecs]; exact List.mem_cons_self ..
      exact NsRec.dir_ok h this (hg.1 d this)
    · obtain ⟨r, hr, rfl⟩ := List.mem_map.1 (hp.mem_iff.1 hx)
      have : r ∈ recs n := by rw [hrecs]; exact List.mem_cons_of_mem _ hr
      exact NsRec.dir_ok h this (hg.1 r this)
  have hp' : (d.dir :: ds).Perm ((recs n).map NsRec.dir) := by rw [hrecs]; exact hp.cons _
  obtain ⟨h1, h2, r0, l0, hload, hslots, hall⟩ := boot_inv hd (by
    rw [(hp'.map _).nodup_iff, List.map_map]; exact h.uids) (by
    rw [(hp'.map _).nodup_iff, List.map_map]; exact h.names) hok hb
  have hrl : recs n' = { r0 with conf := startConf S r0.conf } :: l0 := by
    unfold recs; rw [hslots]; simp [List.filterMap_map]
  obtain ⟨y, hy, hyl⟩ := hall.left r.dir (hp'.mem_iff.2 (List.mem_map.2 ⟨r, hm, rfl⟩))
  rw [hrl]
  rcases List.mem_cons.1 hy with rfl | hy
  · exact ⟨_, List.mem_cons_self .., hyl.uid⟩
  · exact ⟨y, List.mem_cons_of_mem _ hy, hyl.uid⟩

/-- The settings of a namespace other than the default one after a restart. -/
theorem restart_conf {S : Settings} {n n' : Node} (h : NodeInv S n) {order : List Nat} (hg : Guard S n (.restart order))
    (hr : restartNode S n order = some n') {r : NsRec} (hm : r ∈ recs n) (hd : r.conf.name ≠ nameDefault) :
    ∃ r' ∈ recs n', r'.uid = r.uid ∧ r'.conf = { r.conf with lock := .unlocked, password := loadedPass (r.conf.password.getD []) } := by
  obtain ⟨r', hr', hu⟩ := restart_keeps h hg hr hm
  obtain ⟨-, -, hall⟩ := h.restart hg hr
  obtain ⟨r0, hr0, hu0, br1, br2, conf, -, -, -, hl, hc⟩ := hall r' hr'
  have : r0 = r := uid_inj h.uids hr0 hm (by rw [← hu0, hu])
  subst this
  refine ⟨r', hr', hu, ?_⟩
  rw [if_neg hd] at hc
  rw [hc]
  have hdesc := h.desc r0 hm
  obtain ⟨c, tail, h1, h2⟩ := hdesc.written
  rw [h1, h2 hd] at hl
  have hgood : GoodName r0.conf.name := by
    rcases h.shape r0 hm with hh | hh
    · exact absurd hh hd
    · exact hh
  have hp : (r0.conf.password.getD []).length < 256 := by
    cases hpw : r0.conf.password with
    | none => simp
    | some p => have := (hdesc.pass hd p hpw).2; simp; omega
  rw [loadDesc_enc r0.conf.name r0.conf tail (by have := hgood.len; omega) hp] at hl
  simp only [Option.some.injEq, Prod.mk.injEq] at hl
  rw [← hl.1]
  simp only [loadedConf, defaultConf, Nat.mod_eq_of_lt (hdesc.size hd)]

/-! ### the log of a user-key namespace grows -/

theorem Kills.length {P : Bytes → Prop} {a b : List Loc} (h : Kills P a b) : b.length = a.length := by
  induction a generalizing b with
  | nil =>
    cases b with
    | nil => rfl
    | cons _ _ => exact absurd h id
  | cons x a ih =>
    cases b with
    | nil => exact absurd h id
    | cons y b => simp [ih h.2]

/-- An acknowledged SET. -/
def isSetAck : NsEvent × Reply → Bool
  | (.cmd _ .set _, .bulk _) => true
  | _ => false

/-- An acknowledged NSJUMP (also: files changed by the process itself). -/
def isJumpAck : NsEvent × Reply → Bool
  | (.cmd _ .nsjump _, .simple _) => true
  | _ => false

theorem setAck_get {m : KV} {c : Ctx} {argv : List Bytes} {b : Bytes}
    (hr : ∀ r', (specCmd c m .set argv).2 = some r' → Reply.bulk b = r') : (specCmd c m .set argv).1 ≠ [] := by
  have key : ∀ k p t, (specSet c.conf c.writable (c.io.dhdr.ok && c.io.dpay.ok) m k p t).2 = .bulk b →
      (specSet c.conf c.writable (c.io.dhdr.ok && c.io.dpay.ok) m k p t).1 ≠ [] := by
    intro k p t h
    have hx : (∀ b, (specSet c.conf c.writable (c.io.dhdr.ok && c.io.dpay.ok) m k p t).2 ≠ .bulk b) ∨
        (specSet c.conf c.writable (c.io.dhdr.ok && c.io.dpay.ok) m k p t).1 = m.put k p t := by
      unfold specSet
      repeat' split
      all_goals first
        | (right; rfl)
        | (left; intro b; simp)
    rcases hx with hx | hx
    · exact absurd h (hx b)
    · rw [hx]; simp [KV.put]
  match argv, hr with
  | [], hr => exact absurd (hr _ rfl) (by simp)
  | [_], hr => exact absurd (hr _ rfl) (by simp)
  | [_, _], hr => exact absurd (hr _ rfl) (by simp)
  | [n, k, p], hr => exact key k p _ (hr _ rfl).symm
  | [n, k, p, t], hr =>
    by_cases had : c.admin = true
    · simp only [specCmd, had, if_true] at hr ⊢
      exact key k p _ (hr _ rfl).symm
    · simp only [specCmd, had] at hr
      exact absurd (hr _ rfl) (by simp)
  | _ :: _ :: _ :: _ :: _ :: _, hr => exact absurd (hr _ rfl) (by simp)

theorem UInv.grows {cfg : Option Mode} (hcfg : cfg = none ∨ cfg = some .user) {u : Nat} {br br' : Branches}
    {s s' : Store} {tr : List (NsEvent × Reply)} (hr : NsRun cfg u br s tr br' s') {G : Log}
    (h : UInv br u s G) (hev : ∀ x ∈ tr, EvOK x.1)
    (hroom : Room s.ifiles.length (totalData s) tr.length) :
    ∃ G', UInv br' u s' G' ∧ (locs G).length ≤ (locs G').length ∧ G.length ≤ G'.length ∧
      (∀ x ∈ tr, isSetAck x = true → locs G' ≠ []) ∧ (∀ x ∈ tr, isJumpAck x = true → G.length < G'.length) := by
  induction hr generalizing G with
  | nil br s => exact ⟨G, h, Nat.le_refl _, Nat.le_refl _, by simp, by simp⟩
  | @cmd c d argv br br1 br2 s s1 s2 r tr hu h1 h2 ih =>
    subst hu
    obtain ⟨hc, ha⟩ := hev _ (List.mem_cons_self ..)
    have hroom1 : Room s.ifiles.length (totalData s) 1 := hroom.mono (by simp)
    obtain ⟨G1, i1, i2, i3, i4⟩ := h.command hc d argv ha hroom1
    have hg := dsCommand_grows c br s d argv (2 ^ 23) ha.size
    have hjump : isJumpAck (.cmd c d argv, (dsCommand c br s d argv).2.2) = true → G.length < G1.length := by
      intro hj
      cases d <;> simp [isJumpAck] at hj
      have had : c.admin = true := by
        simp only [dsCommand, cmdNsjump] at hj
        by_cases had : c.admin = true
        · exact had
        · simp [had, errDenied] at hj
      have e1 : (dsCommand c br s .nsjump argv).2.1.indexid = (s.indexid + 1) % 2 ^ 32 := by
        simp only [dsCommand, cmdNsjump, had, if_true, Zdb.jump, dataOpen, indexSetId]
      have e2 := i1.iid
      have e3 := h.iid
      have e4 := h.irep.length
      rw [e1] at e2
      have := hroom1.1
      rw [Nat.mod_eq_of_lt (by omega)] at e2
      omega
    rw [h1] at i1 i3 hg hjump
    obtain ⟨G', j1, j2, j3, j4, j5⟩ := ih i1 (fun x hx => hev x (List.mem_cons_of_mem _ hx))
      (hroom.step hg (by omega))
    obtain ⟨k1, L, E, k2, k3, -⟩ := i4
    have hl : (locs G).length ≤ (locs G1).length := by
      rw [k2, List.length_append, k3.length]; omega
    refine ⟨G', j1, by omega, by omega, ?_, ?_⟩
    · intro x hx hs
      rcases List.mem_cons.1 hx with rfl | hx
      · cases d <;> simp [isSetAck] at hs
        cases r <;> simp at hs
        have := setAck_get (m := absKV G) (c := c) (argv := argv) i3
        rw [← i2] at this
        intro h0
        rw [h0] at j2
        have h00 : locs G1 = [] := List.length_eq_zero_iff.1 (by simpa using j2)
        exact this (by simp [absKV, live, h00])
      · exact j4 x hx hs
    · intro x hx hs
      rcases List.mem_cons.1 hx with rfl | hx
      · have := hjump hs; omega
      · have := j5 x hx hs; omega
  | @foreign br br1 br2 s s2 tr h1 h2 ih =>
    obtain ⟨G', j1, j2, j3, j4, j5⟩ := ih (h.foreign h1) (fun x hx => hev x (List.mem_cons_of_mem _ hx))
      (hroom.mono (by simp))
    refine ⟨G', j1, j2, j3, ?_, ?_⟩
    all_goals
      intro x hx hs
      rcases List.mem_cons.1 hx with rfl | hx
      · simp [isSetAck, isJumpAck] at hs
      · first | exact j4 x hx hs | exact j5 x hx hs
  | @reload br br1 br2 s s1 s2 tr h1 h2 ih =>
    have hlen := h.irep.length
    obtain ⟨b, t, k1, k2, k3, k4, -⟩ := h.reload cfg hcfg (by have := hroom.1; omega)
    rw [h1] at k1
    injection k1 with k1 k1'
    subst k1; subst k1'
    obtain ⟨G', j1, j2, j3, j4, j5⟩ := ih k2 (fun x hx => hev x (List.mem_cons_of_mem _ hx))
      (by rw [k3, totalData, k4]; exact hroom.mono (by simp))
    refine ⟨G', j1, j2, j3, ?_, ?_⟩
    all_goals
      intro x hx hs
      rcases List.mem_cons.1 hx with rfl | hx
      · simp [isSetAck, isJumpAck] at hs
      · first | exact j4 x hx hs | exact j5 x hx hs

/-! ### what changes the settings and the store of a namespace -/

/-- An acknowledged NSSET of the namespace `r`, which became `r'`. -/
structure SetBy (S : Settings) (n : Node) (fd : Nat) (e : Env) (argv : List Bytes) (sent : List (Nat × Msg)) (r r' : NsRec) : Prop where
  ex : ∃ p, pick n fd e argv = some p ∧ p.h = .nsset ∧ p.c.admin = true ∧ ∃ a b prop value, p.argv = [a, b, prop, value] ∧
    nsArg p.argv = .ok r.conf.name ∧ ∃ y, nsProperty S r r.conf.name (cstr prop) (cstr value) = .ok y ∧ r' = commitNs y ∧
    (0 : UInt8) ∉ cstr value ∧ (cstr value).length ≤ 63
  ok : GotOk fd sent

/-- What a request does to the settings of a namespace that exists before and after. -/
theorem conf_request {S : Settings} {n n' : Node} {fd : Nat} {e : Env} {argv : List Bytes} {sent : List (Nat × Msg)}
    {st : Status} (hi : NodeInv S n) (hg : Guard S n (.request fd e argv)) (h : request S n fd e argv = .ok n' sent st) {u : Nat}
    {r r' : NsRec} (hu : nsDeref n u = some r) (hu' : nsDeref n' u = some r') :
    (r'.conf = r.conf ∧ r'.desc = r.desc ∧ ∀ p, pick n fd e argv = some p → p.h = .nsset → r'.store = r.store) ∨
      SetBy S n fd e argv sent r r' := by
  have hru := (nsDeref_some hu).2
  rcases request_pick h with ⟨hp, h1, h2, -⟩ | ⟨p, n1, c1, m, i, hp, hrun, hn', hsent⟩
  · left
    rw [nsDeref_congr h2, hu] at hu'
    injection hu' with hu'
    subst hu'
    exact ⟨rfl, rfl, fun _ _ _ => rfl⟩
  · have hpost := post_rest p.e fd (putClient n1 fd (some c1)) c1
    have hder : nsDeref n' u = nsDeref n1 u := by rw [hn']; exact nsDeref_congr hpost.2.1 u
    rw [hder] at hu'
    have hpu : p.e.uid = e.uid := by
      obtain ⟨-, hpo, -⟩ := pick_some hp
      exact popOwner_uid hpo
    have hns : ∀ {ph : Handler}, p.h = ph → ph ≠ .nsset →
        ∀ p', pick n fd e argv = some p' → p'.h = .nsset → r'.store = r.store := by
      intro ph h1 h2 p' hp' hh
      rw [hp] at hp'; injection hp' with hp'; subst hp'
      exact absurd (h1.symm.trans hh) h2
    have he := runHandler_eff hrun
    generalize hq : p.h = ph at he
    cases he with
    | same h m hd hqm =>
      left
      rw [nsDeref_congr rfl, hu] at hu'; injection hu' with hu'; subst hu'
      exact ⟨rfl, rfl, fun _ _ _ => rfl⟩
    | ds d br s rep hd hc =>
      left
      rw [nsDeref_update _ _ _ (fun r => { r with store := s }) (fun _ => rfl),
        show nsDeref { n with br := br } u = nsDeref n u from rfl, hu] at hu'
      simp only [Option.map_some, Option.some.injEq] at hu'
      refine ⟨?_, ?_, hns hq (by simp)⟩
      · rw [← hu']; split <;> rfl
      · rw [← hu']; split <;> rfl
    | nsnew name br s ha hl hn hv hf h0 hk hs =>
      left
      have hne : ∀ x ∈ recs n, x.uid ≠ p.e.uid := by rw [hpu]; exact hg.1
      have hmem := (nsDeref_some hu').1
      have hmem := List.mem_cons.1 ((pushSlot_perm _ _).mem_iff.1 hmem)
      have huu := (nsDeref_some hu').2
      rcases hmem with hmem | hmem
      · exact absurd (by rw [hru, ← huu, hmem]) (hne r (nsDeref_some hu).1)
      · have : r' = r := uid_inj hi.uids hmem (nsDeref_some hu).1 (huu.trans hru.symm)
        subst this
        exact ⟨rfl, rfl, fun _ _ _ => rfl⟩
    | nsdel name x ha hl hn hd hx hc =>
      left
      have hmem := (nsDeref_some hu').1
      have huu := (nsDeref_some hu').2
      have hmem : r' ∈ (kickSlot x.uid n.slots).filterMap id := hmem
      rw [kickSlot_filterMap] at hmem
      change r' ∈ (recs n).eraseP (fun r => r.uid == x.uid) at hmem
      rw [eraseP_uid hi.uids, List.mem_filter] at hmem
      have : r' = r := uid_inj hi.uids hmem.1 (nsDeref_some hu).1 (huu.trans hru.symm)
      subst this
      exact ⟨rfl, rfl, fun _ _ _ => rfl⟩
    | nsset a b prop value target x y ha hargs hv hn hx hp' =>
      have hlen := Nat.le_trans (cstr_length_le value) hv
      have hpo := nsProperty_ok (mem_cstr value) hlen hp'
      obtain ⟨hxm, hxn⟩ := nsGet_some hx
      have hmem := (nsDeref_some hu').1
      have huu := (nsDeref_some hu').2
      rcases mem_recs_update.1 hmem with ⟨x', hx', hxu, hr'⟩ | ⟨hmem', hne⟩
      · right
        have h1 : r'.uid = x.uid := by rw [hr']; exact hpo.uid
        have h2 : x = r := uid_inj hi.uids hxm (nsDeref_some hu).1 (by rw [hru, ← huu, h1])
        subst h2
        rw [← hxn] at hn hp'
        exact ⟨⟨p, hp, hq, ha, a, b, prop, value, hargs, hn, y, hp', hr', mem_cstr value, hlen⟩, by rw [hsent]; rfl⟩
      · left
        have : r' = r := uid_inj hi.uids hmem' (nsDeref_some hu).1 (huu.trans hru.symm)
        subst this
        exact ⟨rfl, rfl, fun _ _ _ => rfl⟩
    | reload name x br s ha hl hn hx hr =>
      left
      rw [nsDeref_update _ _ _ (fun r => { r with store := s }) (fun _ => rfl),
        show nsDeref { n with br := br } u = nsDeref n u from rfl, hu] at hu'
      simp only [Option.map_some, Option.some.injEq] at hu'
      refine ⟨?_, ?_, hns hq (by simp)⟩
      · rw [← hu']; split <;> rfl
      · rw [← hu']; split <;> rfl
    | flush br s hp' hw hr' =>
      left
      rw [nsDeref_update _ _ _ (fun r => { r with store := s }) (fun _ => rfl),
        show nsDeref { n with br := br } u = nsDeref n u from rfl, hu] at hu'
      simp only [Option.map_some, Option.some.injEq] at hu'
      refine ⟨?_, ?_, hns hq (by simp)⟩
      · rw [← hu']; split <;> rfl
      · rw [← hu']; split <;> rfl

end Zdb
