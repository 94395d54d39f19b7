/-
Files of the namespaces of a process, whatever their modes and whatever writes fail.
-/
import Verif.Lemmas.FilesKept
import Verif.Lemmas.NodeLife
namespace Zdb

/-- Conditions on an event that come from the model: a new namespace gets an unused address, a restart lists every
    directory once. -/
def FreeGuard (n : Node) : Event → Prop
  | .request _ e _ => ∀ r ∈ recs n, r.uid ≠ e.uid
  | .restart order => order.Perm ((recs n).tail.map (·.uid))
  | _ => True

/-- Executions of the process under `FreeGuard` alone. -/
inductive FreeRun (S : Settings) : Node → List (Event × List (Nat × Msg)) → Node → Prop where
  | nil (n : Node) : FreeRun S n [] n
  | cons {n n1 n2 : Node} {ev : Event} {sent : List (Nat × Msg)} {st : Status} {l : List (Event × List (Nat × Msg))}
      (hg : FreeGuard n ev) (hs : nodeStep S n ev = .ok n1 sent st) (h : FreeRun S n1 l n2) :
      FreeRun S n ((ev, sent) :: l) n2

/-- Addresses are distinct; files of all namespaces are in step, at most `k` jumps happened. -/
structure FInv (n : Node) (k : Nat) : Prop where
  uids : ((recs n).map (·.uid)).Nodup
  files : ∀ r ∈ recs n, InStep r.store ∧ Headed r.store ∧ r.store.indexid ≤ k

/-- Where the namespaces of `n'` come from. -/
structure Carried (n n' : Node) : Prop where
  uids : ((recs n').map (·.uid)).Nodup
  from_ : ∀ r' ∈ recs n', (∃ r ∈ recs n, r'.uid = r.uid ∧ Keeps r.store r'.store) ∨
    ((∀ r ∈ recs n, r.uid ≠ r'.uid) ∧ ∃ m, r'.store = freshStore m)

theorem Carried.inv {n n' : Node} {k : Nat} (h : Carried n n') (hi : FInv n k) : FInv n' (k + 1) := by
  refine ⟨h.uids, fun r' hr' => ?_⟩
  rcases h.from_ r' hr' with ⟨r, hr, -, hk⟩ | ⟨-, m, hm⟩
  · have h1 := (hi.files r hr).2.2
    have h2 := hk.next
    exact ⟨hk.step, hk.headed, by omega⟩
  · obtain ⟨a, b⟩ := freshStore_files m
    have : (freshStore m).indexid = 0 := by cases m <;> rfl
    rw [hm]; exact ⟨a, b, by omega⟩

theorem Carried.keeps {n n' : Node} (h : Carried n n') (hn : ((recs n).map (·.uid)).Nodup) {u : Nat} {s s' : Store} (h1 : storeOf n u = some s)
    (h2 : storeOf n' u = some s') : Keeps s s' := by
  unfold storeOf at h1 h2
  obtain ⟨r, hr, rfl⟩ := Option.map_eq_some_iff.1 h1
  obtain ⟨r', hr', rfl⟩ := Option.map_eq_some_iff.1 h2
  obtain ⟨m1, e1⟩ := nsDeref_some hr
  obtain ⟨m2, e2⟩ := nsDeref_some hr'
  rcases h.from_ r' m2 with ⟨x, hx, hu, hk⟩ | ⟨hf, -⟩
  · have : x = r := uid_inj hn hx m1 (by rw [← hu, e2, e1])
    rw [← this]; exact hk
  · exact absurd (e1.trans e2.symm) (hf r m1)

theorem Carried.same {n n' : Node} {k : Nat} (hi : FInv n k) (h : n'.slots = n.slots) : Carried n n' := by
  have e : recs n' = recs n := by unfold recs; rw [h]
  exact ⟨by rw [e]; exact hi.uids, fun r' hr' => by
    rw [e] at hr'
    have := hi.files r' hr'
    exact Or.inl ⟨r', hr', rfl, Keeps.refl this.1 this.2.1⟩⟩

theorem Carried.update {n : Node} {k : Nat} (hi : FInv n k) (br : Branches) (u : Nat) (f : NsRec → NsRec)
    (hf : ∀ x ∈ recs n, x.uid = u → (f x).uid = x.uid ∧ Keeps x.store (f x).store) :
    Carried n (nsUpdate { n with br := br } u f) := by
  have e : recs { n with br := br } = recs n := rfl
  refine ⟨?_, ?_⟩
  · rw [recs_update_map (·.uid) { n with br := br } u f (fun r hr hu => (hf r hr hu).1)]
    exact hi.uids
  · intro r' hr'
    rcases mem_recs_update.1 hr' with ⟨x, hx, hu, rfl⟩ | ⟨h1, -⟩
    · exact Or.inl ⟨x, hx, (hf x hx hu).1, (hf x hx hu).2⟩
    · have := hi.files r' h1
      exact Or.inl ⟨r', h1, rfl, Keeps.refl this.1 this.2.1⟩

theorem setMode_keeps {s : Store} (hs : InStep s) (hh : Headed s) (m : Mode) : Keeps s (setMode s m) := by
  have : SameData s (setMode s m) := by
    unfold setMode rehash switchMode
    simp only
    split
    · exact ⟨rfl, rfl, rfl, .refl _⟩
    · split
      · exact ⟨rfl, rfl, rfl, .refl _⟩
      · exact ⟨rfl, rfl, rfl, .write _ _ _ _⟩
  exact (this.ext hs).keeps hh

theorem nsProperty_keeps {S : Settings} {x y : NsRec} {target prop value : Bytes} (hs : InStep x.store) (hh : Headed x.store)
    (h : nsProperty S x target prop value = .ok y) : y.uid = x.uid ∧ Keeps x.store y.store := by
  have k := Keeps.refl hs hh
  unfold nsProperty at h
  simp only at h
  repeat' split at h
  all_goals cases h
  all_goals first
    | exact ⟨rfl, k⟩
    | exact ⟨rfl, setMode_keeps hs hh _⟩

/-- What a handler does to the files. -/
theorem NodeEff.carried {S : Settings} {e : Env} {n n1 : Node} {c : Client} {r : NsRec} {argv : List Bytes} {h : Handler}
    {m : Option Msg} {k : Nat} (he : NodeEff S e n c r argv h n1 m) (hi : FInv n k) (hr : r ∈ recs n)
    (hk : k + 1 < 2 ^ 32) (hu : ∀ r ∈ recs n, r.uid ≠ e.uid) : Carried n n1 := by
  cases he with
  | same => exact Carried.same hi rfl
  | ds d br s rep hd hc =>
    refine Carried.update hi br _ _ (fun x hx hxu => ⟨rfl, ?_⟩)
    have : x = r := uid_inj hi.uids hx hr hxu
    subst this
    obtain ⟨h1, h2, h3⟩ := hi.files x hx
    have := dsCommand_ext (ctxOf S e c x) n.br h1 (by omega) d argv
    rw [hd] at this
    exact this.keeps h2
  | nsnew name br s ha hl hn hv hf h0 hk' hs =>
    have hp : (recs { n with br := br, effective := n.effective + 1
                             slots := pushSlot { uid := e.uid, conf := defaultConf name, store := s, desc := encDesc (defaultConf name) } n.slots }).Perm
        ({ uid := e.uid, conf := defaultConf name, store := s, desc := encDesc (defaultConf name) } :: recs n) := pushSlot_perm _ _
    rw [freshNs_eq] at hs
    simp only [LoadRes.ok.injEq] at hs
    refine ⟨?_, ?_⟩
    · rw [(hp.map _).nodup_iff, List.map_cons, List.nodup_cons]
      refine ⟨?_, hi.uids⟩
      intro hm
      obtain ⟨x, hx, hxe⟩ := List.mem_map.1 hm
      exact hu x hx hxe
    · intro r' hr'
      rcases List.mem_cons.1 (hp.mem_iff.1 hr') with rfl | hr'
      · exact Or.inr ⟨hu, _, hs.2.symm⟩
      · have := hi.files r' hr'
        exact Or.inl ⟨r', hr', rfl, Keeps.refl this.1 this.2.1⟩
  | nsdel name x ha hl hn hd hx hc =>
    have e1 : recs { n with br := cleanNs n.br x, slots := kickSlot x.uid n.slots, effective := n.effective - 1
                            clients := detach x.uid n.clients } = (recs n).eraseP (fun r => r.uid == x.uid) := kickSlot_filterMap _ _
    refine ⟨?_, ?_⟩
    · rw [e1]; exact (List.eraseP_sublist.map _).nodup hi.uids
    · intro r' hr'
      rw [e1] at hr'
      have hr' := List.mem_of_mem_eraseP hr'
      have := hi.files r' hr'
      exact Or.inl ⟨r', hr', rfl, Keeps.refl this.1 this.2.1⟩
  | nsset a b prop value target x y ha hargs hv hn hx hp =>
    have hxr : x ∈ recs n := (nsGet_some hx).1
    refine Carried.update hi n.br _ _ (fun z hz hzu => ?_)
    have : z = x := uid_inj hi.uids hz hxr hzu
    subst this
    obtain ⟨h1, h2, h3⟩ := hi.files z hz
    obtain ⟨g1, g2⟩ := nsProperty_keeps h1 h2 hp
    exact ⟨g1, g2⟩
  | reload name x br s ha hl hn hx hrl =>
    have hxr : x ∈ recs n := (nsGet_some hx).1
    refine Carried.update hi br _ _ (fun z hz hzu => ⟨rfl, ?_⟩)
    have : z = x := uid_inj hi.uids hz hxr hzu
    subst this
    obtain ⟨h1, h2, h3⟩ := hi.files z hz
    obtain ⟨g1, g2, g3⟩ := reloadNs_files h1 h2 (by omega) hrl
    exact keeps_of_dfiles h1 g1 g2 g3
  | flush br s hp hw hrl =>
    refine Carried.update hi br _ _ (fun z hz hzu => ⟨rfl, ?_⟩)
    have : z = r := uid_inj hi.uids hz hr hzu
    subst this
    obtain ⟨h1, h2, h3⟩ := hi.files z hz
    obtain ⟨g1, g2, g3⟩ := reloadNs_files h1 h2 (by omega) hrl
    exact keeps_of_dfiles h1 g1 g2 g3

/-- A restart reads the files back. -/
theorem restart_carried {S : Settings} {n n' : Node} {k : Nat} (hi : FInv n k) (hk : k + 1 < 2 ^ 32) {order : List Nat}
    (ho : order.Perm ((recs n).tail.map (·.uid))) (hr : restartNode S n order = some n') : Carried n n' := by
  unfold restartNode at hr
  split at hr
  · rename_i d l hs
    have hrecs : recs n = d :: l.filterMap id := by unfold recs; rw [hs]; rfl
    have hnd := hi.uids
    rw [hrecs] at ho
    rw [hrecs, List.map_cons, List.nodup_cons] at hnd
    have hp := restart_dirs hnd.2 ho
    generalize order.filterMap (fun u => ((l.filterMap id).find? (fun r => r.uid == u)).map NsRec.dir) = ds at hp hr
    have hp' : (d.dir :: ds).Perm ((recs n).map NsRec.dir) := by rw [hrecs]; exact hp.cons _
    have hdu : ((d.dir :: ds).map (·.uid)).Nodup := by
      rw [(hp'.map _).nodup_iff, List.map_map]; exact hi.uids
    unfold boot at hr
    split at hr
    · exact absurd hr (by simp)
    · split at hr
      · rename_i br r l' hl
        injection hr with hr
        have h2 := (loadDirs_ok (d.dir :: ds) hdu (fun _ _ _ => rfl) hl).2
        have hrl : recs n' = { r with conf := startConf S r.conf } :: l' := by
          rw [← hr]; simp [recs, List.filterMap_map]
        have hun : (recs n').map (·.uid) = ((d.dir :: ds).filter accepted).map (·.uid) := by
          rw [h2.map_eq (·.uid) (·.uid) (fun a b hab => hab.uid.symm), hrl]; rfl
        refine ⟨?_, ?_⟩
        · rw [hun]; exact (List.filter_sublist.map _).nodup hdu
        · intro r' hr'
          obtain ⟨y, hy, e1, e2⟩ : ∃ y ∈ r :: l', r'.uid = y.uid ∧ r'.store = y.store := by
            rw [hrl] at hr'
            rcases List.mem_cons.1 hr' with rfl | hr'
            · exact ⟨r, List.mem_cons_self .., rfl, rfl⟩
            · exact ⟨r', List.mem_cons_of_mem _ hr', rfl, rfl⟩
          obtain ⟨x, hx, hxy⟩ := h2.right y hy
          obtain ⟨z, hz, rfl⟩ := List.mem_map.1 (hp'.mem_iff.1 (List.mem_filter.1 hx).1)
          obtain ⟨b1, b2, g1, -, -⟩ := hxy.store
          obtain ⟨h1, h2, h3⟩ := hi.files z hz
          obtain ⟨f1, f2, f3⟩ := loadNs_files h1 h2 (by omega) g1
          refine Or.inl ⟨z, hz, by rw [e1, hxy.uid]; rfl, ?_⟩
          rw [e2]
          exact keeps_of_dfiles h1 f1 f2 f3
      · exact absurd hr (by simp)
  · exact absurd hr (by simp)

/-- One event. -/
theorem nodeStep_carried {S : Settings} {n n' : Node} {ev : Event} {sent : List (Nat × Msg)} {st : Status} {k : Nat}
    (hi : FInv n k) (hk : k + 1 < 2 ^ 32) (hg : FreeGuard n ev) (h : nodeStep S n ev = .ok n' sent st) : Carried n n' := by
  cases ev with
  | connect fd =>
    simp only [nodeStep, Res.ok.injEq] at h
    rw [← h.1]; exact Carried.same hi rfl
  | disconnect fd =>
    simp only [nodeStep, Res.ok.injEq] at h
    rw [← h.1]; exact Carried.same hi rfl
  | tick us =>
    simp only [nodeStep, Res.ok.injEq] at h
    rw [← h.1]; exact Carried.same hi rfl
  | rotate u =>
    simp only [nodeStep, Res.ok.injEq] at h
    rw [← h.1]
    refine Carried.update hi n.br _ _ (fun z hz _ => ⟨rfl, ?_⟩)
    obtain ⟨h1, h2, h3⟩ := hi.files z hz
    exact (jump_ext h1 (by omega)).keeps h2
  | restart order =>
    simp only [nodeStep] at h
    split at h
    · rename_i n1 hr
      simp only [Res.ok.injEq] at h
      rw [← h.1]
      exact restart_carried hi hk hg hr
    · exact absurd h (by simp)
  | request fd e argv =>
    rcases request_pick h with ⟨-, -, hs, -⟩ | ⟨p, n1, c1, m, i, hp, hrun, rfl, -⟩
    · exact Carried.same hi hs
    · obtain ⟨hc, hpo, u, key, rest, i', name, hu, ha, hl, hd, hh⟩ := pick_some hp
      have hmem := (nsDeref_some hd).1
      have hmv := (runHandler_eff hrun).carried hi hmem hk (by
        rw [popOwner_uid hpo]; exact hg)
      have hrest := (post_rest p.e fd (putClient n1 fd (some c1)) c1).2.1
      have e : recs (post p.e fd (putClient n1 fd (some c1)) c1).1 = recs n1 := by
        unfold recs; rw [hrest]; rfl
      exact ⟨by rw [e]; exact hmv.uids, by rw [e]; exact hmv.from_⟩

theorem Started.files {S : Settings} {n : Node} (h : Started S n) : FInv n 0 := by
  obtain ⟨u, h⟩ := h
  unfold boot at h
  have hl : loadNs S.cfg (fun _ => []) u [] [] = .ok (fun _ => []) (freshStore (S.cfg.getD .user)) := freshNs_eq S.cfg (fun _ => []) u
  split at h
  · exact absurd h (by simp)
  · rename_i c hc
    simp only [loadDirs, hc, hl] at h
    injection h with h
    have hrl : ∃ x : NsRec, recs n = [x] ∧ x.store = freshStore (S.cfg.getD .user) := by
      rw [← h]; exact ⟨_, rfl, rfl⟩
    obtain ⟨x, hx, hxs⟩ := hrl
    refine ⟨by rw [hx]; simp, fun r hr => ?_⟩
    rw [hx, List.mem_singleton] at hr
    subst hr
    obtain ⟨a, b⟩ := freshStore_files (S.cfg.getD .user)
    rw [hxs]
    exact ⟨a, b, by cases (S.cfg.getD .user) <;> exact Nat.le_refl _⟩

theorem FreeRun.inv {S : Settings} {n n' : Node} {l : List (Event × List (Nat × Msg))} (h : FreeRun S n l n') :
    ∀ {k : Nat}, FInv n k → k + l.length < 2 ^ 32 → FInv n' (k + l.length) := by
  induction h with
  | nil => intro k hi _; exact hi
  | cons hg hs _ ih =>
    intro k hi hk
    simp only [List.length_cons] at hk ⊢
    rw [← Nat.add_assoc, Nat.add_right_comm]
    exact ih ((nodeStep_carried hi (by omega) hg hs).inv hi) (by omega)

end Zdb
