/-
Events preserve the invariant of the node.
-/
import Verif.Lemmas.NodeInv
namespace Zdb

theorem mem_handlers_star : handlers[0]? = some ([42], .asterisk) := rfl

/-- Effects of a handler preserve the invariant. -/
theorem NodeInv.eff {S : Settings} {n n' : Node} (h : NodeInv S n) {e : Env} {c : Client} {r : NsRec}
    {argv : List Bytes} {hd : Handler} {m : Option Msg} (hr : r ∈ recs n) (hu : ∀ r ∈ recs n, r.uid ≠ e.uid)
    (hmo : ∀ r ∈ recs n, ModeOf S.cfg r.store.mode r.store.ifiles)
    (he : NodeEff S e n c r argv hd n' m) : NodeInv S n' := by
  cases he with
  | same h' m hd hq => exact h
  | ds d br s rep hd hc => exact h.ds hr hd
  | nsnew name br s ha hl hn hv hf h0 hk hs =>
    obtain ⟨a, -, rfl, h1, h2⟩ := nsArg_ok hn
    exact h.nsnew hu ⟨hv, h0, h1, h2⟩ hf hs
  | nsdel name x ha hl hn hd hx hc =>
    obtain ⟨h1, h2⟩ := nsGet_some hx
    exact h.nsdel h1 (h2 ▸ hd)
  | nsset a b prop value target x y ha hargs hv hn hx hp =>
    exact h.nsset hx (nsProperty_ok (mem_cstr value) (Nat.le_trans (cstr_length_le value) hv) hp)
  | reload name x br s ha hl hn hx hr =>
    obtain ⟨h1, -⟩ := nsGet_some hx
    exact h.reload h1 (hmo x h1) hr
  | flush br s hp hw hr' => exact h.reload hr (hmo r hr) hr'

/-- The namespace of the client after a handler. -/
theorem eff_ns {S : Settings} {e : Env} {n n' : Node} {c c' : Client} {r : NsRec} {h : Handler}
    {argv : List Bytes} {m m' : Option Msg} (h1 : NodeEff S e n c r argv h n' m) (h2 : ClientEff S e n c argv h c' m')
    {v : Nat} (hc : c.ns = some r.uid) (hr : r ∈ recs n) (hv : c'.ns = some v) : ∃ x ∈ recs n', x.uid = v := by
  have keep : ∀ (n : Node) u f, (∀ x ∈ recs n, x.uid = u → (f x).uid = x.uid) → (∃ x ∈ recs n, x.uid = v) →
      ∃ x ∈ recs (nsUpdate n u f), x.uid = v := by
    rintro n u f hf ⟨x, hx, hxv⟩
    by_cases hxu : x.uid = u
    · exact ⟨f x, mem_recs_update.2 (Or.inl ⟨x, hx, hxu, rfl⟩), by rw [hf x hx hxu, hxv]⟩
    · exact ⟨x, mem_recs_update.2 (Or.inr ⟨hx, hxu⟩), hxv⟩
  have hold : c'.ns = c.ns → ∃ x ∈ recs n, x.uid = v := by
    intro hh; rw [hh, hc] at hv; injection hv with hv; exact ⟨r, hr, hv⟩
  have hkeep : (∀ d, h ≠ .ds d) → n' = n → ∃ x ∈ recs n', x.uid = v := by
    rintro - rfl
    cases h2 with
    | select name x w hn hx hw => injection hv with hv; exact ⟨x, (nsGet_some hx).1, hv⟩
    | _ => exact hold rfl
  cases h1 with
  | same h m hd hq => exact hkeep hd rfl
  | ds d br s rep hd hc' =>
    cases h2
    exact keep { n with br := br } r.uid _ (fun _ _ _ => rfl) (hold rfl)
  | nsnew name br s ha hl hn hv' hf h0 hk hs =>
    cases h2
    obtain ⟨x, hx, hxv⟩ := hold rfl
    exact ⟨x, (pushSlot_perm _ _).mem_iff.2 (List.mem_cons_of_mem _ hx), hxv⟩
  | nsdel name x ha hl hn hd hx hc' =>
    cases h2
    obtain ⟨y, hy, hyv⟩ := hold rfl
    rw [hc] at hv; injection hv with hv
    refine ⟨y, ?_, hyv⟩
    change y ∈ (kickSlot x.uid n.slots).filterMap id
    rw [kickSlot_filterMap]
    refine (List.mem_eraseP_of_neg ?_).2 hy
    intro hh
    simp only [beq_iff_eq] at hh
    exact hc' (by rw [hc, hv, ← hyv, hh])
  | nsset a b prop value target x y ha hargs hv' hn hx hp =>
    cases h2
    refine keep n x.uid _ (fun z hz hzu => ?_) (hold rfl)
    rw [hzu]
    exact (nsProperty_ok (mem_cstr value) (Nat.le_trans (cstr_length_le value) hv') hp).uid
  | reload name x br s ha hl hn hx hr' =>
    cases h2
    exact keep { n with br := br } x.uid _ (fun _ _ _ => rfl) (hold rfl)
  | flush br s hp hw hr' =>
    cases h2
    exact keep { n with br := br } r.uid _ (fun _ _ _ => rfl) (hold rfl)

theorem NodeInv.put {S : Settings} {n : Node} (h : NodeInv S n) (fd : Nat) (c : Option Client)
    (hc : ∀ k u, c = some k → k.ns = some u → ∃ r ∈ recs n, r.uid = u) : NodeInv S (putClient n fd c) := by
  refine h.congr rfl rfl rfl ?_
  intro fd' k u hk hu
  rw [getClient_put] at hk
  split at hk
  · exact hc k u hk hu
  · exact h.attached fd' k u hk hu

theorem NodeInv.post {S : Settings} {n : Node} (h : NodeInv S n) (e : Env) (fd : Nat) (c : Client) :
    NodeInv S (post e fd n c).1 := by
  obtain ⟨h1, h2, h3⟩ := post_rest e fd n c
  refine h.congr h1 h2 h3 ?_
  intro fd' k u hk hu
  rw [post_get] at hk
  cases hg : getClient n fd' with
  | none => rw [hg] at hk; exact absurd hk (by simp)
  | some k0 =>
    rw [hg, Option.map_some, Option.some.injEq] at hk
    refine h.attached fd' k0 u hg ?_
    rw [← hu, ← hk]
    cases c.executed with
    | none => rfl
    | some i =>
      simp only
      split
      · rfl
      · rw [notifyOne_ns]

theorem NodeInv.rotate {S : Settings} {n : Node} (h : NodeInv S n) (u : Nat) :
    NodeInv S (nsUpdate n u (fun r => { r with store := jump r.store })) := by
  by_cases hu : ∃ r ∈ recs n, r.uid = u
  · obtain ⟨r, hr, rfl⟩ := hu
    have hj := jump_calm r.store
    refine h.update hr n.br _ rfl rfl (OnlyTags.refl _ _) ?_ ?_ ?_ ((h.desc r hr).store _)
    · intro hm k; exact h.seqs r hr (by rw [← hj.1]; exact hm) k
    · intro hm k; exact h.used r hr (by rw [← hj.2]; exact hm) k
    · intro m hm; rw [← h.single m hm r hr]; exact hj.1
  · have : nsUpdate n u (fun r => { r with store := jump r.store }) = n := by
      unfold nsUpdate
      have hs : n.slots.map (Option.map (fun r => if r.uid == u then { r with store := jump r.store } else r)) = n.slots := by
        conv => rhs; rw [← List.map_id n.slots]
        refine List.map_congr_left (fun x hx => ?_)
        cases x with
        | none => rfl
        | some r =>
          have : (r.uid == u) = false := by
            simp only [beq_eq_false_iff_ne]
            exact fun hh => hu ⟨r, mem_recs.2 hx, hh⟩
          simp only [Option.map_some, this]
          rfl
      rw [hs]
    rw [this]; exact h

/-! ### starting -/

/-- A directory the process can start from, with the mode of its namespace. -/
structure DirOK (S : Settings) (d : Dir) : Prop where
  mode : ∃ m, ModeOf S.cfg m d.ifiles
  name : d.name = nameDefault ∨ GoodName d.name
  desc : d.desc = [] ∨ ∃ c tail, d.desc = encDesc c ++ tail ∧ (d.name ≠ nameDefault → c.name = d.name ∧
    c.maxsize < 2 ^ 64 ∧ ∀ p, c.password = some p → (0 : UInt8) ∉ p ∧ p.length ≤ 63)

theorem DirOK.accepted {S : Settings} {d : Dir} (h : DirOK S d) : accepted d = true := by
  unfold Zdb.accepted
  rcases h.desc with h | ⟨c, tail, h, -⟩
  · rw [h]; rfl
  · rw [h]; exact loadDesc_accepted _ _ _

theorem loadDesc_name {name desc : Bytes} {c : NsConf} {f : Bytes} (h : loadDesc name desc = some (c, f)) : c.name = name := by
  unfold loadDesc at h
  simp only at h
  split at h
  · simp only [Option.some.injEq, Prod.mk.injEq] at h; rw [← h.1]; rfl
  · split at h
    · exact absurd h (by simp)
    · simp only [Option.some.injEq, Prod.mk.injEq] at h; rw [← h.1]; rfl

theorem loadDesc_lock {name desc : Bytes} {c : NsConf} {f : Bytes} (h : loadDesc name desc = some (c, f)) :
    c.lock = .unlocked := by
  unfold loadDesc at h
  simp only at h
  split at h
  · simp only [Option.some.injEq, Prod.mk.injEq] at h; rw [← h.1]; rfl
  · split at h
    · exact absurd h (by simp)
    · simp only [Option.some.injEq, Prod.mk.injEq] at h; rw [← h.1]; rfl

/-- The settings read back from a descriptor written for a namespace give the same descriptor. -/
theorem encDesc_loaded (c : NsConf) (hm : c.maxsize < 2 ^ 64)
    (hp : ∀ p, c.password = some p → (0 : UInt8) ∉ p) : encDesc (loadedConf c.name c) = encDesc c := by
  have hpass : (loadedPass (c.password.getD [])).getD [] = c.password.getD [] := by
    unfold loadedPass
    cases hc : c.password with
    | none => rfl
    | some p =>
      simp only [Option.getD_some]
      split
      · rename_i h; rw [h]; rfl
      · simp only [Option.getD_some]; exact cstr_eq (hp p hc)
  rw [encDesc_head, encDesc_head]
  unfold headOf
  simp only [loadedConf, hpass, defaultConf, Nat.mod_eq_of_lt hm]

theorem goodName_len {name : Bytes} (h : name = nameDefault ∨ GoodName name) : name.length < 256 := by
  rcases h with h | h
  · rw [h]; decide
  · exact Nat.lt_of_le_of_lt h.len (by decide)

theorem DirOK.loaded {S : Settings} {d : Dir} (h : DirOK S d) {r : NsRec} (hl : loadDesc d.name d.desc = some (r.conf, r.desc)) :
    DescOK r := by
  have hn := loadDesc_name hl
  rcases h.desc with h0 | ⟨c, tail, h0, h1⟩
  · have : loadDesc d.name d.desc = some (defaultConf d.name, encDesc (defaultConf d.name)) := by rw [h0]; rfl
    rw [this, Option.some.injEq, Prod.mk.injEq] at hl
    refine ⟨⟨defaultConf d.name, [], by rw [← hl.2]; simp, fun _ => by rw [hl.1]⟩, ?_, ?_⟩
    · intro _ p hp; rw [← hl.1] at hp; exact absurd hp (by simp [defaultConf])
    · intro _; rw [← hl.1]; exact Nat.two_pow_pos 64
  · by_cases hd : d.name = nameDefault
    · have hk : (loadDesc d.name (encDesc c ++ tail)).isSome = true := loadDesc_accepted _ _ _
      have hf : r.desc = encDesc c ++ tail := by
        rw [h0] at hl
        unfold loadDesc at hl
        have hlen : ¬ (encDesc c ++ tail).length < descLen := by
          rw [List.length_append, encDesc_length, descLen]; omega
        simp only [if_neg hlen] at hl
        split at hl
        · exact absurd hl (by simp)
        · simp only [Option.some.injEq, Prod.mk.injEq] at hl; exact hl.2.symm
      have hnd : r.conf.name = nameDefault := hn.trans hd
      exact ⟨⟨c, tail, hf, fun hh => absurd hnd hh⟩, fun hh => absurd hnd hh, fun hh => absurd hnd hh⟩
    · obtain ⟨h2, h3, h4⟩ := h1 hd
      have hlen : (c.password.getD []).length < 256 := by
        cases hc : c.password with
        | none => simp
        | some p => have := (h4 p hc).2; simp only [Option.getD_some]; omega
      have := loadDesc_enc d.name c tail (by rw [h2]; exact goodName_len h.name) hlen
      rw [h0, this, Option.some.injEq, Prod.mk.injEq] at hl
      obtain ⟨hl1, hl2⟩ := hl
      refine ⟨⟨c, tail, hl2.symm, fun _ => ?_⟩, ?_, ?_⟩
      · rw [← hl1, ← h2]; exact (encDesc_loaded c h3 (fun p hp => (h4 p hp).1)).symm
      · intro _ p hp
        rw [← hl1] at hp
        simp only [loadedConf, loadedPass] at hp
        split at hp
        · exact absurd hp (by simp)
        · injection hp with hp
          subst hp
          refine ⟨mem_cstr _, ?_⟩
          cases hc : c.password with
          | none => rename_i hne; rw [hc] at hne; exact absurd rfl hne
          | some p => exact Nat.le_trans (cstr_length_le _) (h4 p hc).2
      · intro _; rw [← hl1]; exact Nat.mod_lt _ (Nat.two_pow_pos 64)

theorem boot_inv {S : Settings} {d : Dir} {ds : List Dir} {n : Node} (hd : d.name = nameDefault)
    (hu : ((d :: ds).map (·.uid)).Nodup) (hn : ((d :: ds).map (·.name)).Nodup) (hok : ∀ x ∈ d :: ds, DirOK S x)
    (h : boot S d ds = some n) : NodeInv S n ∧ n.clients = [] ∧
      (∃ r l, loadDirs S (fun _ => []) (d :: ds) = .ok n.br (r :: l) ∧
        n.slots = some { r with conf := startConf S r.conf } :: l.map some ∧
        All2 (Loaded S n.br) (d :: ds) (r :: l)) := by
  unfold boot at h
  split at h
  · exact absurd h (by simp)
  · split at h
    · rename_i br r l hl
      obtain ⟨h1, h2⟩ := loadDirs_ok (d :: ds) hu (fun _ _ _ => rfl) hl
      have hf : (d :: ds).filter accepted = d :: ds := by
        rw [List.filter_eq_self]; exact fun x hx => (hok x hx).accepted
      rw [hf] at h2
      injection h with h
      have hrl : recs n = { r with conf := startConf S r.conf } :: l := by
        rw [← h]; simp [recs, List.filterMap_map]
      have hbr : n.br = br := by rw [← h]
      have huids : (d :: ds).map (·.uid) = (r :: l).map (·.uid) := h2.map_eq _ _ (fun a b hab => hab.uid.symm)
      have hnames : (d :: ds).map (·.name) = (r :: l).map (·.conf.name) :=
        h2.map_eq _ _ (fun a b hab => (loadDesc_name hab.desc).symm)
      have hall : ∀ x ∈ recs n, ∃ y ∈ r :: l, x.uid = y.uid ∧ x.store = y.store ∧ x.desc = y.desc ∧
          x.conf.name = y.conf.name ∧ (x.conf.name ≠ nameDefault → x = y) := by
        rw [hrl]
        intro x hx
        rcases List.mem_cons.1 hx with rfl | hx
        · refine ⟨r, List.mem_cons_self .., rfl, rfl, rfl, rfl, ?_⟩
          intro hh
          have : r.conf.name = d.name := by simp only [List.map_cons, List.cons.injEq] at hnames; exact hnames.1.symm
          exact absurd (this.trans hd) hh
        · exact ⟨x, List.mem_cons_of_mem _ hx, rfl, rfl, rfl, rfl, fun _ => rfl⟩
      have hload : ∀ y ∈ r :: l, ∃ m, y.store.mode = m ∧ (∀ m', S.cfg = some m' → m = m') ∧
          (m = .seq → ∀ k, nsBranch br y.uid k = []) ∧ (y.store.nextentry = 0 → ∀ k, nsBranch br y.uid k = []) ∧
          (y.conf.name = nameDefault ∨ GoodName y.conf.name) ∧ DescOK y := by
        intro y hy
        obtain ⟨x, hx, hxy⟩ := h2.right y hy
        obtain ⟨m, hm⟩ := (hok x hx).mode
        obtain ⟨br1, br2, hl, hb1, hb2⟩ := hxy.store
        obtain ⟨g1, g2, g3⟩ := loadNs_ok hm hl
        refine ⟨m, g1, ?_, ?_, ?_, ?_, (hok x hx).loaded hxy.desc⟩
        · intro m' hm'
          rcases hm with hm | ⟨hm, -⟩
          · rw [hm] at hm'; injection hm'
          · rw [hm] at hm'; exact absurd hm' (by simp)
        · intro hm k; rw [hxy.uid, hb2 k, g2 hm]; exact hb1 k
        · intro hm k; rw [hxy.uid, hb2 k]; exact g3 hm k (hb1 k)
        · rw [loadDesc_name hxy.desc]; exact (hok x hx).name
      refine ⟨⟨⟨{ r with conf := startConf S r.conf }, l.map some, by rw [← h], ?_⟩, ?_, ?_, ?_, ?_, ?_, ?_, ?_, ?_, ?_, ?_⟩, ?_, r, l, hbr ▸ hl, ?_, hbr ▸ h2⟩
      · simp only [List.map_cons, List.cons.injEq] at hnames
        exact hnames.1.symm.trans hd
      · have : (recs n).map (·.uid) = (r :: l).map (·.uid) := by rw [hrl]; rfl
        rw [this, ← huids]; exact hu
      · have : (recs n).map (·.conf.name) = (r :: l).map (·.conf.name) := by rw [hrl]; rfl
        rw [this, ← hnames]; exact hn
      · rw [hrl, ← h]; rfl
      · intro fd c u hc; rw [← h] at hc; simp [getClient] at hc
      · intro v hv k
        rw [hbr, h1 v k]
        · rfl
        · intro hm
          have : (r :: l).map (·.uid) = (recs n).map (·.uid) := by rw [hrl]; rfl
          rw [this] at hm
          obtain ⟨y, hy, hyv⟩ := List.mem_map.1 hm
          exact hv y hy hyv
      · intro x hx hm k
        obtain ⟨y, hy, e1, e2, -⟩ := hall x hx
        obtain ⟨m, g1, -, g3, -⟩ := hload y hy
        rw [hbr, e1]; exact g3 (by rw [← g1, ← e2]; exact hm) k
      · intro x hx hm k
        obtain ⟨y, hy, e1, e2, -⟩ := hall x hx
        obtain ⟨m, g1, -, -, g4, -⟩ := hload y hy
        rw [hbr, e1]; exact g4 (by rw [← e2]; exact hm) k
      · intro m' hm' x hx
        obtain ⟨y, hy, e1, e2, -⟩ := hall x hx
        obtain ⟨m, g1, g2, -⟩ := hload y hy
        rw [e2, g1]; exact g2 m' hm'
      · intro x hx
        obtain ⟨y, hy, -, -, -, e4, -⟩ := hall x hx
        obtain ⟨m, -, -, -, -, g5, -⟩ := hload y hy
        rw [e4]; exact g5
      · intro x hx
        obtain ⟨y, hy, e1, e2, e3, e4, e5⟩ := hall x hx
        obtain ⟨m, -, -, -, -, -, g6⟩ := hload y hy
        by_cases hxd : x.conf.name = nameDefault
        · obtain ⟨c, tail, w, -⟩ := g6.written
          exact ⟨⟨c, tail, e3 ▸ w, fun hh => absurd hxd hh⟩, fun hh => absurd hxd hh, fun hh => absurd hxd hh⟩
        · rw [e5 hxd]; exact g6
      · rw [← h]
      · rw [← h]
    · exact absurd h (by simp)

/-! ### restarts -/

theorem NsRec.dir_ok {S : Settings} {n : Node} (h : NodeInv S n) {r : NsRec} (hr : r ∈ recs n)
    (hm : ModeOf S.cfg r.store.mode r.store.ifiles) : DirOK S r.dir := by
  refine ⟨⟨r.store.mode, hm⟩, h.shape r hr, Or.inr ?_⟩
  obtain ⟨c, tail, h1, h2⟩ := (h.desc r hr).written
  by_cases hd : r.conf.name = nameDefault
  · exact ⟨c, tail, h1, fun hh => absurd hd hh⟩
  · refine ⟨r.conf, tail, ?_, fun _ => ⟨rfl, (h.desc r hr).size hd, (h.desc r hr).pass hd⟩⟩
    rw [← h2 hd]; exact h1

theorem filterMap_ext {α β : Type} (l : List α) (f g : α → Option β) (h : ∀ a ∈ l, f a = g a) : l.filterMap f = l.filterMap g := by
  induction l with
  | nil => rfl
  | cons a l ih =>
    rw [List.filterMap_cons, List.filterMap_cons, h a (List.mem_cons_self ..), ih (fun b hb => h b (List.mem_cons_of_mem _ hb))]

/-- The directories of a node in some order. -/
theorem restart_dirs {l : List NsRec} (hn : (l.map (·.uid)).Nodup) {order : List Nat}
    (ho : order.Perm (l.map (·.uid))) :
    (order.filterMap (fun u => (l.find? (fun r => r.uid == u)).map NsRec.dir)).Perm (l.map NsRec.dir) := by
  refine (ho.filterMap _).trans ?_
  rw [List.filterMap_map]
  have : l.filterMap ((fun u => (l.find? (fun r => r.uid == u)).map NsRec.dir) ∘ (·.uid)) = l.filterMap (fun r => some r.dir) := by
    refine filterMap_ext _ _ _ ?_
    intro r hr
    simp only [Function.comp]
    rw [find_unique hn hr]; rfl
  rw [this]
  exact List.Perm.of_eq (congrFun List.filterMap_eq_map l)

theorem restartNode_boot {S : Settings} {n n' : Node} (h : NodeInv S n) {order : List Nat}
    (hr : restartNode S n order = some n') (ho : order.Perm ((recs n).tail.map (·.uid))) :
    ∃ d l ds, recs n = d :: l ∧ d.conf.name = nameDefault ∧ ds.Perm (l.map NsRec.dir) ∧ boot S d.dir ds = some n' := by
  obtain ⟨d, l, hs, hd⟩ := h.head
  have hrecs : recs n = d :: l.filterMap id := by unfold recs; rw [hs]; rfl
  unfold restartNode at hr
  rw [hs] at hr
  simp only at hr
  refine ⟨d, l.filterMap id, _, hrecs, hd, ?_, hr⟩
  rw [hrecs] at ho
  have := h.uids
  rw [hrecs, List.map_cons, List.nodup_cons] at this
  exact restart_dirs this.2 ho

theorem NodeInv.restart {S : Settings} {n n' : Node} (h : NodeInv S n) {order : List Nat}
    (hg : Guard S n (.restart order)) (hr : restartNode S n order = some n') :
    NodeInv S n' ∧ n'.clients = [] ∧ ∀ r' ∈ recs n', ∃ r ∈ recs n, r'.uid = r.uid ∧ ∃ br1 br2 conf,
      loadNs S.cfg br1 r.uid r.store.ifiles r.store.dfiles = .ok br2 r'.store ∧ (∀ k, nsBranch br1 r.uid k = []) ∧
      (∀ k, nsBranch n'.br r.uid k = nsBranch br2 r.uid k) ∧ loadDesc r.conf.name r.desc = some (conf, r'.desc) ∧
      r'.conf = if r.conf.name = nameDefault then startConf S conf else conf := by
  obtain ⟨d, l, ds, hrecs, hd, hp, hb⟩ := restartNode_boot h hr hg.2
  have hok : ∀ x ∈ d.dir :: ds, DirOK S x := by
    intro x hx
    rcases List.mem_cons.1 hx with rfl | hx
    · have : d ∈ recs n := by rw [hrecs]; exact List.mem_cons_self ..
      exact NsRec.dir_ok h this (hg.1 d this)
    · obtain ⟨r, hr, rfl⟩ := List.mem_map.1 (hp.mem_iff.1 hx)
      have : r ∈ recs n := by rw [hrecs]; exact List.mem_cons_of_mem _ hr
      exact NsRec.dir_ok h this (hg.1 r this)
  have hp' : (d.dir :: ds).Perm ((recs n).map NsRec.dir) := by rw [hrecs]; exact hp.cons _
  obtain ⟨h1, h2, r0, l0, hload, hslots, hall⟩ := boot_inv hd (by
    rw [(hp'.map _).nodup_iff, List.map_map]; exact h.uids) (by
    rw [(hp'.map _).nodup_iff, List.map_map]; exact h.names) hok hb
  refine ⟨h1, h2, ?_⟩
  have hrl : recs n' = { r0 with conf := startConf S r0.conf } :: l0 := by
    unfold recs; rw [hslots]; simp [List.filterMap_map]
  cases hall with
  | cons hfst hrest =>
    rw [hrl]
    intro r' hr'
    rcases List.mem_cons.1 hr' with rfl | hr'
    · obtain ⟨b1, b2, g1, g2, g3⟩ := hfst.store
      refine ⟨d, by rw [hrecs]; exact List.mem_cons_self .., hfst.uid, b1, b2, r0.conf, g1, g2, g3, hfst.desc, ?_⟩
      rw [if_pos hd]
    · obtain ⟨x, hx, hxr⟩ := hrest.right r' hr'
      obtain ⟨r, hr1, rfl⟩ := List.mem_map.1 (hp.mem_iff.1 hx)
      have hrm : r ∈ recs n := by rw [hrecs]; exact List.mem_cons_of_mem _ hr1
      obtain ⟨b1, b2, g1, g2, g3⟩ := hxr.store
      refine ⟨r, hrm, hxr.uid, b1, b2, r'.conf, g1, g2, g3, hxr.desc, ?_⟩
      rw [if_neg]
      intro hh
      have hn := h.names
      rw [hrecs, List.map_cons, List.nodup_cons] at hn
      exact hn.1 (List.mem_map.2 ⟨r, hr1, hh.trans hd.symm⟩)

/-- Every event preserves the invariant. -/
theorem NodeInv.step {S : Settings} {n n' : Node} (h : NodeInv S n) {ev : Event} {sent : List (Nat × Msg)} {st : Status}
    (hg : Guard S n ev) (hs : nodeStep S n ev = .ok n' sent st) : NodeInv S n' := by
  cases ev with
  | connect fd =>
    simp only [nodeStep] at hs
    injection hs with h1 _ _
    subst h1
    refine h.put fd _ ?_
    intro k u hk hu
    injection hk with hk
    subst hk
    obtain ⟨d, l, hl, -⟩ := h.head
    simp only [newClient, hl, Option.some.injEq] at hu
    exact ⟨d, mem_recs.2 (by rw [hl]; exact List.mem_cons_self ..), hu⟩
  | disconnect fd =>
    simp only [nodeStep] at hs
    injection hs with h1 _ _
    subst h1
    exact h.put fd _ (by intro k u hk; exact absurd hk (by simp))
  | request fd e argv =>
    simp only [nodeStep] at hs
    obtain ⟨c, hc, -, hcase⟩ := request_cases hs
    rcases hcase with ⟨-, rfl, -, -⟩ | ⟨e', argv', n1, c1, m, hp, hd, rfl, -⟩
    · exact h
    · have heu : e'.uid = e.uid := by
        unfold popOwner at hp
        split at hp
        · split at hp
          · exact absurd hp (by simp)
          · split at hp
            · exact absurd hp (by simp)
            · simp only [Option.some.injEq, Prod.mk.injEq] at hp; rw [← hp.1]
        · simp only [Option.some.injEq, Prod.mk.injEq] at hp; rw [← hp.1]
      refine NodeInv.post ?_ _ _ _
      rcases dispatch_cases hd with ⟨hn, rfl, rfl, -, -⟩ | ⟨u, key, rest, hu, -, hcase⟩
      · refine h.put _ _ ?_
        intro k u hk hu; injection hk with hk; subst hk; rw [hn] at hu; exact absurd hu (by simp)
      · have hatt := h.attached fd c u hc hu
        rcases hcase with ⟨-, rfl, rfl, -, -⟩ | ⟨i, r, name, hh, -, hr, -, hrun⟩
        · refine h.put _ _ ?_
          intro k v hk hv; injection hk with hk; subst hk
          rw [show c.ns = some v from hv] at hu
          injection hu with hu; rw [hu]; exact hatt
        · obtain ⟨hrm, hru⟩ := nsDeref_some hr
          have he := runHandler_eff hrun
          have hce := runHandler_client hrun
          refine (h.eff hrm (by rw [heu]; exact hg.1) hg.2 he).put _ _ ?_
          intro k v hk hv
          injection hk with hk; subst hk
          exact eff_ns he hce (by rw [hru]; exact hu) hrm hv
  | tick us =>
    simp only [nodeStep] at hs
    injection hs with h1 _ _
    subst h1
    refine h.congr rfl rfl rfl ?_
    intro fd c u hc hu
    simp only [getClient] at hc
    rw [timeoutAll_get] at hc
    cases hg : n.clients[fd]? with
    | none => rw [hg] at hc; exact absurd hc (by simp)
    | some x =>
      cases x with
      | none => rw [hg] at hc; exact absurd hc (by simp)
      | some k =>
        rw [hg] at hc
        simp only [Option.map_some, Option.join_some, Option.some.injEq] at hc
        refine h.attached fd k u (by simp [getClient, hg]) ?_
        rw [← hu, ← hc]
        unfold timeoutOne
        split
        · split <;> rfl
        · rfl
  | rotate u =>
    simp only [nodeStep] at hs
    injection hs with h1 _ _
    subst h1
    exact h.rotate u
  | restart order =>
    simp only [nodeStep] at hs
    cases hr : restartNode S n order with
    | none => rw [hr] at hs; exact absurd hs (by simp)
    | some n1 =>
      rw [hr] at hs
      injection hs with h1 _ _
      subst h1
      exact (h.restart hg hr).1

end Zdb
