/-
The invariant of the node.
-/
import Verif.Lemmas.NodeEff
import Verif.Lemmas.NodeBoot
import Verif.Lemmas.Desc
import Verif.Lemmas.Fresh
namespace Zdb

/-! ### requests -/

theorem request_cases {S : Settings} {n n' : Node} {fd : Nat} {e : Env} {argv : List Bytes} {sent : List (Nat × Msg)}
    {st : Status} (h : request S n fd e argv = .ok n' sent st) :
    ∃ c, getClient n fd = some c ∧ argv ≠ [] ∧
      ((popOwner e c argv = none ∧ n' = n ∧ sent = [] ∧ st = .keep) ∨
       ∃ e' argv' n1 c1 m, popOwner e c argv = some (e', argv') ∧ dispatch S e' n c argv' = .done n1 c1 m st ∧
         n' = (post e' fd (putClient n1 fd (some c1)) c1).1 ∧
         sent = m.toList.map (fun m => (fd, m)) ++ (post e' fd (putClient n1 fd (some c1)) c1).2) := by
  unfold request at h
  cases hc : getClient n fd with
  | none => rw [hc] at h; exact absurd h (by simp)
  | some c =>
    rw [hc] at h
    simp only at h
    by_cases ha : argv = []
    · rw [if_pos ha] at h; exact absurd h (by simp)
    · rw [if_neg ha] at h
      refine ⟨c, rfl, ha, ?_⟩
      cases hp : popOwner e c argv with
      | none =>
        rw [hp] at h
        injection h with h1 h2 h3
        exact Or.inl ⟨rfl, h1.symm, h2.symm, h3.symm⟩
      | some x =>
        obtain ⟨e', argv'⟩ := x
        rw [hp] at h
        simp only at h
        cases hd : dispatch S e' n c argv' with
        | exit => rw [hd] at h; exact absurd h (by simp)
        | crash => rw [hd] at h; exact absurd h (by simp)
        | outside => rw [hd] at h; exact absurd h (by simp)
        | done n1 c1 m st' =>
          rw [hd] at h
          simp only at h
          by_cases hm : mirrorCrash e' fd c1 n1.clients = true
          · rw [if_pos hm] at h; exact absurd h (by simp)
          · rw [if_neg hm] at h
            injection h with h1 h2 h3
            subst h3
            exact Or.inr ⟨e', argv', n1, c1, m, rfl, hd, h1.symm, h2.symm⟩

theorem dispatch_cases {S : Settings} {e : Env} {n n1 : Node} {c c1 : Client} {argv : List Bytes} {m : Option Msg}
    {st : Status} (h : dispatch S e n c argv = .done n1 c1 m st) :
    (c.ns = none ∧ n1 = n ∧ c1 = c ∧ st = .discard ∧
      m = errMsg "Your active namespace is not available anymore (probably removed).") ∨
    ∃ u key rest, c.ns = some u ∧ argv = key :: rest ∧
      ((lookupCmd key = none ∧ n1 = n ∧ c1 = { c with executed := none } ∧ st = .keep ∧ m = errMsg "Command not supported") ∨
       ∃ i r name h, lookupCmd key = some i ∧ nsDeref n u = some r ∧ handlers[i]? = some (name, h) ∧
         runHandler S e n { c with executed := some i } r h argv = .done n1 c1 m st) := by
  unfold dispatch at h
  cases hu : c.ns with
  | none =>
    rw [hu] at h
    simp only at h
    injection h with h1 h2 h3 h4
    exact Or.inl ⟨rfl, h1.symm, h2.symm, h4.symm, h3.symm⟩
  | some u =>
    rw [hu] at h
    simp only at h
    right
    cases argv with
    | nil => exact absurd h (by simp)
    | cons key rest =>
      refine ⟨u, key, rest, rfl, rfl, ?_⟩
      simp only at h
      cases hl : lookupCmd key with
      | none =>
        rw [hl] at h
        obtain ⟨h1, h2, h3, h4⟩ := say_inj h
        exact Or.inl ⟨rfl, h1, h2, h4, h3⟩
      | some i =>
        rw [hl] at h
        simp only at h
        right
        cases hr : nsDeref n u with
        | none => rw [hr] at h; exact absurd h (by simp)
        | some r =>
          cases hi : handlers[i]? with
          | none => rw [hr, hi] at h; exact absurd h (by simp)
          | some x =>
            rw [hr, hi] at h
            exact ⟨i, r, x.1, x.2, rfl, rfl, hi, h⟩

/-! ### the invariant -/

/-- A name NSNEW accepts. -/
structure GoodName (name : Bytes) : Prop where
  valid : validName name = true
  ne : name ≠ []
  len : name.length ≤ 128
  nul : (0 : UInt8) ∉ name

/-- What `zdb-namespace` contains. -/
structure DescOK (r : NsRec) : Prop where
  written : ∃ c tail, r.desc = encDesc c ++ tail ∧ (r.conf.name ≠ nameDefault → encDesc c = encDesc r.conf)
  pass : r.conf.name ≠ nameDefault → ∀ p, r.conf.password = some p → (0 : UInt8) ∉ p ∧ p.length ≤ 63
  size : r.conf.name ≠ nameDefault → r.conf.maxsize < 2 ^ 64

structure NodeInv (S : Settings) (n : Node) : Prop where
  head : ∃ d l, n.slots = some d :: l ∧ d.conf.name = nameDefault
  uids : ((recs n).map (·.uid)).Nodup
  names : ((recs n).map (·.conf.name)).Nodup
  count : n.effective = (recs n).length
  attached : ∀ fd c u, getClient n fd = some c → c.ns = some u → ∃ r ∈ recs n, r.uid = u
  dead : ∀ v, (∀ r ∈ recs n, r.uid ≠ v) → ∀ h, nsBranch n.br v h = []
  seqs : ∀ r ∈ recs n, r.store.mode = .seq → ∀ h, nsBranch n.br r.uid h = []
  used : ∀ r ∈ recs n, r.store.nextentry = 0 → ∀ h, nsBranch n.br r.uid h = []
  single : ∀ m, S.cfg = some m → ∀ r ∈ recs n, r.store.mode = m
  shape : ∀ r ∈ recs n, r.conf.name = nameDefault ∨ GoodName r.conf.name
  desc : ∀ r ∈ recs n, DescOK r

/-- The parts of the invariant that do not mention clients only depend on slots, table and count. -/
theorem NodeInv.congr {S : Settings} {n n' : Node} (h : NodeInv S n) (hb : n'.br = n.br) (hs : n'.slots = n.slots)
    (he : n'.effective = n.effective)
    (ha : ∀ fd c u, getClient n' fd = some c → c.ns = some u → ∃ r ∈ recs n, r.uid = u) : NodeInv S n' := by
  have hr : recs n' = recs n := by unfold recs; rw [hs]
  refine ⟨?_, ?_, ?_, ?_, ?_, ?_, ?_, ?_, ?_, ?_, ?_⟩
  · rw [hs]; exact h.head
  · rw [hr]; exact h.uids
  · rw [hr]; exact h.names
  · rw [hr, he]; exact h.count
  · rw [hr]; exact ha
  · rw [hr, hb]; exact h.dead
  · rw [hr, hb]; exact h.seqs
  · rw [hr, hb]; exact h.used
  · rw [hr]; exact h.single
  · rw [hr]; exact h.shape
  · rw [hr]; exact h.desc

theorem NodeInv.rec_of {S : Settings} {n : Node} (h : NodeInv S n) {r : NsRec} (hr : r ∈ recs n) :
    nsDeref n r.uid = some r := nsDeref_mem h.uids hr

/-- Replacing one namespace of the table. -/
theorem NodeInv.update {S : Settings} {n : Node} (h : NodeInv S n) {x : NsRec} (hx : x ∈ recs n) (br : Branches)
    (f : NsRec → NsRec) (hu : (f x).uid = x.uid) (hn : (f x).conf.name = x.conf.name) (hb : OnlyTags x.uid n.br br)
    (hseq : (f x).store.mode = .seq → ∀ h, nsBranch br x.uid h = [])
    (huse : (f x).store.nextentry = 0 → ∀ h, nsBranch br x.uid h = [])
    (hsingle : ∀ m, S.cfg = some m → (f x).store.mode = m) (hd : DescOK (f x)) :
    NodeInv S (nsUpdate { n with br := br } x.uid f) := by
  have hone : ∀ r ∈ recs n, r.uid = x.uid → r = x := fun r hr he => uid_inj h.uids hr hx he
  have hrec : recs (nsUpdate { n with br := br } x.uid f) = (recs n).map (fun r => if r.uid == x.uid then f r else r) :=
    recs_nsUpdate _ _ _
  have hmem : ∀ r ∈ recs (nsUpdate { n with br := br } x.uid f), r = f x ∨ (r ∈ recs n ∧ r.uid ≠ x.uid) := by
    intro r hr
    rcases mem_recs_update.1 hr with ⟨y, hy, hyu, rfl⟩ | h
    · left; rw [hone y hy hyu]
    · exact Or.inr h
  have hmap : ∀ {β : Type} (g : NsRec → β), g (f x) = g x →
      (recs (nsUpdate { n with br := br } x.uid f)).map g = (recs n).map g := by
    intro β g hg
    refine recs_update_map g { n with br := br } x.uid f (fun r hr he => ?_)
    rw [hone r hr he]; exact hg
  refine ⟨?_, ?_, ?_, ?_, ?_, ?_, ?_, ?_, ?_, ?_, ?_⟩
  · obtain ⟨d, l, hl, hdn⟩ := h.head
    refine ⟨_, _, nsUpdate_head (n := { n with br := br }) hl x.uid f, ?_⟩
    by_cases hdx : d.uid = x.uid
    · have : d = x := hone d (mem_recs.2 (by rw [hl]; exact List.mem_cons_self ..)) hdx
      subst this
      simp [hn, hdn]
    · have : (d.uid == x.uid) = false := by simp [hdx]
      rw [this]; exact hdn
  · rw [hmap _ hu]; exact h.uids
  · rw [hmap (fun r => r.conf.name) hn]; exact h.names
  · rw [hrec, List.length_map]; exact h.count
  · intro fd c u hc hcu
    obtain ⟨r, hr, hru⟩ := h.attached fd c u hc hcu
    by_cases hrx : r.uid = x.uid
    · exact ⟨f x, mem_recs_update.2 (Or.inl ⟨x, hx, rfl, rfl⟩), by rw [hu, ← hrx, hru]⟩
    · exact ⟨r, mem_recs_update.2 (Or.inr ⟨hr, hrx⟩), hru⟩
  · intro v hv k
    have hvx : v ≠ x.uid := by
      intro hh
      refine hv (f x) (mem_recs_update.2 (Or.inl ⟨x, hx, rfl, rfl⟩)) ?_
      rw [hu, hh]
    change nsBranch br v k = []
    rw [hb v k hvx]
    refine h.dead v (fun r hr hrv => ?_) k
    exact hv r (mem_recs_update.2 (Or.inr ⟨hr, by rw [hrv]; exact hvx⟩)) hrv
  · intro r hr hm k
    rcases hmem r hr with rfl | ⟨hr', hne⟩
    · rw [hu]; exact hseq hm k
    · change nsBranch br r.uid k = []
      rw [hb r.uid k hne]; exact h.seqs r hr' hm k
  · intro r hr hm k
    rcases hmem r hr with rfl | ⟨hr', hne⟩
    · rw [hu]; exact huse hm k
    · change nsBranch br r.uid k = []
      rw [hb r.uid k hne]; exact h.used r hr' hm k
  · intro m hm r hr
    rcases hmem r hr with rfl | ⟨hr', -⟩
    · exact hsingle m hm
    · exact h.single m hm r hr'
  · intro r hr
    rcases hmem r hr with rfl | ⟨hr', -⟩
    · rw [hn]; exact h.shape x hx
    · exact h.shape r hr'
  · intro r hr
    rcases hmem r hr with rfl | ⟨hr', -⟩
    · exact hd
    · exact h.desc r hr'

theorem DescOK.store {r : NsRec} (h : DescOK r) (s : Store) : DescOK { r with store := s } :=
  ⟨h.written, h.pass, h.size⟩

/-! ### what the guards say -/

/-- Conditions on an event: `malloc` does not return an address in use; in mixed mode, namespaces are reloaded
    from index files whose headers carry the mode of the namespace; the directories found at startup are those of
    the namespaces. -/
def Guard (S : Settings) (n : Node) : Event → Prop
  | .request _ e _ => (∀ r ∈ recs n, r.uid ≠ e.uid) ∧ (∀ r ∈ recs n, ModeOf S.cfg r.store.mode r.store.ifiles)
  | .restart order => (∀ r ∈ recs n, ModeOf S.cfg r.store.mode r.store.ifiles) ∧
      order.Perm ((recs n).tail.map (·.uid))
  | _ => True

/-! ### preservation -/

theorem NodeInv.ds {S : Settings} {n : Node} (h : NodeInv S n) {e : Env} {c : Client} {r : NsRec} (hr : r ∈ recs n)
    {d : DsCmd} {argv : List Bytes} {br : Branches} {s : Store} {rep : Reply}
    (hd : dsCommand (ctxOf S e c r) n.br r.store d argv = (br, s, rep)) :
    NodeInv S (nsUpdate { n with br := br } r.uid (fun r => { r with store := s })) := by
  have h1 := dsCommand_only (ctxOf S e c r) n.br r.store d argv
  have h2 := dsCommand_calm (ctxOf S e c r) n.br r.store d argv
  have h3 := dsCommand_seq_br (ctxOf S e c r) n.br r.store d argv
  rw [hd] at h1 h2 h3
  have hm : s.mode = r.store.mode := h2.1.1
  refine h.update hr br _ rfl rfl h1 ?_ ?_ ?_ ((h.desc r hr).store s)
  · intro hs k
    have hrs : r.store.mode = .seq := hm.symm.trans hs
    rw [show br = n.br from h3 hrs]
    exact h.seqs r hr hrs k
  · intro hs k
    exact h2.2 hs k (h.used r hr (h2.1.2 hs) k)
  · intro m hS
    exact hm.trans (h.single m hS r hr)

theorem reloadNs_ok {cfg : Option Mode} {br br' : Branches} {u : Nat} {s s' : Store}
    (hm : ModeOf cfg s.mode s.ifiles) (hs : s.mode = .seq → ∀ h, nsBranch br u h = [])
    (h : reloadNs cfg br u s = .ok br' s') :
    s'.mode = s.mode ∧ (s.mode = .seq → br' = br) ∧ (s'.nextentry = 0 → ∀ h, nsBranch br' u h = []) := by
  unfold reloadNs at h
  have := loadNs_ok hm h
  cases hmo : s.mode with
  | user =>
    rw [hmo] at this
    exact ⟨this.1, by simp, fun h0 k => this.2.2 h0 k (nsBranch_clean _ _ _)⟩
  | seq =>
    rw [hmo] at this
    exact ⟨this.1, this.2.1, fun h0 k => this.2.2 h0 k (hs hmo k)⟩

theorem NodeInv.reload {S : Settings} {n : Node} (h : NodeInv S n) {r : NsRec} (hr : r ∈ recs n)
    (hmo : ModeOf S.cfg r.store.mode r.store.ifiles)
    {br : Branches} {s : Store} (hd : reloadNs S.cfg n.br r.uid r.store = .ok br s) :
    NodeInv S (nsUpdate { n with br := br } r.uid (fun r => { r with store := s })) := by
  have h1 := reloadNs_only hd
  obtain ⟨h2, h3, h4⟩ := reloadNs_ok hmo (fun hs => h.seqs r hr hs) hd
  refine h.update hr br _ rfl rfl h1 ?_ h4 ?_ ((h.desc r hr).store s)
  · intro hs k
    have hrs : r.store.mode = .seq := h2.symm.trans hs
    rw [h3 hrs]; exact h.seqs r hr hrs k
  · intro m hS
    exact h2.trans (h.single m hS r hr)

theorem nsArg_ok {argv : List Bytes} {name : Bytes} (h : nsArg argv = .ok name) :
    ∃ a, argv[1]? = some a ∧ name = cstr a ∧ name.length ≤ 128 ∧ (0 : UInt8) ∉ name := by
  unfold nsArg at h
  split at h
  · exact absurd h (by simp)
  · rename_i a ha
    split at h
    · exact absurd h (by simp)
    · rename_i hl
      injection h with h
      subst h
      refine ⟨a, ha, rfl, ?_, mem_cstr a⟩
      have := cstr_length_le a
      omega

theorem NodeInv.name_mem {S : Settings} {n : Node} (h : NodeInv S n) {name : Bytes} :
    nsGet n name = none ↔ name ∉ (recs n).map (·.conf.name) := by
  obtain ⟨d, l, hl, -⟩ := h.head
  unfold nsGet
  rw [nsIter_recs hl, List.find?_eq_none]
  simp

theorem freshStore_dead (m : Mode) : (freshStore m).nextentry = 0 := rfl

theorem NodeInv.nsnew {S : Settings} {n : Node} (h : NodeInv S n) {u : Nat} (hu : ∀ r ∈ recs n, r.uid ≠ u)
    {name : Bytes} (hg : GoodName name) (hf : nsGet n name = none) {br : Branches} {s : Store}
    (hs : freshNs S.cfg n.br u = .ok br s) :
    NodeInv S { n with br := br, effective := n.effective + 1
                       slots := pushSlot ⟨u, defaultConf name, s, encDesc (defaultConf name)⟩ n.slots } := by
  rw [freshNs_eq] at hs
  injection hs with h1 h2
  subst h1; subst h2
  have hp : (recs { n with
      effective := n.effective + 1
      slots := pushSlot ⟨u, defaultConf name, freshStore (S.cfg.getD .user), encDesc (defaultConf name)⟩ n.slots }).Perm
      (⟨u, defaultConf name, freshStore (S.cfg.getD .user), encDesc (defaultConf name)⟩ :: recs n) := pushSlot_perm _ _
  have hmem : ∀ r, r ∈ recs { n with
      effective := n.effective + 1
      slots := pushSlot ⟨u, defaultConf name, freshStore (S.cfg.getD .user), encDesc (defaultConf name)⟩ n.slots } →
      r = ⟨u, defaultConf name, freshStore (S.cfg.getD .user), encDesc (defaultConf name)⟩ ∨ r ∈ recs n := fun r hr =>
    List.mem_cons.1 (hp.mem_iff.1 hr)
  have hdead := h.dead u hu
  obtain ⟨d, l, hl, hdn⟩ := h.head
  refine ⟨⟨d, _, by simp only [hl, pushSlot_head]; rfl, hdn⟩, ?_, ?_, ?_, ?_, ?_, ?_, ?_, ?_, ?_, ?_⟩
  · rw [(hp.map _).nodup_iff, List.map_cons, List.nodup_cons]
    refine ⟨?_, h.uids⟩
    intro hm
    obtain ⟨r, hr, hru⟩ := List.mem_map.1 hm
    exact hu r hr hru
  · rw [(hp.map _).nodup_iff, List.map_cons, List.nodup_cons]
    exact ⟨h.name_mem.1 hf, h.names⟩
  · rw [hp.length_eq, List.length_cons]; exact congrArg (· + 1) h.count
  · intro fd c v hc hv
    obtain ⟨r, hr, hrv⟩ := h.attached fd c v hc hv
    exact ⟨r, hp.mem_iff.2 (List.mem_cons_of_mem _ hr), hrv⟩
  · intro v hv k
    exact h.dead v (fun r hr => hv r (hp.mem_iff.2 (List.mem_cons_of_mem _ hr))) k
  · intro r hr hm k
    rcases hmem r hr with rfl | hr
    · exact hdead k
    · exact h.seqs r hr hm k
  · intro r hr hm k
    rcases hmem r hr with rfl | hr
    · exact hdead k
    · exact h.used r hr hm k
  · intro m hS r hr
    rcases hmem r hr with rfl | hr
    · simp only [hS]; rfl
    · exact h.single m hS r hr
  · intro r hr
    rcases hmem r hr with rfl | hr
    · exact Or.inr hg
    · exact h.shape r hr
  · intro r hr
    rcases hmem r hr with rfl | hr
    · exact ⟨⟨defaultConf name, [], by simp, fun _ => rfl⟩, by simp [defaultConf], by simp [defaultConf]⟩
    · exact h.desc r hr

theorem cleanNs_only (br : Branches) (x : NsRec) : OnlyTags x.uid br (cleanNs br x) := by
  intro v k hv
  unfold cleanNs
  split
  · exact nsBranch_clean_other _ _ _ _ hv
  · rfl

theorem NodeInv.cleaned {S : Settings} {n : Node} (h : NodeInv S n) {x : NsRec} (hx : x ∈ recs n) (k : Nat) :
    nsBranch (cleanNs n.br x) x.uid k = [] := by
  unfold cleanNs
  cases hm : x.store.mode with
  | user => exact nsBranch_clean _ _ _
  | seq => exact h.seqs x hx hm k

theorem NodeInv.nsdel {S : Settings} {n : Node} (h : NodeInv S n) {x : NsRec} (hx : x ∈ recs n)
    (hd : x.conf.name ≠ nameDefault) :
    NodeInv S { n with br := cleanNs n.br x, slots := kickSlot x.uid n.slots, effective := n.effective - 1
                       clients := detach x.uid n.clients } := by
  have hr : recs { n with
      br := cleanNs n.br x, slots := kickSlot x.uid n.slots, effective := n.effective - 1
      clients := detach x.uid n.clients } = (recs n).filter (fun r => r.uid != x.uid) := by
    unfold recs
    simp only
    rw [kickSlot_filterMap]
    exact eraseP_uid h.uids _
  have hmem : ∀ r, r ∈ recs { n with
      br := cleanNs n.br x, slots := kickSlot x.uid n.slots, effective := n.effective - 1
      clients := detach x.uid n.clients } ↔ r ∈ recs n ∧ r.uid ≠ x.uid := by
    intro r; rw [hr, List.mem_filter]; simp
  obtain ⟨d, l, hl, hdn⟩ := h.head
  have hdx : d.uid ≠ x.uid := by
    intro hh
    have := uid_inj h.uids (mem_recs.2 (by rw [hl]; exact List.mem_cons_self ..)) hx hh
    exact hd (this ▸ hdn)
  refine ⟨⟨d, kickSlot x.uid l, ?_, hdn⟩, ?_, ?_, ?_, ?_, ?_, ?_, ?_, ?_, ?_, ?_⟩
  · simp only [hl, kickSlot]
    rw [if_neg (by simp [hdx])]
  · rw [hr]; exact h.uids.sublist (List.filter_sublist.map _)
  · rw [hr]; exact h.names.sublist (List.filter_sublist.map _)
  · have hlen : ((recs n).filter (fun r => r.uid != x.uid)).length = (recs n).length - 1 := by
      rw [← eraseP_uid h.uids]
      exact List.length_eraseP_of_mem hx (by simp)
    rw [hr, hlen]
    exact congrArg (· - 1) h.count
  · intro fd c u hc hcu
    have hg := getClient_detach x.uid n fd
    have hc' : ((detach x.uid n.clients)[fd]?).join = some c := hc
    rw [hc'] at hg
    cases hk : getClient n fd with
    | none => rw [hk] at hg; exact absurd hg (by simp)
    | some k =>
      rw [hk] at hg
      simp only [Option.map_some, Option.some.injEq] at hg
      by_cases hkx : k.ns = some x.uid
      · rw [if_pos hkx] at hg
        rw [hg] at hcu
        exact absurd hcu (by simp)
      · rw [if_neg hkx] at hg
        subst hg
        obtain ⟨r, hr1, hr2⟩ := h.attached fd c u hk hcu
        refine ⟨r, (hmem r).2 ⟨hr1, ?_⟩, hr2⟩
        intro hh
        exact hkx (by rw [hcu, ← hr2, hh])
  · intro v hv k
    by_cases hvx : v = x.uid
    · rw [hvx]; exact h.cleaned hx k
    · change nsBranch (cleanNs n.br x) v k = []
      rw [cleanNs_only n.br x v k hvx]
      refine h.dead v (fun r hr1 hrv => hv r ((hmem r).2 ⟨hr1, by rw [hrv]; exact hvx⟩) hrv) k
  · intro r hr1 hm k
    obtain ⟨hr2, hrx⟩ := (hmem r).1 hr1
    change nsBranch (cleanNs n.br x) r.uid k = []
    rw [cleanNs_only n.br x r.uid k hrx]; exact h.seqs r hr2 hm k
  · intro r hr1 hm k
    obtain ⟨hr2, hrx⟩ := (hmem r).1 hr1
    change nsBranch (cleanNs n.br x) r.uid k = []
    rw [cleanNs_only n.br x r.uid k hrx]; exact h.used r hr2 hm k
  · intro m hS r hr1
    exact h.single m hS r ((hmem r).1 hr1).1
  · intro r hr1; exact h.shape r ((hmem r).1 hr1).1
  · intro r hr1; exact h.desc r ((hmem r).1 hr1).1

/-- What NSSET does to a namespace. -/
structure PropOK (S : Settings) (x y : NsRec) (target : Bytes) : Prop where
  uid : y.uid = x.uid
  name : y.conf.name = x.conf.name
  store : y.store = x.store ∨ (S.cfg = none ∧ isFresh x.store = true ∧ ∃ m, y.store = setMode x.store m)
  pass : target ≠ nameDefault → y.conf.password = x.conf.password ∨ y.conf.password = none ∨
    ∃ v : Bytes, y.conf.password = some v ∧ (0 : UInt8) ∉ v ∧ v.length ≤ 63
  size : target ≠ nameDefault → y.conf.maxsize = x.conf.maxsize ∨ y.conf.maxsize < 2 ^ 64

theorem nsProperty_ok {S : Settings} {x y : NsRec} {target prop value : Bytes} (hv : (0 : UInt8) ∉ value)
    (hl : value.length ≤ 63) (h : nsProperty S x target prop value = .ok y) : PropOK S x y target := by
  unfold nsProperty at h
  simp only at h
  have hmod : ∀ z : Int, (z % 2 ^ 64).toNat < 2 ^ 64 := by intro z; omega
  split at h
  · split at h
    · exact absurd h (by simp)
    · rename_i hc
      have hc : S.cfg = none := by simpa using hc
      split at h
      · exact absurd h (by simp)
      · rename_i hf
        have hf : isFresh x.store = true := by simpa using hf
        split at h
        · injection h with h; subst h
          exact ⟨rfl, rfl, Or.inr ⟨hc, hf, _, rfl⟩, fun _ => Or.inl rfl, fun _ => Or.inl rfl⟩
        · split at h
          · injection h with h; subst h
            exact ⟨rfl, rfl, Or.inr ⟨hc, hf, _, rfl⟩, fun _ => Or.inl rfl, fun _ => Or.inl rfl⟩
          · exact absurd h (by simp)
  · split at h
    · injection h with h; subst h
      exact ⟨rfl, rfl, Or.inl rfl, fun _ => Or.inl rfl, fun _ => Or.inl rfl⟩
    · split at h
      · injection h with h; subst h
        exact ⟨rfl, rfl, Or.inl rfl, fun _ => Or.inl rfl, fun _ => Or.inl rfl⟩
      · split at h
        · exact absurd h (by simp)
        · split at h
          · injection h with h; subst h
            exact ⟨rfl, rfl, Or.inl rfl, fun _ => Or.inl rfl, fun _ => Or.inr (hmod _)⟩
          · split at h
            · injection h with h; subst h
              refine ⟨rfl, rfl, Or.inl rfl, fun _ => Or.inr ?_, fun _ => Or.inl rfl⟩
              simp only
              split
              · exact Or.inl rfl
              · exact Or.inr ⟨value, rfl, hv, hl⟩
            · split at h
              · injection h with h; subst h
                exact ⟨rfl, rfl, Or.inl rfl, fun _ => Or.inl rfl, fun _ => Or.inl rfl⟩
              · split at h
                · injection h with h; subst h
                  exact ⟨rfl, rfl, Or.inl rfl, fun _ => Or.inl rfl, fun _ => Or.inl rfl⟩
                · exact absurd h (by simp)

theorem setMode_rest (s : Store) (m : Mode) : (setMode s m).mode = m ∧ (setMode s m).nextentry = s.nextentry := by
  unfold setMode switchMode rehash
  simp only
  split
  · exact ⟨rfl, rfl⟩
  · split <;> exact ⟨rfl, rfl⟩

theorem NodeInv.nsset {S : Settings} {n : Node} (h : NodeInv S n) {x y : NsRec} {target : Bytes}
    (hx : nsGet n target = some x) (hp : PropOK S x y target) :
    NodeInv S (nsUpdate n x.uid (fun _ => commitNs y)) := by
  obtain ⟨hxm, hxn⟩ := nsGet_some hx
  have hd := h.desc x hxm
  have hstore : (commitNs y).store = y.store := rfl
  have hconf : (commitNs y).conf = y.conf := rfl
  refine h.update hxm n.br _ hp.uid hp.name (OnlyTags.refl _ _) ?_ ?_ ?_ ⟨?_, ?_, ?_⟩
  · intro hm k
    rcases hp.store with hs | ⟨-, hf, m, hs⟩
    · rw [hstore, hs] at hm; exact h.seqs x hxm hm k
    · refine h.used x hxm ?_ k
      simp only [isFresh, Bool.and_eq_true, beq_iff_eq] at hf
      exact hf.1.1
  · intro hm k
    refine h.used x hxm ?_ k
    rcases hp.store with hs | ⟨-, hf, m, hs⟩
    · rw [hstore, hs] at hm; exact hm
    · simp only [isFresh, Bool.and_eq_true, beq_iff_eq] at hf
      exact hf.1.1
  · intro m hm
    rcases hp.store with hs | ⟨hc, -⟩
    · rw [hstore, hs]; exact h.single m hm x hxm
    · rw [hc] at hm; exact absurd hm (by simp)
  · obtain ⟨tail, ht⟩ := commitNs_desc y
    exact ⟨y.conf, tail, ht, fun _ => rfl⟩
  · intro hnd p hpw
    rw [hconf] at hnd hpw
    have hnd' : x.conf.name ≠ nameDefault := hp.name ▸ hnd
    rcases hp.pass (hxn ▸ hnd') with hh | hh | ⟨v, hh, h1, h2⟩
    · exact hd.pass hnd' p (hh ▸ hpw)
    · rw [hh] at hpw; exact absurd hpw (by simp)
    · rw [hh] at hpw; injection hpw with hpw; subst hpw; exact ⟨h1, h2⟩
  · intro hnd
    rw [hconf] at hnd ⊢
    have hnd' : x.conf.name ≠ nameDefault := hp.name ▸ hnd
    rcases hp.size (hxn ▸ hnd') with hh | hh
    · rw [hh]; exact hd.size hnd'
    · exact hh

end Zdb
