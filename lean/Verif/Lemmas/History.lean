/-
HISTORY in a user-key namespace.
-/
import Verif.Lemmas.UserCursor
import Verif.Lemmas.SeqOps
import Verif.Lemmas.Twin
import Verif.Spec.History
namespace Zdb

/-- The oldest version of the record at this position is in file 0. -/
inductive Rooted (L : List Loc) : Nat × Nat → Prop
  | first {m : Loc} : m ∈ L → m.r.item.parentoff = 0 → m.file = 0 → Rooted L (m.file, m.off)
  | next {m : Loc} : m ∈ L → Rooted L (m.r.item.parentid, m.r.item.parentoff) → Rooted L (m.file, m.off)

/-- The oldest version of the key is in file 0. -/
def Early (G : Log) (k : Bytes) : Prop := ∀ l, liveGet G k = some l → Rooted (locs G) (l.file, l.off)

theorem Rooted.mem {L : List Loc} {p : Nat × Nat} (h : Rooted L p) : ∃ m ∈ L, (m.file, m.off) = p := by
  cases h with
  | first h _ _ => exact ⟨_, h, rfl⟩
  | next h _ => exact ⟨_, h, rfl⟩

theorem Rooted.at {G : Log} {l : Loc} (hl : l ∈ locs G) (h : Rooted (locs G) (l.file, l.off)) :
    (l.r.item.parentoff = 0 ∧ l.file = 0) ∨ Rooted (locs G) (l.r.item.parentid, l.r.item.parentoff) := by
  generalize hp : (l.file, l.off) = p at h
  cases h with
  | @first m hm h1 h2 =>
    have := pos_inj hl hm hp
    subst this
    exact Or.inl ⟨h1, h2⟩
  | @next m hm h1 =>
    have := pos_inj hl hm hp
    subst this
    exact Or.inr h1

theorem Kills.mem {P : Bytes → Prop} {A B : List Loc} (h : Kills P A B) {a : Loc} (ha : a ∈ A) :
    ∃ b ∈ B, a.stat = b.stat := by
  induction A generalizing B with
  | nil => cases ha
  | cons x A ih =>
    cases B with
    | nil => exact absurd h id
    | cons y B =>
      rcases List.mem_cons.1 ha with rfl | ha
      · exact ⟨y, by simp, h.1.1⟩
      · obtain ⟨b, hb, e⟩ := ih h.2 ha
        exact ⟨b, by simp [hb], e⟩

theorem Kills.mem' {P : Bytes → Prop} {A B : List Loc} (h : Kills P A B) {b : Loc} (hb : b ∈ B) :
    ∃ a ∈ A, a.stat = b.stat ∧ (b.live = true → a.live = true) := by
  induction A generalizing B with
  | nil =>
    cases B with
    | nil => cases hb
    | cons => exact absurd h id
  | cons x A ih =>
    cases B with
    | nil => cases hb
    | cons y B =>
      rcases List.mem_cons.1 hb with rfl | hb
      · exact ⟨x, by simp, h.1.1, h.1.2.1⟩
      · obtain ⟨a, ha, e⟩ := ih h.2 hb
        exact ⟨a, by simp [ha], e⟩

theorem stat_fields {a b : Loc} (h : a.stat = b.stat) : a.file = b.file ∧ a.off = b.off ∧ a.id = b.id ∧
    a.r.item.parentid = b.r.item.parentid ∧ a.r.item.parentoff = b.r.item.parentoff := by
  obtain ⟨af, ao, ⟨⟨_, _, _, _, _, _, _, _, _, _, _⟩, _⟩⟩ := a
  obtain ⟨bf, bo, ⟨⟨_, _, _, _, _, _, _, _, _, _, _⟩, _⟩⟩ := b
  simp only [Loc.stat, Loc.mk.injEq, Rec.mk.injEq, Item.mk.injEq] at h
  simp only [Loc.id]
  simp_all

theorem Rooted.step {P : Bytes → Prop} {G G' : Log} (hs : LogStep P G G') {p : Nat × Nat}
    (h : Rooted (locs G) p) : Rooted (locs G') p := by
  obtain ⟨-, L, E, h1, h2, -⟩ := hs
  induction h with
  | @first m hm h3 h4 =>
    obtain ⟨m', hm', he⟩ := h2.mem hm
    obtain ⟨e1, e2, -, e3, e4⟩ := stat_fields he
    rw [e1, e2]
    exact .first (by rw [h1]; simp [hm']) (by rw [← e4]; exact h3) (by rw [← e1]; exact h4)
  | @next m hm _ ih =>
    obtain ⟨m', hm', he⟩ := h2.mem hm
    obtain ⟨e1, e2, -, e3, e4⟩ := stat_fields he
    rw [e1, e2]
    exact .next (by rw [h1]; simp [hm']) (by rw [← e3, ← e4]; exact ih)

theorem Early.step {P : Bytes → Prop} {G G' : Log} (hs : LogStep P G G') {k : Bytes}
    (hn : ((live G).map Loc.id).Nodup) (hk : liveGet G k ≠ none) (h : Early G k) : Early G' k := by
  intro l hl
  obtain ⟨hl', hid⟩ := liveGet_some hl
  obtain ⟨hmem, hlive⟩ := List.mem_filter.1 hl'
  cases hg : liveGet G k with
  | none => exact absurd hg hk
  | some m =>
    have hm := h m hg
    obtain ⟨hm', hmid⟩ := liveGet_some hg
    obtain ⟨hmm, hml⟩ := List.mem_filter.1 hm'
    have hs' := hs
    obtain ⟨-, L, E, h1, h2, h3⟩ := hs'
    rw [h1] at hmem
    rcases List.mem_append.1 hmem with hx | hx
    · obtain ⟨a, ha, he, hal⟩ := h2.mem' hx
      obtain ⟨e1, e2, e3, -⟩ := stat_fields he
      have := liveGet_of_mem hn (List.mem_filter.2 ⟨ha, hal hlive⟩)
      rw [e3, hid, hg] at this
      injection this with this
      subst this
      rw [← e1, ← e2]
      exact hm.step hs
    · obtain ⟨-, hp⟩ := h3 l hx
      obtain ⟨p1, p2⟩ := hp m hmm hml (by rw [hmid, hid])
      refine .next (by rw [h1]; exact hmem) ?_
      rw [p1, p2]
      exact hm.step hs

/-- As long as there is one file, all keys are. -/
theorem UInv.early {br : Branches} {u : Nat} {s : Store} {G : Log} (h : UInv br u s G)
    (h0 : s.indexid = 0) (k : Bytes) : Early G k := by
  have hf : ∀ l ∈ locs G, l.file = 0 := fun l hl => by have := mem_locs_lt hl; have := h.iid; omega
  have key : ∀ n, ∀ l ∈ locs G, l.off < n → Rooted (locs G) (l.file, l.off) := by
    intro n
    induction n with
    | zero => intro l _ hn; omega
    | succ n ih =>
      intro l hl hn
      rcases h.chain l hl with ⟨hz, -⟩ | ⟨m, hm, h1, h2, -⟩
      · exact .first hl hz (hf l hl)
      · refine .next hl ?_
        have hp := h.parents l hl
        rw [← h1, ← h2] at hp ⊢
        refine ih m hm ?_
        rcases hp with hp | hp
        · have := hf l hl; have := hf m hm; simp only at hp; omega
        · simp only at hp; omega
  intro l hl
  exact key (l.off + 1) l (live_mem (liveGet_some hl).1) (by omega)

theorem UInv.early_run {cfg : Option Mode} (hcfg : cfg = none ∨ cfg = some .user) {u : Nat} {br br' : Branches}
    {s s' : Store} {tr : List (NsEvent × Reply)} (hr : NsRun cfg u br s tr br' s') {G : Log}
    (h : UInv br u s G) (hev : ∀ x ∈ tr, EvOK x.1)
    (hroom : Room s.ifiles.length (totalData s) tr.length) {k : Bytes} (he : Early G k)
    (hk : ∀ p, p <+: tr → (specRun (absKV G) (p.map (·.1))).get k ≠ none) :
    ∃ G', UInv br' u s' G' ∧ absKV G' = specRun (absKV G) (tr.map (·.1)) ∧ Early G' k := by
  induction hr generalizing G with
  | nil br s => exact ⟨G, h, rfl, he⟩
  | @cmd c d argv br br1 br2 s s1 s2 r tr hu h1 h2 ih =>
    subst hu
    obtain ⟨hc, ha⟩ := hev _ (List.mem_cons_self ..)
    obtain ⟨G1, i1, i2, i3, i4⟩ := h.command hc d argv ha (hroom.mono (by simp))
    have hg := dsCommand_grows c br s d argv (2 ^ 23) ha.size
    rw [h1] at i1 hg
    have hk0 : liveGet G k ≠ none := by
      have := hk [] (List.nil_prefix ..)
      intro hc
      apply this
      rw [List.map_nil, specRun, absKV_get, hc]
      rfl
    obtain ⟨G', j1, j2, j3⟩ := ih i1 (fun x hx => hev x (List.mem_cons_of_mem _ hx))
      (hroom.step hg (by omega)) (he.step i4 h.nodup hk0) (fun p hp => by
        have := hk ((NsEvent.cmd c d argv, r) :: p) (by rw [List.cons_prefix_cons]; exact ⟨rfl, hp⟩)
        rw [i2]; exact this)
    exact ⟨G', j1, by rw [j2, i2]; rfl, j3⟩
  | @foreign br br1 br2 s s2 tr h1 h2 ih =>
    exact ih (h.foreign h1) (fun x hx => hev x (List.mem_cons_of_mem _ hx)) (hroom.mono (by simp)) he
      (fun p hp => hk ((NsEvent.foreign, Reply.nil) :: p) (by rw [List.cons_prefix_cons]; exact ⟨rfl, hp⟩))
  | @reload br br1 br2 s s1 s2 tr h1 h2 ih =>
    have hlen := h.irep.length
    obtain ⟨b, t, k1, k2, k3, k4, -⟩ := h.reload cfg hcfg (by have := hroom.1; omega)
    rw [h1] at k1
    injection k1 with k1 k1'
    subst k1; subst k1'
    exact ih k2 (fun x hx => hev x (List.mem_cons_of_mem _ hx))
      (by rw [k3, totalData, k4]; exact hroom.mono (by simp)) he
      (fun p hp => hk ((NsEvent.reload, Reply.ok) :: p) (by rw [List.cons_prefix_cons]; exact ⟨rfl, hp⟩))

theorem Recalls.mono {P Q : Prop} (hpq : Q → P) {call : Option Bytes → Reply} {cur : Option Bytes}
    {vs : List Ver} (h : Recalls P call cur vs) : Recalls Q call cur vs := by
  induction vs generalizing cur with
  | nil => exact h
  | cons v vs ih =>
    cases vs with
    | nil => exact fun hq => h (hpq hq)
    | cons w vs =>
      obtain ⟨e, h1, h2⟩ := h
      exact ⟨e, h1, ih h2⟩

theorem verChain_zero {L : List Loc} (h : ∀ l ∈ L, 0 < l.off) : verChain L (0, 0) = [] := by
  induction L with
  | nil => rfl
  | cons l L ih =>
    rw [verChain, if_neg, ih (fun x hx => h x (by simp [hx]))]
    have := h l (by simp)
    intro he
    injection he with _ he
    omega

/-- What HISTORY sends for a record. -/
theorem UInv.historySend {br : Branches} {u : Nat} {s : Store} {G : Log} (h : UInv br u s G) {l : Loc}
    (hl : l ∈ locs G) (hd : l.r.item.dataid = l.file) (k : EKey) :
    historySend s l.r.item k = histRow (if k.indexid ≠ 0 ∨ k.offset ≠ 0 then some (encEKey k) else none)
      ⟨l.r.payload, l.r.item.timestamp⟩ := by
  have hr := h.recs l hl
  have hg := hr.dataGet (s := s)
  rw [Zdb.historySend, hd, hr.wf.1, hg]
  simp only [histRow]
  split <;> rfl

theorem UInv.historyItem {br : Branches} {u : Nat} {s : Store} {G : Log} (h : UInv br u s G) {l : Loc}
    (hl : l ∈ locs G) : itemGetDisk s l.file l.off l.id.length = some l.r.item := by
  obtain ⟨f, hf, hr⟩ := h.toCore.readItem hl
  have hw := (h.recs l hl).wf
  simp only [itemGetDisk, hf]
  rw [show l.id.length = l.r.item.id.length from rfl, hr]
  simp [decItem_encItem _ hw]

/-- The reply of HISTORY at a record that has a parent, or any record in file 0. -/
theorem UInv.recalls {br : Branches} {u : Nat} {s : Store} {G : Log} (h : UInv br u s G)
    {call : Option Bytes → Reply} {k : Bytes}
    (hcall : ∀ m ∈ locs G, m.id = k → m.off ≠ 0 → call (some (encEKey ⟨m.file, m.off⟩)) =
      Zdb.historySend s m.r.item ⟨m.r.item.parentid, m.r.item.parentoff⟩) (vs : List Ver) :
    ∀ {l : Loc} {cur : Option Bytes}, l ∈ locs G → l.id = k →
      call cur = Zdb.historySend s l.r.item ⟨l.r.item.parentid, l.r.item.parentoff⟩ →
      verChain (locs G).reverse (l.r.item.parentid, l.r.item.parentoff) = vs →
      Recalls (Rooted (locs G) (l.file, l.off)) call cur (⟨l.r.payload, l.r.item.timestamp⟩ :: vs) := by
  have hpos : ∀ m ∈ locs G, 0 < m.off := fun m hm => by have := mem_locs_off hm; omega
  induction vs with
  | nil =>
    intro l cur hl hk hc hv
    intro h0
    have hz : l.r.item.parentoff = 0 ∧ l.r.item.parentid = 0 := by
      rcases h.chain l hl with hz | ⟨m, hm, h1, h2, h3⟩
      · exact hz
      · exfalso
        have := verChain_at hm (h.parents m hm)
        rw [h1, h2] at this
        rw [this] at hv
        cases hv
    have hfile : l.file = 0 := by
      rcases h0.at hl with h0 | h0
      · exact h0.2
      · obtain ⟨m, hm, e⟩ := h0.mem
        have := hpos m hm
        rw [hz.1] at e
        injection e with _ e
        omega
    have hd := h.diskid l hl
    rw [hc, h.historySend hl (by rcases hd with hd | hd; exact hd; rw [hd.1, hfile]), hz.1, hz.2]
    rfl
  | cons w vs ih =>
    intro l cur hl hk hc hv
    rcases h.chain l hl with ⟨hz1, hz2⟩ | ⟨m, hm, h1, h2, h3⟩
    · exfalso
      rw [hz1, hz2, verChain_zero (fun x hx => hpos x (List.mem_reverse.1 hx))] at hv
      cases hv
    · have hat := verChain_at hm (h.parents m hm)
      rw [h1, h2] at hat
      rw [hat] at hv
      injection hv with hv1 hv2
      have hoff : m.off ≠ 0 := by have := hpos m hm; omega
      have hd := h.diskid l hl
      replace hd : l.r.item.dataid = l.file := by
        rcases hd with hd | hd
        · exact hd
        · exact absurd hd.2 (by omega)
      refine ⟨encEKey ⟨m.file, m.off⟩, ?_, ?_⟩
      · rw [hc, h.historySend hl hd]
        simp only [← h1, ← h2]
        rw [if_pos (Or.inr hoff)]
      · rw [← hv1]
        refine (ih hm (h3.trans hk) (hcall m hm (h3.trans hk) hoff) hv2).mono (fun h0 => ?_)
        rcases h0.at hl with h0 | h0
        · omega
        · rw [h1, h2]; exact h0

/-- HISTORY shows all versions of a key (the oldest one only if it is in file 0). -/
theorem UInv.history {br : Branches} {s : Store} {G : Log} {c : Ctx} (h : UInv br c.u s G)
    (hf : c.conf.isFrozen = false) (n : Bytes) {k : Bytes} (hk : k.length ≤ 255) {v : Val}
    (hv : (absKV G).get k = some v) :
    Recalls (Early G k) (fun cur => cmdHistory c br s (n :: k :: cur.toList)) none v.versions := by
  rw [absKV_get] at hv
  cases hg : liveGet G k with
  | none => simp [hg] at hv
  | some l =>
    simp only [hg, Option.map_some, Option.some.injEq] at hv
    obtain ⟨hl, hid⟩ := liveGet_some hg
    have hm := live_mem hl
    subst hv
    refine Recalls.mono (fun he : Early G k => he l hg) ?_
    apply h.recalls (k := k) _ _ hm hid
    · simp only [Option.toList, cmdHistory, hf, key8_eq hk, h.indexGet, hg, Option.map_some]
      have := h.historyItem hm
      simp only [Loc.entry]
      rw [show l.r.item.id.length = l.id.length from rfl, this]
      simp
    · rfl
    · intro m hm' hmid hp
      have hfile : m.file < 2 ^ 32 := by have := mem_locs_lt hm'; have := h.files; omega
      have hoff := h.offs m hm'
      have ho : 0 < m.off := by have := mem_locs_off hm'; omega
      simp only [Option.toList, cmdHistory, hf, encEKey_length, ekeyLen]
      rw [decEKey_encEKey _ ⟨hfile, hoff⟩]
      have := h.historyItem hm'
      rw [hmid] at this
      simp only [Nat.mod_eq_of_lt (show k.length < 256 by omega), this, key8_eq hk]
      have he : k = m.r.item.id := hmid.symm
      rw [if_neg (by simp), if_neg (by simp), if_neg (by omega), if_neg (by simp [he])]

/-! ### two logs with the same index files -/

theorem bare_fields {a b : Loc} (h : a.bare = b.bare) : a.file = b.file ∧ a.off = b.off ∧ a.id = b.id ∧
    a.r.item = b.r.item := by
  simp only [Loc.bare, Prod.mk.injEq] at h
  exact ⟨h.1, h.2.1, by simp [Loc.id, h.2.2], h.2.2⟩

theorem bare_mem {L M : List Loc} (h : L.map Loc.bare = M.map Loc.bare) {l : Loc} (hl : l ∈ L) :
    ∃ m ∈ M, l.bare = m.bare := by
  have := List.mem_map_of_mem (f := Loc.bare) hl
  rw [h] at this
  obtain ⟨m, hm, e⟩ := List.mem_map.1 this
  exact ⟨m, hm, e.symm⟩

theorem Rooted.bare {L M : List Loc} (h : L.map Loc.bare = M.map Loc.bare) {p : Nat × Nat} (hr : Rooted L p) :
    Rooted M p := by
  induction hr with
  | first hm h1 h2 =>
    obtain ⟨m', hm', e⟩ := bare_mem h hm
    obtain ⟨e1, e2, -, e3⟩ := bare_fields e
    rw [e1, e2]
    exact .first hm' (by rw [← e3]; exact h1) (by rw [← e1]; exact h2)
  | next hm _ ih =>
    obtain ⟨m', hm', e⟩ := bare_mem h hm
    obtain ⟨e1, e2, -, e3⟩ := bare_fields e
    rw [e1, e2]
    exact .next hm' (by rw [← e3]; exact ih)

theorem Early.bare {G G' : Log} (h : (locs G).map Loc.bare = (locs G').map Loc.bare) {k : Bytes} (he : Early G k) :
    Early G' k := by
  intro l hl
  have := liveGet_bare (live_bare h) k
  rw [hl] at this
  cases hg : liveGet G k with
  | none => rw [hg] at this; cases this
  | some m =>
    rw [hg] at this
    injection this with this
    obtain ⟨e1, e2, -⟩ := bare_fields this
    rw [← e1, ← e2]
    exact (he m hg).bare h

/-- At some moment of the execution `tr` the namespace had a single file and the key was there, and it has not been
    deleted since then. -/
def FirstFile (cfg : Option Mode) (u : Nat) (tr : List (NsEvent × Reply)) (br : Branches) (s : Store)
    (k : Bytes) : Prop :=
  ∃ tr1 tr2 br1 s1, tr = tr1 ++ tr2 ∧ UserRun cfg u tr1 br1 s1 ∧ s1.indexid = 0 ∧ NsRun cfg u br1 s1 tr2 br s ∧
    ∀ p, p <+: tr2 → (specRun [] ((tr1 ++ p).map (·.1))).get k ≠ none

theorem specRun_append (m : KV) (a b : List NsEvent) : specRun m (a ++ b) = specRun (specRun m a) b := by
  induction a generalizing m with
  | nil => rfl
  | cons e a ih => exact ih _

theorem UserRun.early {cfg : Option Mode} {u : Nat} {tr : List (NsEvent × Reply)} {br : Branches} {s : Store}
    (hU : UserRun cfg u tr br s) {G : Log} (hG : UInv br u s G) {k : Bytes} (hf : FirstFile cfg u tr br s k) :
    Early G k := by
  obtain ⟨tr1, tr2, br1, s1, rfl, h, h0, hr, hin⟩ := hf
  obtain ⟨G1, h1, h2, -⟩ := h.inv
  obtain ⟨br0, b, t, k0, k1, k2⟩ := h.run
  have hm : cfg.getD .user = .user := by rcases h.hcfg with rfl | rfl <;> rfl
  rw [freshNs_eq, hm] at k1
  injection k1 with k1 k1'
  subst k1; subst k1'
  have hlen := hU.len
  rw [List.length_append] at hlen
  have hroom := k2.roomLeft h.hcfg (freshStore_uinv br0 u k0) h.ev (freshStore_room _ hlen)
  have e : ∀ p : List (NsEvent × Reply), specRun [] ((tr1 ++ p).map (·.1)) = specRun (absKV G1) (p.map (·.1)) := by
    intro p; rw [List.map_append, specRun_append, h2]
  simp only [e] at hin
  obtain ⟨G', j1, -, j3⟩ := h1.early_run h.hcfg hr (fun x hx => hU.ev x (by simp [hx])) hroom (h1.early h0 k) hin
  exact j3.bare (j1.bare hG rfl)

/-- The cursor in a reply of HISTORY comes from the index files. -/
theorem UInv.sameCursor {br b : Branches} {s t : Store} {G G' : Log} {c c' : Ctx} (h : UInv br c.u s G)
    (h' : UInv b c'.u t G') (he : s.ifiles = t.ifiles) (hf : c.conf.isFrozen = false) (hf' : c'.conf.isFrozen = false)
    (argv : List Bytes) {x y : Reply} {xs ys : List Reply} (hx : cmdHistory c br s argv = .arr (x :: xs))
    (hy : cmdHistory c' b t argv = .arr (y :: ys)) : x = y := by
  have key : ∀ (it : Item) (k : EKey), Zdb.historySend s it k = .arr (x :: xs) → Zdb.historySend t it k = .arr (y :: ys) →
      x = y := by
    intro it k h1 h2
    unfold Zdb.historySend at h1 h2
    split at h1
    · cases h1
    · split at h2
      · cases h2
      · injection h1 with h1
        injection h2 with h2
        injection h1 with h1
        injection h2 with h2
        rw [← h1, ← h2]
  have hget : ∀ a o n, itemGetDisk s a o n = itemGetDisk t a o n := by
    intro a o n; simp only [itemGetDisk, he]
  unfold cmdHistory at hx hy
  split at hx
  · rename_i _ k
    simp only [hf, Bool.false_eq_true, if_false] at hx
    simp only [hf', Bool.false_eq_true, if_false] at hy
    rw [h.indexGet] at hx
    rw [h'.indexGet] at hy
    have hb := liveGet_bare (live_bare (h.bare h' he)) (key8 k)
    cases hg : liveGet G (key8 k) with
    | none => rw [hg] at hx; cases hx
    | some l =>
      cases hg' : liveGet G' (key8 k) with
      | none => rw [hg'] at hy; cases hy
      | some m =>
        rw [hg] at hx hb
        rw [hg'] at hy hb
        injection hb with hb
        obtain ⟨e1, e2, -, e3⟩ := bare_fields hb
        simp only [Option.map_some, Loc.entry, e1, e2, e3, hget] at hx hy
        split at hx
        · cases hx
        · rename_i it hit
          rw [hit] at hy
          exact key _ _ hx hy
  · simp only [hf, Bool.false_eq_true, if_false] at hx
    simp only [hf', Bool.false_eq_true, if_false] at hy
    split at hx
    · cases hx
    · rename_i hne
      rw [if_neg hne] at hy
      split at hx
      · cases hx
      · rename_i hz
        rw [if_neg hz] at hy
        rw [hget] at hx
        split at hx
        · cases hx
        · rename_i it hit
          rw [hit] at hy
          simp only at hy
          split at hx
          · cases hx
          · rename_i hk
            rw [if_neg hk] at hy
            exact key _ _ hx hy
  · cases hx

theorem Recalls.both {P Q : Prop} {call call' : Option Bytes → Reply}
    (hc : ∀ cur x xs y ys, call cur = .arr (x :: xs) → call' cur = .arr (y :: ys) → x = y) {cur : Option Bytes}
    {vs : List Ver} (h : Recalls P call cur vs) (h' : Recalls Q call' cur vs) : RecallsSame (P ∧ Q) call call' cur vs := by
  induction vs generalizing cur with
  | nil => exact h
  | cons v vs ih =>
    cases vs with
    | nil => exact fun hq => ⟨h hq.1, h' hq.2⟩
    | cons w vs =>
      obtain ⟨e, h1, h2⟩ := h
      obtain ⟨e', h1', h2'⟩ := h'
      have := hc cur _ _ _ _ h1 h1'
      simp only [Reply.bulk.injEq] at this
      subst this
      exact ⟨e, h1, h1', ih h2 h2'⟩

theorem RecallsSame.mono {P Q : Prop} (hpq : Q → P) {call call' : Option Bytes → Reply} {cur : Option Bytes}
    {vs : List Ver} (h : RecallsSame P call call' cur vs) : RecallsSame Q call call' cur vs := by
  induction vs generalizing cur with
  | nil => exact h
  | cons v vs ih =>
    cases vs with
    | nil => exact fun hq => h (hpq hq)
    | cons w vs =>
      obtain ⟨e, h1, h1', h2⟩ := h
      exact ⟨e, h1, h1', ih h2⟩

end Zdb
