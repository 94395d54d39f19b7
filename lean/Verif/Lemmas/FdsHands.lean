/-
How loading, jumping and closing change the descriptors of a namespace; all others are a frame that stays.
-/
import Verif.Lemmas.Fds
namespace Zdb.Fds

/-- A set of descriptors with what they are for. -/
abbrev Hand := Nat → Path → Prop

/-- Nothing. -/
def Hand.empty : Hand := fun _ _ => False
/-- One descriptor, or none if it is negative. -/
def Hand.one (fd : Option Nat) (p : Path) : Hand := fun n q => fd = some n ∧ q = p
/-- Both. -/
def Hand.or (H K : Hand) : Hand := fun n q => H n q ∨ K n q

/-- The descriptors of a namespace. -/
def Root.hand (r : Root) : Hand := (Hand.one r.datFd r.datPath).or (Hand.one r.idxFd r.idxPath)

/-- The table holds the frame `R` and the hand `H`, and what was lost. -/
structure St (l : Bool) (R H : Hand) (T : Fdt) : Prop where
  iff_ : ∀ fd p, p.isLost = false → (T fd = some p ↔ R fd p ∨ H fd p)
  disj : ∀ fd p q, p.isLost = false → q.isLost = false → R fd p → H fd q → False
  lost : ∀ fd p, T fd = some (.lost p) → l = true ∧ p.canLeak = true
  zero : R 0 (.std 0)

section
variable {l : Bool} {R H K : Hand} {T : Fdt}

theorem St.congr (h : St l R H T) (e : ∀ fd p, H fd p ↔ K fd p) : St l R K T :=
  ⟨fun fd p hp => by rw [h.iff_ fd p hp, e], fun fd p q hp hq hr hk => h.disj fd p q hp hq hr ((e _ _).2 hk), h.lost, h.zero⟩

theorem St.opens {fd : Nat} {p : Path} (h : St l R H T) (hf : T fd = none) (hp : p.isLost = false) :
    St l R (H.or (.one (some fd) p)) (T.set fd p) := by
  have nr : ∀ q, q.isLost = false → ¬ (R fd q ∨ H fd q) := fun q hq hr => by
    rw [← h.iff_ fd q hq, hf] at hr
    cases hr
  refine ⟨fun n q hq => ?_, fun n q q' hq hq' hr hh => ?_, fun n q hn => ?_, h.zero⟩
  · by_cases hn : n = fd
    · subst hn
      rw [set_self]
      constructor
      · intro e
        cases e
        exact .inr (.inr ⟨rfl, rfl⟩)
      · rintro (hr | hr | hr)
        · exact absurd (.inl hr) (nr q hq)
        · exact absurd (.inr hr) (nr q hq)
        · rw [hr.2]
    · rw [set_ne hn, h.iff_ n q hq]
      constructor
      · rintro (hr | hr)
        · exact .inl hr
        · exact .inr (.inl hr)
      · rintro (hr | hr | hr)
        · exact .inl hr
        · exact .inr hr
        · exact absurd (Option.some.inj hr.1).symm hn
  · rcases hh with hh | hh
    · exact h.disj n q q' hq hq' hr hh
    · have : fd = n := Option.some.inj hh.1
      subst this
      exact nr q hq (.inl hr)
  · by_cases hn' : n = fd
    · subst hn'
      rw [set_self] at hn
      cases hn
      cases hp
    · rw [set_ne hn'] at hn
      exact h.lost n q hn

theorem St.mem {fd : Nat} {p : Path} (h : St l R H T) (hh : H fd p) (hp : p.isLost = false) : T fd = some p :=
  (h.iff_ fd p hp).2 (.inr hh)

theorem St.ok {fd : Option Nat} {p : Path} (h : St l R H T) (hh : ∀ n, fd = some n → H n p) (hp : p.isLost = false) :
    Ok T fd p := fun n hn => h.mem (hh n hn) hp

theorem clear_self {fd : Nat} : (T.clear fd) fd = none := by simp [Fdt.clear]

theorem clear_ne {fd n : Nat} (h : n ≠ fd) : (T.clear fd) n = T n := by simp [Fdt.clear, h]

theorem St.closes {fd : Nat} {p : Path} (h : St l R (H.or (.one (some fd) p)) T) (hp : p.isLost = false)
    (hd : ∀ q, q.isLost = false → ¬ H fd q) : St l R H (T.clear fd) := by
  refine ⟨fun n q hq => ?_, fun n q q' hq hq' hr hh => ?_, fun n q hn => ?_, h.zero⟩
  · by_cases hn : n = fd
    · subst hn
      rw [clear_self]
      constructor
      · intro e
        cases e
      · rintro (hr | hr)
        · exact absurd (h.disj n q p hq hp hr (.inr ⟨rfl, rfl⟩)) id
        · exact absurd hr (hd q hq)
    · rw [clear_ne hn, h.iff_ n q hq]
      constructor
      · rintro (hr | hr | hr)
        · exact .inl hr
        · exact .inr hr
        · exact absurd (Option.some.inj hr.1).symm hn
      · rintro (hr | hr)
        · exact .inl hr
        · exact .inr (.inl hr)
  · exact h.disj n q q' hq hq' hr (.inl hh)
  · by_cases hn' : n = fd
    · subst hn'
      rw [clear_self] at hn
      cases hn
    · rw [clear_ne hn'] at hn
      exact h.lost n q hn

theorem St.loses {fd : Nat} {p : Path} (h : St l R (H.or (.one (some fd) p)) T) (hp : p.isLost = false)
    (hd : ∀ q, q.isLost = false → ¬ H fd q) (hl : l = true) (hk : p.canLeak = true) : St l R H (T.set fd (.lost p)) := by
  refine ⟨fun n q hq => ?_, fun n q q' hq hq' hr hh => ?_, fun n q hn => ?_, h.zero⟩
  · by_cases hn : n = fd
    · subst hn
      rw [set_self]
      constructor
      · intro e
        cases e
        cases hq
      · rintro (hr | hr)
        · exact absurd (h.disj n q p hq hp hr (.inr ⟨rfl, rfl⟩)) id
        · exact absurd hr (hd q hq)
    · rw [set_ne hn, h.iff_ n q hq]
      constructor
      · rintro (hr | hr | hr)
        · exact .inl hr
        · exact .inr hr
        · exact absurd (Option.some.inj hr.1).symm hn
      · rintro (hr | hr)
        · exact .inl hr
        · exact .inr (.inl hr)
  · exact h.disj n q q' hq hq' hr (.inl hh)
  · by_cases hn' : n = fd
    · subst hn'
      rw [set_self] at hn
      cases hn
      exact ⟨hl, hk⟩
    · rw [set_ne hn'] at hn
      exact h.lost n q hn

/-- A path of the frame or hand is in one place only. -/
theorem St.uniq {fd : Nat} {p q : Path} (h : St l R H T) (hp : p.isLost = false) (hq : q.isLost = false) (h1 : H fd p)
    (h2 : H fd q) : p = q := by
  have e1 := h.mem h1 hp
  rw [h.mem h2 hq] at e1
  exact (Option.some.inj e1).symm

theorem St.one_none {p : Path} (h : St l R (H.or (.one none p)) T) : St l R H T :=
  h.congr fun fd q => ⟨fun h => h.elim id fun h => (nomatch h.1), .inl⟩

theorem St.none_one {p : Path} (h : St l R H T) : St l R (H.or (.one none p)) T :=
  h.congr fun fd q => ⟨.inl, fun h => h.elim id fun h => (nomatch h.1)⟩

theorem St.swap {A B : Hand} (h : St l R (A.or B) T) : St l R (B.or A) T :=
  h.congr fun fd q => ⟨Or.symm, Or.symm⟩

/-- The second of two different paths can be closed. -/
theorem wp_close_one {a b : Option Nat} {p q : Path} {Q : Unit → Fdt → Prop}
    (h : St l R ((Hand.one a p).or (.one b q)) T) (hp : p.isLost = false) (hq : q.isLost = false) (hne : p ≠ q)
    (hQ : ∀ T', St l R (.one a p) T' → Q () T') : wp l (close b q) Q T := by
  cases b with
  | none => exact hQ _ h.one_none
  | some fd =>
    refine ⟨h.mem (.inr ⟨rfl, rfl⟩) hq, hQ _ (h.closes hq fun q' _ hq' => ?_)⟩
    have : q' = p := hq'.2
    subst this
    exact hne (h.uniq hp hq (.inl hq') (.inr ⟨rfl, rfl⟩))

/-- The same for a function that closes only descriptors above 0. -/
theorem wp_close_pos {a b : Option Nat} {p q : Path} {Q : Unit → Fdt → Prop}
    (h : St l R ((Hand.one a p).or (.one b q)) T) (hp : p.isLost = false) (hq : q.isLost = false) (hne : p ≠ q)
    (hQ : ∀ T', St l R (.one a p) T' → Q () T') :
    wp l (match (generalizing := false) b with
      | some (n + 1) => close (some (n + 1)) q
      | _ => pure ()) Q T := by
  match b, h with
  | none, h => exact hQ _ h.one_none
  | some (n + 1), h => exact wp_close_one h hp hq hne hQ
  | some 0, h => exact absurd (h.disj 0 (.std 0) q rfl hq h.zero (.inr ⟨rfl, rfl⟩)) id

theorem one_empty {b : Option Nat} {q : Path} (h : St l R (.one b q) T) : St l R ((Hand.one none .epoll).or (.one b q)) T :=
  h.congr fun fd p => ⟨.inr, fun h => h.elim (fun h => (nomatch h.1)) id⟩

theorem none_empty {p : Path} (h : St l R (.one none p) T) : St l R .empty T :=
  h.congr fun fd p => ⟨fun h => (nomatch h.1), False.elim⟩

theorem empty_none {p : Path} (h : St l R .empty T) : St l R (.one none p) T :=
  h.congr fun fd p => ⟨False.elim, fun h => (nomatch h.1)⟩

variable {r : Root}

theorem idx_dat_ne : r.idxPath ≠ r.datPath := by
  intro h
  cases h

theorem dat_idx_ne : r.datPath ≠ r.idxPath := idx_dat_ne.symm

theorem St.rootOk (h : St l R r.hand T) : RootOk T r :=
  ⟨h.ok (fun n hn => .inr ⟨hn, rfl⟩) rfl, h.ok (fun n hn => .inl ⟨hn, rfl⟩) rfl⟩

theorem wp_dataOpenFinal {Q : Root → Fdt → Prop} (h : St l R H T)
    (hQ : ∀ fd T', St l R (H.or (.one fd r.datPath)) T' → Q { r with datFd := fd } T') :
    wp l (dataOpenFinal r) Q T := by
  have key : ∀ fd, T fd = none →
      wp l (do
        let _ ← io (some fd) r.datPath
        let n ← ask
        ios (some fd) r.datPath n
        pure { r with datFd := some fd } : Prog Root) Q (T.set fd r.datPath) := by
    intro fd hfd
    simp only [wp_bind, wp_ask]
    refine wp_io ok_set fun _ n => wp_ios ok_set ?_ n
    exact hQ _ _ (h.opens hfd rfl)
  simp only [wp_bind, wp_ask] at key
  simp only [dataOpenFinal, wp_bind, wp_openp]
  refine ⟨?_, fun fd hfd => ?_⟩
  · simp only [wp_bind, wp_ask]
    intro a
    split
    · trivial
    · simp only [wp_bind, wp_openp]
      exact ⟨trivial, fun fd hfd => key fd hfd⟩
  · exact key fd hfd

theorem wp_dataJumpNext {newid : Nat} {Q : Root → Fdt → Prop} (h : St l R r.hand T)
    (hQ : ∀ fd T', St l R { r with datId := newid, datFd := fd }.hand T' → Q { r with datId := newid, datFd := fd } T') :
    wp l (dataJumpNext r newid) Q T := by
  have rest : ∀ T', St l R (.one r.idxFd r.idxPath) T' →
      wp l (dataInitialize { r with datId := newid } >>= fun _ => dataOpenFinal { r with datId := newid }) Q T' := by
    intro T' h'
    rw [wp_bind]
    refine wp_dataInitialize (wp_dataOpenFinal h' fun fd T'' h'' => ?_)
    exact hQ fd T'' h''.swap
  simp only [dataJumpNext, wp_bind, wp_ask] at rest ⊢
  intro a
  split
  · simp only [wp_bind]
    refine wp_io h.rootOk.2 fun _ => ?_
    exact wp_close_one h.swap rfl rfl idx_dat_ne rest
  · simp only [wp_bind, wp_pure]
    exact wp_close_one h.swap rfl rfl idx_dat_ne rest

theorem wp_indexOpenFinal {Q : Root → Fdt → Prop} (h : St l R H T)
    (hQ : ∀ fd T', St l R (H.or (.one fd r.idxPath)) T' → Q { r with idxFd := fd } T') :
    wp l (indexOpenFinal r) Q T := by
  simp only [indexOpenFinal, wp_bind, wp_openp]
  exact ⟨hQ _ _ h.none_one, fun fd hfd => hQ _ _ (h.opens hfd rfl)⟩

theorem wp_indexJumpNext {Q : Root → Fdt → Prop} (h : St l R r.hand T)
    (hQ : ∀ fd id T', St l R { r with idxId := id, idxFd := fd }.hand T' → Q { r with idxId := id, idxFd := fd } T') :
    wp l (indexJumpNext r) Q T := by
  have rest : ∀ T', St l R (.one r.datFd r.datPath) T' →
      wp l (indexOpenFinal { r with idxId := (r.idxId + 1) % 2 ^ 32 } >>= fun r =>
        indexInitialize r.idxFd r.idxPath >>= fun _ => pure r) Q T' := by
    intro T' h'
    rw [wp_bind]
    refine wp_indexOpenFinal h' fun fd T'' h'' => ?_
    rw [wp_bind]
    refine wp_indexInitialize (h''.ok (fun n hn => .inr ⟨hn, rfl⟩) rfl) ?_
    exact hQ fd _ T'' h''
  simp only [indexJumpNext, wp_bind, wp_ask] at rest ⊢
  intro a
  split
  · simp only [wp_bind]
    refine wp_io h.rootOk.1 fun _ => ?_
    exact wp_close_one h rfl rfl dat_idx_ne rest
  · simp only [wp_bind, wp_pure]
    exact wp_close_one h rfl rfl dat_idx_ne rest

theorem wp_jump {Q : Root → Fdt → Prop} (h : St l R r.hand T)
    (hQ : ∀ r' T', r'.ns = r.ns → St l R r'.hand T' → Q r' T') : wp l (jump r) Q T := by
  simp only [jump, wp_bind]
  refine wp_indexJumpNext h fun fd id T' h' => ?_
  exact wp_dataJumpNext h' fun fd T'' h'' => hQ _ T'' rfl h''

theorem wp_indexDestroy {Q : Unit → Fdt → Prop} (h : St l R r.hand T)
    (hQ : ∀ T', St l R (.one r.datFd r.datPath) T' → Q () T') : wp l (indexDestroy r) Q T :=
  wp_close_pos h rfl rfl dat_idx_ne hQ

theorem wp_dataDestroy {Q : Unit → Fdt → Prop} (h : St l R (.one r.datFd r.datPath) T)
    (hQ : ∀ T', St l R .empty T' → Q () T') : wp l (dataDestroy r) Q T :=
  wp_close_pos (one_empty h) rfl rfl (by intro e; cases e) fun T' h' => hQ T' (none_empty h')

/-! ### loading -/

theorem wp_indexTryRoot {Q : Bool × Root → Fdt → Prop} (h : St l R .empty T)
    (hQ : ∀ b fd T', (b = false → fd = none) → St l R (.one fd r.idxPath) T' → Q (b, { r with idxFd := fd }) T') :
    wp l (indexTryRoot r) Q T := by
  have op : ∀ fd, T fd = none → Q (true, { r with idxFd := some fd }) (T.set fd r.idxPath) := fun fd hfd =>
    hQ true (some fd) _ (fun e => nomatch e)
      ((h.opens hfd rfl).congr fun n q => ⟨fun h => h.elim False.elim id, .inr⟩)
  simp only [indexTryRoot, wp_bind, wp_openp]
  refine ⟨?_, fun fd hfd => op fd hfd⟩
  simp only [wp_bind, wp_ask]
  intro a
  split
  · trivial
  · simp only [wp_bind, wp_openp]
    refine ⟨?_, fun fd hfd => op fd hfd⟩
    simp only [wp_bind, wp_ask]
    intro b
    split
    · trivial
    · exact hQ false none T (fun _ => rfl) (empty_none h)

/-- After loading a file nothing is open, except after a failing read. -/
theorem wp_indexLoadFile {fresh : Bool} {Q : Loaded × Root → Fdt → Prop} (h : St l R .empty T)
    (hz : ∀ st fd T', st ≠ .failed → (st = .length → fresh = false) → St l R .empty T' → Q (st, { r with idxFd := fd }) T')
    (hf : ∀ fd T', St l R (.one fd r.idxPath) T' → Q (.failed, { r with idxFd := fd }) T') :
    wp l (indexLoadFile r fresh) Q T := by
  simp only [indexLoadFile, wp_bind]
  refine wp_indexTryRoot h fun b fd T' hb h' => ?_
  cases b with
  | false =>
    have := hb rfl
    subst this
    exact hz .zero none T' (fun e => nomatch e) (fun e => nomatch e) (none_empty h')
  | true =>
    have hok : Ok T' fd r.idxPath := h'.ok (fun n hn => ⟨hn, rfl⟩) rfl
    have cl : ∀ {β : Type} {f : Unit → Prog β} {Q' : β → Fdt → Prop}, (∀ T'', St l R .empty T'' → wp l (f ()) Q' T'') →
        wp l (close fd r.idxPath >>= f) Q' T' := by
      intro β f Q' hq
      rw [wp_bind]
      exact wp_close_one (one_empty h') rfl rfl (by intro e; cases e) fun T'' h'' => hq T'' (none_empty h'')
    simp only [Bool.not_true, Bool.false_eq_true, if_false, wp_bind]
    refine wp_io hok fun a => ?_
    split
    · exact hf fd T' h'
    · split
      · exact cl fun T'' h'' => hz .zero fd T'' (fun e => nomatch e) (fun e => nomatch e) h''
      · rw [wp_bind]
        refine wp_indexInitialize hok ?_
        rw [wp_bind]
        intro n
        rw [wp_ret, wp_bind]
        refine wp_ios hok ?_ n
        exact cl fun T'' h'' => hz .zero fd T'' (fun e => nomatch e) (fun e => nomatch e) h''
    · trivial
    · cases hfr : fresh with
      | true => trivial
      | false =>
        simp only [Bool.false_eq_true, if_false]
        rw [wp_bind]
        intro n
        rw [wp_ret, wp_bind]
        refine wp_ios hok ?_ n
        rw [wp_bind]
        intro ok
        rw [wp_ret]
        split
        · trivial
        · exact cl fun T'' h'' => hz .length fd T'' (fun e => nomatch e) (fun _ => hfr) h''

theorem wp_indexLoadLoop {Q : Root → Fdt → Prop} :
    ∀ n id (r : Root) (T : Fdt), St l R .empty T →
      (∀ r' T', r'.ns = r.ns → St l R .empty T' → Q r' T') → wp l (indexLoadLoop r n id) Q T := by
  intro n
  induction n with
  | zero => intro id r T h hQ; exact hQ r T rfl h
  | succ n ih =>
    intro id r T h hQ
    simp only [indexLoadLoop, wp_bind]
    refine wp_indexLoadFile h (fun st fd T' hst _ h' => ?_) (fun fd T' h' => ?_)
    · cases st with
      | zero => exact hQ _ T' rfl h'
      | length => exact ih (id + 1) _ T' h' fun r' T'' hn h'' => hQ r' T'' hn h''
      | failed => exact absurd rfl hst
    · simp only [wp_bind]
      cases fd with
      | none => exact ih (id + 1) _ T' (none_empty h') fun r' T'' hn h'' => hQ r' T'' hn h''
      | some fd =>
        rw [wp_lose_some]
        intro hl
        refine ih (id + 1) _ _ ?_ fun r' T'' hn h'' => hQ r' T'' hn h''
        exact St.loses (h'.congr fun n q => ⟨.inr, fun h => h.elim False.elim fun h => h⟩) rfl (fun _ _ h => h) hl rfl

theorem wp_loadLazy {ns : Nat} {Q : Root → Fdt → Prop} (h : St l R .empty T)
    (hQ : ∀ r' T', r'.ns = ns → St l R r'.hand T' → Q r' T') : wp l (loadLazy ns) Q T := by
  have dat : ∀ (r : Root) T', r.ns = ns → St l R (.one r.idxFd r.idxPath) T' →
      wp l (dataInit { r with datId := r.idxId }) Q T' := by
    intro r T' hn h'
    simp only [dataInit, wp_bind]
    refine wp_dataInitialize (wp_dataOpenFinal h' fun fd T'' h'' => ?_)
    exact hQ _ T'' hn h''.swap
  simp only [loadLazy, indexInternalLoad, wp_bind, wp_ask]
  intro maxfile
  split
  · simp only [wp_bind]
    refine wp_indexLoadLoop _ _ _ _ h fun r' T' hn h' => ?_
    refine wp_indexOpenFinal h' fun fd T'' h'' => ?_
    exact dat { r' with idxFd := fd } T'' hn (h''.congr fun n q => ⟨fun h => h.elim False.elim id, .inr⟩)
  · simp only [wp_bind]
    refine wp_indexLoadFile h (fun st fd T' hst hfr h' => ?_) (fun fd T' h' => ?_)
    · cases st with
      | zero =>
        refine wp_indexOpenFinal h' fun fd T'' h'' => ?_
        exact dat _ T'' rfl (h''.congr fun n q => ⟨fun h => h.elim False.elim id, .inr⟩)
      | length => exact absurd (hfr rfl) (by decide)
      | failed => exact absurd rfl hst
    · exact dat _ T' rfl h'

theorem wp_descriptorLoad {ns : Nat} {Q : Bool → Fdt → Prop} (h : St l R H T)
    (hQ : ∀ b T', St l R H T' → Q b T') : wp l (descriptorLoad ns) Q T := by
  simp only [descriptorLoad, wp_bind, wp_openp]
  refine ⟨hQ _ _ h, fun fd hfd => ?_⟩
  have back : ∀ b, wp l (do
      let n ← ask
      ios (some fd) (.desc ns) n
      close (some fd) (.desc ns)
      pure b : Prog Bool) Q (T.set fd (.desc ns)) := by
    intro b
    simp only [wp_bind, wp_ask]
    intro n
    refine wp_ios ok_set ?_ n
    exact ⟨set_self, by rw [set_clear hfd]; exact hQ _ _ h⟩
  refine wp_io ok_set fun a => ?_
  split
  · exact back true
  · simp only [wp_bind, wp_ask]
    intro v
    split
    · simp only [wp_bind, wp_lose_some]
      intro hl
      refine hQ _ _ (St.loses (h.opens hfd rfl) rfl (fun q hlq hq => ?_) hl rfl)
      have := h.mem hq hlq
      rw [hfd] at this
      cases this
    · exact back true

theorem wp_namespaceLoad {ns : Nat} {Q : Option Root → Fdt → Prop} (h : St l R .empty T)
    (hn : ∀ T', St l R .empty T' → Q none T')
    (hs : ∀ r' T', r'.ns = ns → St l R r'.hand T' → Q (some r') T') : wp l (namespaceLoad ns) Q T := by
  simp only [namespaceLoad, wp_bind, wp_ask]
  intro a
  split
  · exact hn _ h
  · simp only [wp_bind]
    refine wp_descriptorLoad h fun b T' h' => ?_
    cases b with
    | false => exact hn _ h'
    | true =>
      simp only [if_true, wp_bind]
      exact wp_loadLazy h' fun r' T'' hr h'' => hs r' T'' hr h''

theorem wp_namespaceReload {Q : Root → Fdt → Prop} (h : St l R r.hand T)
    (hQ : ∀ r' T', r'.ns = r.ns → St l R r'.hand T' → Q r' T') : wp l (namespaceReload r) Q T := by
  simp only [namespaceReload, wp_bind]
  exact wp_indexDestroy h fun T1 h1 => wp_dataDestroy h1 fun T2 h2 => wp_loadLazy h2 hQ

theorem wp_namespaceDelete {Q : Unit → Fdt → Prop} (h : St l R r.hand T) (hQ : ∀ T', St l R .empty T' → Q () T') :
    wp l (namespaceDelete r) Q T := by
  simp only [namespaceDelete, wp_bind]
  exact wp_indexDestroy h fun T1 h1 => wp_dataDestroy h1 hQ

/-! ### commands -/

theorem wp_cmdSet {Q : Root → Fdt → Prop} (h : St l R r.hand T)
    (hQ : ∀ r' T', r'.ns = r.ns → St l R r'.hand T' → Q r' T') : wp l (cmdSet r) Q T := by
  have tail : ∀ (existing : Bool) (r' : Root) T', r'.ns = r.ns → St l R r'.hand T' →
      wp l (do
        let write ← ask
        if write = 0 then pure r' else do
          let ok ← dataInsert r'
          if ok then do
            let _ ← indexSet r' existing
            pure r'
          else pure r' : Prog Root) Q T' := by
    intro existing r' T' hn h'
    simp only [wp_bind, wp_ask]
    intro w
    split
    · exact hQ _ _ hn h'
    · simp only [wp_bind]
      refine wp_dataInsert h'.rootOk.2 fun ok => ?_
      cases ok with
      | false => exact hQ _ _ hn h'
      | true =>
        simp only [if_true, wp_bind]
        exact wp_indexSet h'.rootOk.1 fun _ => hQ _ _ hn h'
  have mid : ∀ (existing : Bool) (r' : Root) T', r'.ns = r.ns → St l R r'.hand T' →
      wp l (do
        let same ← ask
        if existing && same ≠ 0 then do
          let id ← ask
          dataFetch r' id
        let write ← ask
        if write = 0 then pure r' else do
          let ok ← dataInsert r'
          if ok then do
            let _ ← indexSet r' existing
            pure r'
          else pure r' : Prog Root) Q T' := by
    intro existing r' T' hn h'
    rw [wp_bind, wp_ask]
    intro same
    have := tail existing r' T' hn h'
    split
    · rw [wp_bind, wp_ask]
      intro id
      rw [wp_bind]
      exact wp_dataFetch h'.rootOk.2 this
    · exact this
  have body : ∀ existing : Bool,
      wp l (do
        let refused ← ask
        if refused ≠ 0 then pure r else do
          let _ ← io r.datFd r.datPath
          let full ← ask
          let r ← if full ≠ 0 then jump r else pure r
          let same ← ask
          if existing && same ≠ 0 then do
            let id ← ask
            dataFetch r id
          let write ← ask
          if write = 0 then pure r else do
            let ok ← dataInsert r
            if ok then do
              let _ ← indexSet r existing
              pure r
            else pure r : Prog Root) Q T := by
    intro existing
    rw [wp_bind, wp_ask]
    intro refused
    split
    · exact hQ _ _ rfl h
    · rw [wp_bind]
      refine wp_io h.rootOk.2 fun _ => ?_
      rw [wp_bind, wp_ask]
      intro full
      split
      · rw [wp_bind]
        exact wp_jump h fun r' T' hn h' => mid existing r' T' hn h'
      · exact mid existing r T rfl h
  unfold cmdSet
  rw [wp_bind, wp_ask]
  intro named
  split
  · exact body false
  · rw [wp_bind]
    exact wp_indexGet fun b => body b

theorem wp_cmdDel {Q : Root → Fdt → Prop} (h : RootOk T r) (hQ : Q r T) : wp l (cmdDel r) Q T := by
  simp only [cmdDel, wp_bind]
  refine wp_indexGet fun found => ?_
  simp only [wp_ask]
  intro worm
  split
  · simp only [wp_bind]
    refine wp_dataInsert h.2 fun ok => ?_
    cases ok with
    | false => exact hQ
    | true =>
      simp only [if_true, wp_bind, wp_ask]
      exact fun id => wp_indexOverwrite fun _ => hQ
  · exact hQ

theorem wp_cmdScan {up : Bool} {Q : Root → Fdt → Prop} (h : RootOk T r) (hQ : Q r T) : wp l (cmdScan r up) Q T := by
  have go : ∀ b : Bool, wp l (if b = true then do
      let n ← ask
      scanMany r up n
      pure r
    else pure r : Prog Root) Q T := by
    intro b
    cases b with
    | false => exact hQ
    | true =>
      simp only [if_true, wp_bind, wp_ask]
      exact fun n => wp_scanMany h.1 hQ n
  unfold cmdScan
  rw [wp_bind, wp_ask]
  intro argc
  split
  · rw [wp_bind, wp_ask]
    intro fuel
    rw [wp_bind]
    exact wp_scanLoop h.1 go _ _
  · rw [wp_bind, wp_ask]
    intro id
    rw [wp_bind]
    exact wp_indexItemGetDisk go

theorem wp_cmdHistory {Q : Root → Fdt → Prop} (h : RootOk T r) (hQ : Q r T) : wp l (cmdHistory r) Q T := by
  have go : ∀ b : Bool, wp l (do
      let fits ← ask
      if b && fits ≠ 0 then do
        let id ← ask
        dataFetch r id
        pure r
      else pure r : Prog Root) Q T := by
    intro b
    rw [wp_bind, wp_ask]
    intro fits
    split
    · rw [wp_bind, wp_ask]
      intro id
      rw [wp_bind]
      exact wp_dataFetch h.2 hQ
    · exact hQ
  unfold cmdHistory
  rw [wp_bind, wp_ask]
  intro argc
  split
  · rw [wp_bind]
    refine wp_indexGet fun found => ?_
    split
    · rw [wp_bind, wp_ask]
      intro id
      rw [wp_bind]
      exact wp_indexItemGetDisk go
    · exact go false
  · rw [wp_bind, wp_ask]
    intro id
    rw [wp_bind]
    exact wp_indexItemGetDisk go

theorem wp_cmd {c : Cmd} {Q : Root → Fdt → Prop} (h : St l R r.hand T)
    (hQ : ∀ r' T', r'.ns = r.ns → St l R r'.hand T' → Q r' T') : wp l (c.prog r) Q T := by
  have hr := hQ r T rfl h
  have ok := h.rootOk
  unfold Cmd.prog
  rw [wp_bind, wp_ask]
  intro refused
  split
  · exact hr
  · cases c with
    | get =>
      rw [wp_bind]
      refine wp_indexGet fun found => ?_
      split
      · rw [wp_bind, wp_ask]
        intro id
        rw [wp_bind]
        exact wp_dataFetch ok.2 hr
      · exact hr
    | check =>
      rw [wp_bind]
      refine wp_indexGet fun found => ?_
      split
      · rw [wp_bind, wp_ask]
        intro id
        rw [wp_bind]
        exact wp_dataFetch ok.2 hr
      · exact hr
    | lookup => exact wp_bind.2 (wp_indexGet fun _ => hr)
    | set => exact wp_cmdSet h hQ
    | del => exact wp_cmdDel ok hr
    | scan up => exact wp_cmdScan ok hr
    | history => exact wp_cmdHistory ok hr
    | nsinfo => exact wp_bind.2 (wp_io ok.2 fun _ => hr)
    | dataRaw =>
      rw [wp_bind, wp_ask]
      intro id
      exact wp_bind.2 (wp_dataFetch ok.2 hr)
    | nsset =>
      rw [wp_bind, wp_ask]
      intro mode
      split
      · rw [wp_bind]
        refine wp_indexOverwrite fun _ => ?_
        exact wp_bind.2 (wp_namespaceCommit hr)
      · exact wp_bind.2 (wp_namespaceCommit hr)
    | nsjump => exact wp_jump h hQ
    | other => exact hr

end

end Zdb.Fds
