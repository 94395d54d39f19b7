/-
The descriptors of the whole process: the invariant of the server and of a program that uses the library.
-/
import Verif.Lemmas.FdsHands
namespace Zdb.Fds

/-- The namespace of a file. -/
def Path.nsOf : Path → Option Nat
  | .index ns _ => some ns
  | .data ns _ => some ns
  | _ => none

/-- The descriptors of namespaces. -/
def rootsHand (rs : List Root) : Hand := fun n p => ∃ r ∈ rs, r.hand n p
/-- The descriptors of clients. -/
def clientsHand (cs : List Client) : Hand := fun n p => ∃ c ∈ cs, n = c.fd ∧ p = .client c.conn

theorem hand_nsOf {r : Root} {n : Nat} {p : Path} (h : r.hand n p) : p.nsOf = some r.ns := by
  rcases h with h | h <;> rw [h.2] <;> rfl

section
variable {l : Bool} {R A B : Hand} {T : Fdt}

theorem St.toFrame (h : St l R (A.or B) T) (hd : ∀ n p q, A n p → B n q → p ≠ q) : St l (R.or B) A T := by
  refine ⟨fun n p hp => ?_, fun n p q hp hq hr ha => ?_, h.lost, .inl h.zero⟩
  · rw [h.iff_ n p hp]
    constructor
    · rintro (hr | hr | hr)
      · exact .inl (.inl hr)
      · exact .inr hr
      · exact .inl (.inr hr)
    · rintro ((hr | hr) | hr)
      · exact .inl hr
      · exact .inr (.inr hr)
      · exact .inr (.inl hr)
  · rcases hr with hr | hr
    · exact h.disj n p q hp hq hr (.inl ha)
    · exact hd n q p ha hr (h.uniq hq hp (.inl ha) (.inr hr))

theorem St.fromFrame (h : St l (R.or B) A T) (hz : R 0 (.std 0)) (hd : ∀ n p q, R n p → B n q → p ≠ q) :
    St l R (A.or B) T := by
  refine ⟨fun n p hp => ?_, fun n p q hp hq hr ha => ?_, h.lost, hz⟩
  · rw [h.iff_ n p hp]
    constructor
    · rintro ((hr | hr) | hr)
      · exact .inl hr
      · exact .inr (.inr hr)
      · exact .inr (.inl hr)
    · rintro (hr | hr | hr)
      · exact .inl (.inl hr)
      · exact .inr hr
      · exact .inl (.inr hr)
  · rcases ha with ha | ha
    · exact h.disj n p q hp hq (.inl hr) ha
    · have e1 := (h.iff_ n p hp).2 (.inl (.inl hr))
      rw [(h.iff_ n q hq).2 (.inl (.inr ha))] at e1
      exact hd n p q hr ha (Option.some.inj e1).symm

/-- Two hands with different files. -/
def Apart (A B : Hand) : Prop := ∀ n p q, A n p → B n q → p ≠ q

theorem Apart.symm (h : Apart A B) : Apart B A := fun n p q ha hb e => h n q p hb ha e.symm

theorem rootsHand_cons {r : Root} {rs : List Root} {n : Nat} {p : Path} :
    rootsHand (r :: rs) n p ↔ r.hand n p ∨ rootsHand rs n p := by
  simp [rootsHand]

theorem apart_root {r : Root} {rs : List Root} (h : r.ns ∉ rs.map (·.ns)) : Apart r.hand (rootsHand rs) := by
  intro n p q ha hb e
  obtain ⟨r', hr', hb⟩ := hb
  have h1 := hand_nsOf ha
  rw [e, hand_nsOf hb] at h1
  exact h (by rw [← Option.some.inj h1]; exact List.mem_map_of_mem hr')

/-- The hand has no file of these namespaces. -/
def Avoids (R : Hand) (ks : List Nat) : Prop := ∀ n p k, R n p → p.nsOf = some k → k ∉ ks

theorem Avoids.apart {rs : List Root} (h : Avoids R (rs.map (·.ns))) : Apart R (rootsHand rs) := by
  intro n p q hr hq e
  obtain ⟨r, hm, hq⟩ := hq
  exact h n p r.ns hr (by rw [e]; exact hand_nsOf hq) (List.mem_map_of_mem hm)

theorem Avoids.tail {k : Nat} {ks : List Nat} (h : Avoids R (k :: ks)) : Avoids R ks :=
  fun n p k' hr hk hm => h n p k' hr hk (List.mem_cons_of_mem _ hm)

theorem Avoids.head {r : Root} {ks : List Nat} (h : Avoids R (r.ns :: ks)) : Apart R r.hand := by
  intro n p q hr hq e
  exact h n p r.ns hr (by rw [e]; exact hand_nsOf hq) (List.mem_cons_self)

theorem Avoids.add {r : Root} {ks : List Nat} (h : Avoids R ks) (hn : r.ns ∉ ks) : Avoids (R.or r.hand) ks := by
  intro n p k hr hk
  rcases hr with hr | hr
  · exact h n p k hr hk
  · rw [hand_nsOf hr] at hk
    rw [← Option.some.inj hk]
    exact hn

/-- What is asked of a program that works on a namespace. -/
def Good (l : Bool) (f : Root → Prog Root) : Prop :=
  ∀ (R' : Hand) (r : Root) (T : Fdt) (Q' : Root → Fdt → Prop), St l R' r.hand T →
    (∀ r' T', r'.ns = r.ns → St l R' r'.hand T' → Q' r' T') → wp l (f r) Q' T

/-- A program on the first namespace, the others in the frame. -/
theorem wp_head {f : Root → Prog Root} (hf : Good l f) {r : Root} {rs : List Root} {Q : Root → Fdt → Prop}
    (hz : R 0 (.std 0)) (hn : r.ns ∉ rs.map (·.ns)) (hav : Avoids R (r.ns :: rs.map (·.ns)))
    (h : St l R (rootsHand (r :: rs)) T)
    (hQ : ∀ r' T', r'.ns = r.ns → St l R (rootsHand (r' :: rs)) T' → Q r' T') : wp l (f r) Q T := by
  have hcons : St l R (r.hand.or (rootsHand rs)) T := h.congr fun n p => rootsHand_cons
  refine hf (R.or (rootsHand rs)) r T _ (hcons.toFrame (apart_root hn)) fun r' T' hr h' => ?_
  exact hQ _ _ hr ((h'.fromFrame hz hav.tail.apart).congr fun n p => rootsHand_cons.symm)

/-- A program on the other namespaces, the first in the frame. -/
theorem St.rest {r : Root} {rs : List Root} (hn : r.ns ∉ rs.map (·.ns)) (h : St l R (rootsHand (r :: rs)) T) :
    St l (R.or r.hand) (rootsHand rs) T :=
  St.toFrame (St.swap (h.congr fun n p => rootsHand_cons)) (apart_root hn).symm

theorem St.unrest {r : Root} {rs : List Root} {ks : List Nat} (hz : R 0 (.std 0)) (hav : Avoids R (r.ns :: ks))
    (h : St l (R.or r.hand) (rootsHand rs) T) : St l R (rootsHand (r :: rs)) T :=
  ((h.fromFrame hz hav.head).swap).congr fun n p => rootsHand_cons.symm

/-- A program on one namespace, within all of them. -/
theorem wp_onRoot {f : Root → Prog Root} (hf : Good l f) {ns : Nat} :
    ∀ (rs : List Root) (R : Hand) (T : Fdt) (Q : List Root → Fdt → Prop), (rs.map (·.ns)).Nodup → R 0 (.std 0) →
      Avoids R (rs.map (·.ns)) → St l R (rootsHand rs) T →
      (∀ rs' T', rs'.map (·.ns) = rs.map (·.ns) → St l R (rootsHand rs') T' → Q rs' T') →
      wp l (onRoot f ns rs) Q T := by
  intro rs
  induction rs with
  | nil => intro R T Q _ _ _ h hQ; exact hQ [] T rfl h
  | cons r rs ih =>
    intro R T Q hnd hz hav h hQ
    have hnd' : r.ns ∉ rs.map (·.ns) ∧ (rs.map (·.ns)).Nodup := by simpa using hnd
    have hav' : Avoids R (r.ns :: rs.map (·.ns)) := hav
    unfold onRoot
    split
    · rw [wp_bind]
      exact wp_head hf hz hnd'.1 hav' h fun r' T' hn h' => hQ _ _ (by simp [hn]) h'
    · rw [wp_bind]
      refine ih (R.or r.hand) T _ hnd'.2 (.inl hz) (hav'.tail.add hnd'.1) (h.rest hnd'.1) fun rs' T' hm h' => ?_
      exact hQ _ _ (by simp [hm]) (h'.unrest hz hav')

/-- The rotation of every namespace that is due. -/
theorem wp_rotate :
    ∀ (rs : List Root) (R : Hand) (T : Fdt) (Q : List Root → Fdt → Prop), (rs.map (·.ns)).Nodup → R 0 (.std 0) →
      Avoids R (rs.map (·.ns)) → St l R (rootsHand rs) T →
      (∀ rs' T', rs'.map (·.ns) = rs.map (·.ns) → St l R (rootsHand rs') T' → Q rs' T') →
      wp l (rotate rs) Q T := by
  intro rs
  induction rs with
  | nil => intro R T Q _ _ _ h hQ; exact hQ [] T rfl h
  | cons r rs ih =>
    intro R T Q hnd hz hav h hQ
    have hnd' : r.ns ∉ rs.map (·.ns) ∧ (rs.map (·.ns)).Nodup := by simpa using hnd
    have hav' : Avoids R (r.ns :: rs.map (·.ns)) := hav
    have tail : ∀ (r' : Root) T', r'.ns = r.ns → St l R (rootsHand (r' :: rs)) T' →
        wp l (rotate rs >>= fun rs' => pure (r' :: rs')) Q T' := by
      intro r' T' hn h'
      rw [wp_bind]
      rw [← hn] at hnd' hav'
      refine ih (R.or r'.hand) T' _ hnd'.2 (.inl hz) (hav'.tail.add hnd'.1) (h'.rest hnd'.1) fun rs' T'' hm h'' => ?_
      exact hQ _ _ (by simp [hm, hn]) (h''.unrest hz hav')
    unfold rotate
    rw [wp_bind, wp_ask]
    intro due
    split
    · rw [wp_bind]
      exact wp_head (fun _ _ _ _ h hQ => wp_jump h hQ) hz hnd'.1 hav' h fun r' T' hn h' => tail r' T' hn h'
    · exact tail r T rfl h

/-- A namespace is deleted. -/
theorem wp_dropRoot {ns : Nat} :
    ∀ (rs : List Root) (R : Hand) (T : Fdt) (Q : List Root → Fdt → Prop), (rs.map (·.ns)).Nodup → R 0 (.std 0) →
      Avoids R (rs.map (·.ns)) → St l R (rootsHand rs) T →
      (∀ rs' T', rs'.Sublist rs → St l R (rootsHand rs') T' → Q rs' T') →
      wp l (dropRoot ns rs) Q T := by
  intro rs
  induction rs with
  | nil => intro R T Q _ _ _ h hQ; exact hQ [] T (List.Sublist.refl _) h
  | cons r rs ih =>
    intro R T Q hnd hz hav h hQ
    have hnd' : r.ns ∉ rs.map (·.ns) ∧ (rs.map (·.ns)).Nodup := by simpa using hnd
    have hav' : Avoids R (r.ns :: rs.map (·.ns)) := hav
    unfold dropRoot
    split
    · rw [wp_bind]
      have hcons : St l R (r.hand.or (rootsHand rs)) T := h.congr fun n p => rootsHand_cons
      refine wp_namespaceDelete (hcons.toFrame (apart_root hnd'.1)) fun T' h' => ?_
      refine hQ rs T' (List.sublist_cons_self r rs) ?_
      exact (h'.fromFrame hz hav'.tail.apart).congr fun n p => ⟨fun h => h.elim False.elim id, .inr⟩
    · rw [wp_bind]
      refine ih (R.or r.hand) T _ hnd'.2 (.inl hz) (hav'.tail.add hnd'.1) (h.rest hnd'.1) fun rs' T' hm h' => ?_
      exact hQ _ _ (List.Sublist.cons_cons r hm) (h'.unrest hz hav')

/-! ### clients -/

theorem clientsHand_cons {c : Client} {cs : List Client} {n : Nat} {p : Path} :
    clientsHand (c :: cs) n p ↔ Hand.one (some c.fd) (.client c.conn) n p ∨ clientsHand cs n p := by
  simp only [clientsHand, Hand.one, List.mem_cons, exists_eq_or_imp, Option.some.injEq]
  constructor
  · rintro (h | h)
    · exact .inl ⟨h.1.symm, h.2⟩
    · exact .inr h
  · rintro (h | h)
    · exact .inl ⟨h.1.symm, h.2⟩
    · exact .inr h

theorem clientsHand_lost {cs : List Client} {n : Nat} {p : Path} (h : clientsHand cs n p) : p.isLost = false := by
  obtain ⟨c, _, _, rfl⟩ := h
  rfl

/-- A client is freed; whatever else there is stays in the frame. -/
theorem wp_clientFree {k : Nat} :
    ∀ (cs : List Client) (R : Hand) (T : Fdt) (Q : List Client → Fdt → Prop), (cs.map (·.conn)).Nodup →
      St l R (clientsHand cs) T →
      (∀ cs' T', cs'.Sublist cs → St l R (clientsHand cs') T' → Q cs' T') →
      wp l (clientFree k cs) Q T := by
  intro cs
  induction cs with
  | nil => intro R T Q _ h hQ; exact hQ [] T (List.Sublist.refl _) h
  | cons c cs ih =>
    intro R T Q hnd h hQ
    have hnd' : c.conn ∉ cs.map (·.conn) ∧ (cs.map (·.conn)).Nodup := by simpa using hnd
    have hcons : St l R ((Hand.one (some c.fd) (.client c.conn)).or (clientsHand cs)) T :=
      h.congr fun n p => clientsHand_cons
    have hne : ∀ n q, clientsHand cs n q → q ≠ .client c.conn := by
      rintro n q ⟨c', hm, _, rfl⟩ e
      exact hnd'.1 (List.mem_map.2 ⟨c', hm, Path.client.inj e⟩)
    unfold clientFree
    split
    · rw [wp_bind, wp_close_some]
      refine ⟨h.mem (clientsHand_cons.2 (.inl ⟨rfl, rfl⟩)) rfl, ?_⟩
      refine hQ cs _ (List.sublist_cons_self c cs) (hcons.swap.closes rfl fun q hq hm => ?_)
      exact hne c.fd q hm (hcons.uniq hq rfl (.inr hm) (.inl ⟨rfl, rfl⟩))
    · rw [wp_bind]
      have hfr : St l (R.or (.one (some c.fd) (.client c.conn))) (clientsHand cs) T :=
        hcons.swap.toFrame fun n p q hp hq e => hne n p hp (by rw [e]; exact hq.2)
      refine ih _ T _ hnd'.2 hfr fun cs' T' hm h' => ?_
      refine hQ _ _ (List.Sublist.cons_cons c hm) ?_
      refine ((h'.fromFrame h.zero fun n p q hr hq e => ?_).swap).congr fun n p => clientsHand_cons.symm
      rw [hq.2] at e
      exact h.disj n p p (by rw [e]; rfl) (by rw [e]; rfl) hr (clientsHand_cons.2 (.inl ⟨hq.1, e⟩))

/-! ### events -/

/-- What stays while the server runs: the standard descriptors, lock files, listening sockets, the event queue. -/
def fixedHand (L : Hand) (s : Srv) : Hand := fun n p =>
  (n < 3 ∧ p = .std n) ∨ L n p ∨ (∃ i, s.main[i]? = some n ∧ p = .listen i) ∨ (s.evfd = some n ∧ p = .epoll)

/-- Everything the server has open belongs to one of its variables. -/
structure Inv (l : Bool) (L : Hand) (s : Srv) (T : Fdt) : Prop where
  st : St l (fixedHand L s) ((clientsHand s.clients).or (rootsHand s.roots)) T
  nsn : (s.roots.map (·.ns)).Nodup
  cnn : (s.clients.map (·.conn)).Nodup
  lt : ∀ c ∈ s.clients, c.conn < s.conns
  lk : ∀ n p, L n p → p.isLock = true

variable {L : Hand} {s : Srv}

theorem fixed_zero : fixedHand L s 0 (.std 0) := .inl ⟨by decide, rfl⟩

theorem fixed_ns (hl : ∀ n p, L n p → p.isLock = true) {n : Nat} {p : Path} (h : fixedHand L s n p) :
    p.nsOf = none ∧ ∀ k, p ≠ .client k := by
  rcases h with h | h | ⟨i, _, h⟩ | h
  · rw [h.2]; exact ⟨rfl, fun k e => nomatch e⟩
  · have := hl n p h
    cases p <;> first | (exfalso; revert this; simp [Path.isLock]; done) | exact ⟨rfl, fun k e => nomatch e⟩
  · rw [h]; exact ⟨rfl, fun k e => nomatch e⟩
  · rw [h.2]; exact ⟨rfl, fun k e => nomatch e⟩

theorem apart_clients {cs : List Client} {rs : List Root} : Apart (clientsHand cs) (rootsHand rs) := by
  rintro n p q ⟨c, _, _, rfl⟩ ⟨r, _, hq⟩ e
  have := hand_nsOf hq
  rw [← e] at this
  cases this

theorem Inv.roots (h : Inv l L s T) :
    St l ((fixedHand L s).or (clientsHand s.clients)) (rootsHand s.roots) T :=
  h.st.swap.toFrame apart_clients.symm

theorem Inv.avoids (h : Inv l L s T) {ks : List Nat} : Avoids ((fixedHand L s).or (clientsHand s.clients)) ks := by
  intro n p k hr hk
  rcases hr with hr | ⟨c, _, _, rfl⟩
  · rw [(fixed_ns h.lk hr).1] at hk
    cases hk
  · cases hk

theorem Inv.toRoots {rs : List Root} {T' : Fdt} (h : Inv l L s T) (hn : (rs.map (·.ns)).Nodup)
    (h' : St l ((fixedHand L s).or (clientsHand s.clients)) (rootsHand rs) T') : Inv l L { s with roots := rs } T' := by
  refine ⟨(St.fromFrame h' fixed_zero ?_).swap, hn, h.cnn, h.lt, h.lk⟩
  rintro n p q hr ⟨c, _, _, rfl⟩
  exact (fixed_ns h.lk hr).2 _

theorem Inv.clients (h : Inv l L s T) :
    St l ((fixedHand L s).or (rootsHand s.roots)) (clientsHand s.clients) T :=
  h.st.toFrame apart_clients

theorem Inv.toClients {cs : List Client} {T' : Fdt} (h : Inv l L s T) (hs : cs.Sublist s.clients)
    (h' : St l ((fixedHand L s).or (rootsHand s.roots)) (clientsHand cs) T') : Inv l L { s with clients := cs } T' := by
  refine ⟨St.fromFrame h' fixed_zero ?_, h.nsn, (hs.map (·.conn)).nodup h.cnn, fun c hc => h.lt c (hs.subset hc), h.lk⟩
  rintro n p q hr ⟨r, _, hq⟩ e
  have := hand_nsOf hq
  rw [← e, (fixed_ns h.lk hr).1] at this
  cases this

/-- What the other parts of the process keep of it. -/
def Same (s s' : Srv) : Prop :=
  s'.ilock = s.ilock ∧ s'.dlock = s.dlock ∧ s'.main = s.main ∧ s'.evfd = s.evfd ∧
    (s.main = [] → s.clients = [] → s'.clients = [])

theorem Inv.evOk (h : Inv l L s T) : Ok T s.evfd .epoll := fun n hn =>
  (h.st.iff_ n .epoll rfl).2 (.inl (.inr (.inr (.inr ⟨hn, rfl⟩))))

theorem wp_talk {k : Nat} {Q : Unit → Fdt → Prop} (h : ∀ n p, clientsHand s.clients n p → T n = some p) (hQ : Q () T) :
    wp l (talk s k) Q T := by
  unfold talk
  cases e : s.clients.find? (·.conn = k) with
  | none => exact hQ
  | some c =>
    show wp l (ask >>= fun n => ios (some c.fd) (.client c.conn) n) Q T
    rw [wp_bind, wp_ask]
    intro n
    refine wp_ios (fun m hm => ?_) hQ n
    exact h m _ ⟨c, List.mem_of_find?_eq_some e, (Option.some.inj hm).symm, rfl⟩

theorem Inv.clientOk (h : Inv l L s T) : ∀ n p, clientsHand s.clients n p → T n = some p := fun n p hp =>
  h.st.mem (.inl hp) (clientsHand_lost hp)

theorem wp_accept {i : Nat} {Q : Srv → Fdt → Prop} (h : Inv l L s T)
    (hQ : ∀ s' T', Same s s' → Inv l L s' T' → Q s' T') : wp l (accept s i) Q T := by
  unfold accept
  cases e : s.main[i]? with
  | none => exact hQ s T ⟨rfl, rfl, rfl, rfl, fun _ hc => hc⟩ h
  | some m =>
    have hm : T m = some (.listen i) := (h.st.iff_ m _ rfl).2 (.inl (.inr (.inr (.inl ⟨i, e, rfl⟩))))
    dsimp only
    rw [wp_bind, wp_io_some]
    refine ⟨hm, fun _ => ?_⟩
    rw [wp_bind, wp_openp]
    refine ⟨hQ s T ⟨rfl, rfl, rfl, rfl, fun _ hc => hc⟩ h, fun fd hfd => ?_⟩
    dsimp only
    rw [wp_bind, wp_ask]
    intro n
    rw [wp_bind]
    refine wp_ios ok_set ?_ n
    rw [wp_bind]
    refine wp_io (h.evOk.set hfd) fun _ => ?_
    refine hQ _ _ ⟨rfl, rfl, rfl, rfl, fun hm _ => ?_⟩ ⟨?_, h.nsn, ?_, ?_, h.lk⟩
    · rw [hm] at e
      cases e
    · refine (h.st.opens hfd (p := .client s.conns) rfl).congr fun n p => ?_
      constructor
      · rintro ((hh | hh) | hh)
        · exact .inl (clientsHand_cons.2 (.inr hh))
        · exact .inr hh
        · exact .inl (clientsHand_cons.2 (.inl hh))
      · rintro (hh | hh)
        · rcases clientsHand_cons.1 hh with hh | hh
          · exact .inr hh
          · exact .inl (.inl hh)
        · exact .inl (.inr hh)
    · show (s.conns :: s.clients.map (·.conn)).Nodup
      refine List.nodup_cons.2 ⟨fun hm => ?_, h.cnn⟩
      obtain ⟨c, hc, hcc⟩ := List.mem_map.1 hm
      exact absurd (h.lt c hc) (by omega)
    · intro c hc
      rcases List.mem_cons.1 hc with rfl | hc
      · exact Nat.lt_succ_self _
      · exact Nat.lt_succ_of_lt (h.lt c hc)

/-- A namespace is added to those there are. -/
theorem Inv.push {r : Root} {T' : Fdt} (h : Inv l L s T) (hn : r.ns ∉ s.roots.map (·.ns))
    (h' : St l (((fixedHand L s).or (clientsHand s.clients)).or (rootsHand s.roots)) r.hand T') :
    Inv l L { s with roots := s.roots ++ [r] } T' := by
  refine h.toRoots ?_ ?_
  · rw [List.map_append, List.nodup_append]
    refine ⟨h.nsn, by simp, ?_⟩
    intro a ha b hb
    simp at hb
    subst hb
    intro e
    exact hn (e ▸ ha)
  · refine (St.fromFrame h' (.inl fixed_zero) h.avoids.apart).congr fun n p => ?_
    simp only [Hand.or, rootsHand, List.mem_append, List.mem_singleton]
    constructor
    · rintro (hh | ⟨r', hm, hh⟩)
      · exact ⟨r, .inr rfl, hh⟩
      · exact ⟨r', .inl hm, hh⟩
    · rintro ⟨r', hm | rfl, hh⟩
      · exact .inr ⟨r', hm, hh⟩
      · exact .inl hh

theorem Inv.noHand (h : Inv l L s T) :
    St l (((fixedHand L s).or (clientsHand s.clients)).or (rootsHand s.roots)) .empty T :=
  St.toFrame (h.roots.congr fun n p => ⟨.inr, fun h => h.elim False.elim id⟩) fun n p q hp => hp.elim

theorem Inv.ofNoHand {T' : Fdt} (h : Inv l L s T)
    (h' : St l (((fixedHand L s).or (clientsHand s.clients)).or (rootsHand s.roots)) .empty T') : Inv l L s T' :=
  h.toRoots (rs := s.roots) h.nsn
    ((St.fromFrame h' (.inl fixed_zero) h.avoids.apart).congr fun n p => ⟨fun h => h.elim False.elim id, .inr⟩)

/-- Every event keeps the invariant, and the program it runs touches no descriptor it does not own. -/
theorem wp_ev {e : Ev} {Q : Srv → Fdt → Prop} (h : Inv l L s T)
    (hQ : ∀ s' T', Same s s' → Inv l L s' T' → Q s' T') : wp l (e.prog s) Q T := by
  unfold Ev.prog
  rw [wp_bind]
  refine wp_io h.evOk fun _ => ?_
  cases e with
  | connect i => exact wp_accept h hQ
  | gone k =>
    dsimp only
    rw [wp_bind]
    refine wp_talk h.clientOk ?_
    rw [wp_bind]
    refine wp_clientFree s.clients _ T _ h.cnn h.clients fun cs' T' hs h' => ?_
    refine hQ _ _ ⟨rfl, rfl, rfl, rfl, fun _ hc => ?_⟩ (h.toClients hs h')
    rw [hc] at hs
    exact List.sublist_nil.1 hs
  | cmd k ns c =>
    dsimp only
    rw [wp_bind]
    refine wp_talk h.clientOk ?_
    rw [wp_bind]
    refine wp_onRoot (fun _ _ _ _ h hQ => wp_cmd h hQ) s.roots _ T _ h.nsn (.inl fixed_zero) h.avoids h.roots fun rs' T' hn h' => ?_
    have hi := h.toRoots (by rw [hn]; exact h.nsn) h'
    rw [wp_bind]
    exact wp_talk hi.clientOk (hQ _ _ ⟨rfl, rfl, rfl, rfl, fun _ hc => hc⟩ hi)
  | nsnew k ns =>
    dsimp only
    rw [wp_bind]
    refine wp_talk h.clientOk ?_
    split
    · rw [wp_bind]
      exact wp_talk h.clientOk (hQ _ _ ⟨rfl, rfl, rfl, rfl, fun _ hc => hc⟩ h)
    · next hany =>
      rw [wp_bind]
      refine wp_namespaceLoad h.noHand (fun T' h' => ?_) fun r' T' hr h' => ?_
      · have hi := h.ofNoHand h'
        rw [wp_bind]
        exact wp_talk hi.clientOk (hQ _ _ ⟨rfl, rfl, rfl, rfl, fun _ hc => hc⟩ hi)
      · have hi : Inv l L { s with roots := s.roots ++ [r'] } T' := by
          refine h.push (fun hm => hany ?_) h'
          obtain ⟨r, hm, he⟩ := List.mem_map.1 hm
          exact List.any_eq_true.2 ⟨r, hm, by simp [he, hr]⟩
        rw [wp_bind]
        exact wp_talk hi.clientOk (hQ _ _ ⟨rfl, rfl, rfl, rfl, fun _ hc => hc⟩ hi)
  | nsdel k ns =>
    dsimp only
    rw [wp_bind]
    refine wp_talk h.clientOk ?_
    split
    · exact hQ _ _ ⟨rfl, rfl, rfl, rfl, fun _ hc => hc⟩ h
    · rw [wp_bind]
      refine wp_dropRoot s.roots _ T _ h.nsn (.inl fixed_zero) h.avoids h.roots fun rs' T' hn h' => ?_
      have hi := h.toRoots ((hn.map (·.ns)).nodup h.nsn) h'
      rw [wp_bind]
      exact wp_talk hi.clientOk (hQ _ _ ⟨rfl, rfl, rfl, rfl, fun _ hc => hc⟩ hi)
  | reload k ns =>
    dsimp only
    rw [wp_bind]
    refine wp_talk h.clientOk ?_
    rw [wp_bind]
    refine wp_onRoot (fun _ _ _ _ h hQ => wp_namespaceReload h hQ) s.roots _ T _ h.nsn (.inl fixed_zero) h.avoids h.roots fun rs' T' hn h' => ?_
    have hi := h.toRoots (by rw [hn]; exact h.nsn) h'
    rw [wp_bind]
    exact wp_talk hi.clientOk (hQ _ _ ⟨rfl, rfl, rfl, rfl, fun _ hc => hc⟩ hi)
  | idle =>
    dsimp only
    rw [wp_bind]
    refine wp_rotate s.roots _ T _ h.nsn (.inl fixed_zero) h.avoids h.roots fun rs' T' hn h' => ?_
    exact hQ _ _ ⟨rfl, rfl, rfl, rfl, fun _ hc => hc⟩ (h.toRoots (by rw [hn]; exact h.nsn) h')

theorem wp_runEvs {Q : Srv → Fdt → Prop} :
    ∀ (es : List Ev) {s : Srv} {T : Fdt}, Inv l L s T →
      (∀ s' T', Same s s' → Inv l L s' T' → Q s' T') → wp l (runEvs es s) Q T := by
  intro es
  induction es with
  | nil => intro s T h hQ; exact hQ s T ⟨rfl, rfl, rfl, rfl, fun _ hc => hc⟩ h
  | cons e es ih =>
    intro s T h hQ
    unfold runEvs
    rw [wp_bind]
    refine wp_ev h fun s' T' hs h' => ih h' fun s'' T'' hs' h'' => hQ s'' T'' ?_ h''
    exact ⟨hs'.1.trans hs.1, hs'.2.1.trans hs.2.1, hs'.2.2.1.trans hs.2.2.1, hs'.2.2.2.1.trans hs.2.2.2.1,
      fun hm hc => hs'.2.2.2.2 (hs.2.2.1.trans hm) (hs.2.2.2.2 hm hc)⟩

/-! ### start -/

theorem St.re {R' H H' : Hand} (h : St l R H T) (e : ∀ n p, (R n p ∨ H n p) ↔ (R' n p ∨ H' n p)) (ha : Apart R' H')
    (hz : R' 0 (.std 0)) : St l R' H' T := by
  refine ⟨fun n p hp => (h.iff_ n p hp).trans (e n p), fun n p q hp hq hr hh => ?_, h.lost, hz⟩
  have e1 := (h.iff_ n p hp).2 ((e n p).2 (.inl hr))
  rw [(h.iff_ n q hq).2 ((e n q).2 (.inr hh))] at e1
  exact ha n p q hr hh (Option.some.inj e1).symm

/-- The standard descriptors. -/
def stdHand : Hand := fun n p => n < 3 ∧ p = .std n

theorem st_start : St l stdHand .empty stdTable := by
  refine ⟨fun n p hp => ?_, fun n p q hp hq hr hh => hh, fun n p hn => ?_, ⟨by decide, rfl⟩⟩
  · unfold stdTable stdHand Hand.empty
    by_cases h : n < 3
    · simp only [h, if_true, Option.some.injEq, true_and, or_false]
      exact eq_comm
    · simp [h]
  · unfold stdTable at hn
    split at hn <;> cases hn

theorem wp_zdbLock {n : Nat} {H : Hand} {Q : Option Nat → Fdt → Prop} (h : St l R H T)
    (hn : ∀ T', St l R H T' → Q none T')
    (hs : ∀ fd T', St l R (H.or (.one (some fd) (.lock n))) T' → Q (some fd) T')
    (h1 : l = true → ∀ T', St l R H T' → Q (some 1) T') : wp l (zdbLock n) Q T := by
  unfold zdbLock
  rw [wp_bind, wp_openp]
  refine ⟨hn _ h, fun fd hfd => ?_⟩
  have ho := h.opens (p := .lock n) hfd rfl
  have hno : ∀ q, q.isLost = false → ¬ H fd q := fun q hq hh => by
    have := h.mem hh hq
    rw [hfd] at this
    cases this
  dsimp only
  rw [wp_bind, wp_io_some]
  refine ⟨set_self, fun a => ?_⟩
  match a with
  | 0 => exact hs _ _ ho
  | 1 =>
    show wp l (lose (some fd) (.lock n) >>= fun _ => pure none) Q _
    rw [wp_bind, wp_lose_some]
    exact fun hl => hn _ (ho.loses rfl hno hl rfl)
  | a + 2 =>
    show wp l (lose (some fd) (.lock n) >>= fun _ => pure (some 1)) Q _
    rw [wp_bind, wp_lose_some]
    exact fun hl => h1 hl _ (ho.loses rfl hno hl rfl)

theorem wp_scanload {Q : List Root → Fdt → Prop} :
    ∀ (n : Nat) {rs : List Root} {s : Srv} {T : Fdt}, s.roots = rs → Inv l L s T →
      (∀ rs' T', Inv l L { s with roots := rs' } T' → Q rs' T') → wp l (scanload n rs) Q T := by
  intro n
  induction n with
  | zero =>
    intro rs s T e h hQ
    subst e
    exact hQ s.roots T h
  | succ n ih =>
    intro rs s T e h hQ
    subst e
    unfold scanload
    rw [wp_bind, wp_ask]
    intro ns
    split
    · exact ih rfl h hQ
    · next hany =>
      rw [wp_bind]
      refine wp_namespaceLoad h.noHand (fun T' h' => ih rfl (h.ofNoHand h') hQ) fun r' T' hr h' => ?_
      have hi : Inv l L { s with roots := s.roots ++ [r'] } T' := by
        refine h.push (fun hm => hany ?_) h'
        obtain ⟨r, hm, he⟩ := List.mem_map.1 hm
        exact List.any_eq_true.2 ⟨r, hm, by simp [he, hr]⟩
      exact ih rfl hi hQ

/-- The lock files a process holds. -/
def lockHand (i d : Nat) : Hand := (Hand.one (some i) (.lock 0)).or (.one (some d) (.lock 1))

/-- What is known of a server before it listens. -/
structure Opened (l : Bool) (L : Hand) (s : Srv) (T : Fdt) : Prop where
  inv : Inv l L s T
  main : s.main = []
  evfd : s.evfd = none
  clients : s.clients = []
  locks : l = false → L = lockHand s.ilock s.dlock

theorem inv_begin {i d : Nat} (hl : ∀ n p, L n p → p.isLock = true) (h : St l stdHand L T) :
    Inv l L { ilock := i, dlock := d, roots := [], main := [], evfd := none, clients := [], conns := 0 } T := by
  refine ⟨h.re (fun n p => ?_) (fun n p q _ hq => ?_) fixed_zero, by simp, by simp, by simp, hl⟩
  · simp [stdHand, fixedHand, Hand.or, clientsHand, rootsHand]
  · exfalso
    revert hq
    simp [Hand.or, clientsHand, rootsHand]

theorem wp_zdbOpen {Q : Option Srv → Fdt → Prop} (hn : ∀ T, (∀ n p, p.isLost = false → p.isLock = false → (T n = some p ↔ stdHand n p)) →
      (∀ fd p, T fd = some (.lost p) → l = true ∧ p.canLeak = true) → Q none T)
    (hQ : ∀ L s T, Opened l L s T → Q (some s) T) : wp l zdbOpen Q stdTable := by
  have none' : ∀ (L : Hand) T, (∀ n p, L n p → p.isLock = true) → St l stdHand L T → Q none T := by
    intro L T hl h
    refine hn T (fun n p hp hk => ?_) h.lost
    rw [h.iff_ n p hp]
    refine ⟨fun h => h.elim id fun h => ?_, .inl⟩
    rw [hl n p h] at hk
    cases hk
  have rest : ∀ (L : Hand) i d T, (∀ n p, L n p → p.isLock = true) → (l = false → L = lockHand i d) → St l stdHand L T →
      wp l (namespaceLoad 0 >>= fun r => match r with
        | none => .die
        | some r => do
          let n ← ask
          let rs ← scanload n [r]
          pure (some { ilock := i, dlock := d, roots := rs, main := [], evfd := none, clients := [], conns := 0 })) Q T := by
    intro L i d T hl hf h
    have hb := inv_begin (i := i) (d := d) hl h
    rw [wp_bind]
    refine wp_namespaceLoad hb.noHand (fun T' _ => trivial) fun r' T' hr h' => ?_
    have hi := hb.push (r := r') (by simp) h'
    dsimp only
    rw [wp_bind, wp_ask]
    intro n
    rw [wp_bind]
    exact wp_scanload n rfl hi fun rs' T'' h'' => hQ L _ _ ⟨h'', rfl, rfl, rfl, hf⟩
  have hl0 : ∀ n p, Hand.empty n p → p.isLock = true := fun _ _ h => h.elim
  have hl1 : ∀ (H : Hand), (∀ n p, H n p → p.isLock = true) → ∀ fd k n p,
      (H.or (.one (some fd) (.lock k))) n p → p.isLock = true := by
    rintro H hh fd k n p (h | h)
    · exact hh n p h
    · rw [h.2]; rfl
  unfold zdbOpen
  rw [wp_bind]
  refine wp_zdbLock st_start (fun T' h' => none' _ T' hl0 h') (fun i T' h' => ?_) (fun hl T' h' => ?_)
  · dsimp only
    rw [wp_bind]
    refine wp_zdbLock h' (fun T' h' => none' _ T' (hl1 _ hl0 _ _) h') (fun d T' h' => ?_) (fun hl T' h' => ?_)
    · refine rest _ i d T' (hl1 _ (hl1 _ hl0 _ _) _ _) (fun _ => ?_) h'
      funext n p
      simp [Hand.or, Hand.empty, lockHand]
    · exact rest _ i 1 T' (hl1 _ hl0 _ _) (fun e => by rw [hl] at e; cases e) h'
  · dsimp only
    rw [wp_bind]
    refine wp_zdbLock h' (fun T' h' => none' _ T' hl0 h') (fun d T' h' => ?_) (fun hl T' h' => ?_)
    · exact rest _ 1 d T' (hl1 _ hl0 _ _) (fun e => by rw [hl] at e; cases e) h'
    · exact rest _ 1 1 T' hl0 (fun e => by rw [hl] at e; cases e) h'

/-- Listening sockets from number `i` on. -/
def listenHand (fds : List Nat) (i : Nat) : Hand := fun m p => ∃ j, fds[j]? = some m ∧ p = .listen (i + j)

theorem wp_listenAll :
    ∀ (n i : Nat) {H : Hand} {T : Fdt} {Q : List Nat → Fdt → Prop}, St l R H T →
      (∀ fds T', fds.length = n → St l R (H.or (listenHand fds i)) T' → Q fds T') → wp l (listenAll n i) Q T := by
  intro n
  induction n with
  | zero =>
    intro i H T Q h hQ
    exact hQ [] T rfl (h.congr fun m p => ⟨.inl, fun h => h.elim id fun ⟨j, hj, _⟩ => by simp at hj⟩)
  | succ n ih =>
    intro i H T Q h hQ
    unfold listenAll
    rw [wp_bind, wp_openp]
    refine ⟨trivial, fun fd hfd => ?_⟩
    dsimp only
    rw [wp_bind, wp_ask]
    intro k
    rw [wp_bind]
    refine wp_ios ok_set ?_ k
    rw [wp_bind]
    refine ih (i + 1) (h.opens hfd rfl) fun fds T' hlen h' => hQ _ _ (by simp [hlen]) (h'.congr fun m p => ?_)
    constructor
    · rintro ((hh | hh) | ⟨j, hj, hp⟩)
      · exact .inl hh
      · exact .inr ⟨0, by simpa using hh.1, hh.2⟩
      · exact .inr ⟨j + 1, by simpa using hj, by rw [hp]; congr 1; omega⟩
    · rintro (hh | ⟨j, hj, hp⟩)
      · exact .inl (.inl hh)
      · cases j with
        | zero => exact .inl (.inr ⟨by simpa using hj, hp⟩)
        | succ j => exact .inr ⟨j, by simpa using hj, by rw [hp]; congr 1; omega⟩

theorem wp_listenOn {n : Nat} {Q : Srv → Fdt → Prop} (h : Opened l L s T)
    (hQ : ∀ s' T', s'.ilock = s.ilock → s'.dlock = s.dlock → s'.main.length = n → Inv l L s' T' → Q s' T') :
    wp l (listenOn n s) Q T := by
  have hi := h.inv
  unfold listenOn
  rw [wp_bind]
  refine wp_listenAll n 0 hi.st fun fds T' hlen h' => ?_
  rw [wp_bind, wp_openp]
  refine ⟨trivial, fun fd hfd => ?_⟩
  dsimp only
  rw [wp_bind]
  refine wp_ios ok_set ?_ n
  refine hQ _ _ rfl rfl hlen ⟨?_, hi.nsn, hi.cnn, hi.lt, hi.lk⟩
  refine (h'.opens (p := .epoll) hfd rfl).re (fun m p => ?_) (fun m p q hr hh e => ?_) fixed_zero
  · simp only [fixedHand, Hand.or, listenHand, h.main, h.evfd, Hand.one, Nat.zero_add]
    constructor
    · rintro ((hh | hh | ⟨_, hh, _⟩ | hh) | ((hh | hh) | hh) | hh)
      · exact .inl (.inl hh)
      · exact .inl (.inr (.inl hh))
      · simp at hh
      · exact absurd hh.1 (by simp)
      · exact .inr (.inl hh)
      · exact .inr (.inr hh)
      · exact .inl (.inr (.inr (.inl hh)))
      · exact .inl (.inr (.inr (.inr hh)))
    · rintro ((hh | hh | hh | hh) | hh | hh)
      · exact .inl (.inl hh)
      · exact .inl (.inr (.inl hh))
      · exact .inr (.inl (.inr hh))
      · exact .inr (.inr hh)
      · exact .inr (.inl (.inl (.inl hh)))
      · exact .inr (.inl (.inl (.inr hh)))
  · have := fixed_ns hi.lk hr
    rcases hh with ⟨c, _, _, rfl⟩ | ⟨r, _, hq⟩
    · exact this.2 _ e
    · rw [e, hand_nsOf hq] at this
      cases this.1

/-! ### the end of a program that uses the library -/

theorem wp_emergency :
    ∀ (rs : List Root) {Q : Unit → Fdt → Prop}, (∀ n p, rootsHand rs n p → T n = some p) → Q () T →
      wp l (emergency rs) Q T := by
  intro rs
  induction rs with
  | nil => intro Q _ hQ; exact hQ
  | cons r rs ih =>
    intro Q h hQ
    have h1 : Ok T r.idxFd r.idxPath := fun n hn => h n _ (rootsHand_cons.2 (.inl (.inr ⟨hn, rfl⟩)))
    have h2 : Ok T r.datFd r.datPath := fun n hn => h n _ (rootsHand_cons.2 (.inl (.inl ⟨hn, rfl⟩)))
    have h3 := ih (Q := Q) (fun n p hp => h n p (rootsHand_cons.2 (.inr hp))) hQ
    unfold emergency
    rw [wp_bind, wp_ask]
    intro a
    split
    · rw [wp_bind]
      refine wp_io h1 fun _ => ?_
      rw [wp_bind]
      refine wp_io h2 fun _ => ?_
      exact h3
    · exact h3

theorem wp_destroyAll :
    ∀ (rs : List Root) {R : Hand} {T : Fdt} {Q : Unit → Fdt → Prop}, (rs.map (·.ns)).Nodup → R 0 (.std 0) →
      Avoids R (rs.map (·.ns)) → St l R (rootsHand rs) T → (∀ T', St l R .empty T' → Q () T') →
      wp l (destroyAll rs) Q T := by
  intro rs
  induction rs with
  | nil =>
    intro R T Q _ _ _ h hQ
    exact hQ T (h.congr fun n p => ⟨fun ⟨_, hm, _⟩ => absurd hm (by simp), False.elim⟩)
  | cons r rs ih =>
    intro R T Q hnd hz hav h hQ
    have hnd' : r.ns ∉ rs.map (·.ns) ∧ (rs.map (·.ns)).Nodup := by simpa using hnd
    have hav' : Avoids R (r.ns :: rs.map (·.ns)) := hav
    have hcons : St l R (r.hand.or (rootsHand rs)) T := h.congr fun n p => rootsHand_cons
    unfold destroyAll
    rw [wp_bind]
    refine wp_indexDestroy (hcons.toFrame (apart_root hnd'.1)) fun T1 h1 => ?_
    rw [wp_bind]
    refine wp_dataDestroy h1 fun T2 h2 => ?_
    refine ih hnd'.2 hz hav'.tail ?_ hQ
    exact (h2.fromFrame hz hav'.tail.apart).congr fun n p => ⟨fun h => h.elim False.elim id, .inr⟩

theorem wp_zdbClose {Q : Unit → Fdt → Prop} (h : Inv false L s T) (hm : s.main = []) (he : s.evfd = none)
    (hc : s.clients = []) (hl : L = lockHand s.ilock s.dlock) (hQ : Q () stdTable) : wp false (zdbClose s) Q T := by
  unfold zdbClose
  rw [wp_bind]
  refine wp_emergency s.roots (fun n p hp => h.st.mem (.inr hp) ?_) ?_
  · obtain ⟨r, _, hp⟩ := hp
    rcases hp with hp | hp <;> rw [hp.2] <;> rfl
  rw [wp_bind]
  refine wp_destroyAll s.roots h.nsn (.inl fixed_zero) h.avoids h.roots fun T1 h1 => ?_
  have h2 : St false stdHand ((Hand.one (some s.dlock) (.lock 1)).or (.one (some s.ilock) (.lock 0))) T1 := by
    refine h1.re (fun n p => ?_) (fun n p q hr hh e => ?_) ⟨by decide, rfl⟩
    · simp only [fixedHand, hm, he, hc, hl, Hand.or, clientsHand, lockHand, Hand.empty, stdHand]
      simp
      constructor
      · rintro (hh | hh | hh)
        · exact .inl hh
        · exact .inr (.inr hh)
        · exact .inr (.inl hh)
      · rintro (hh | hh | hh)
        · exact .inl hh
        · exact .inr (.inr hh)
        · exact .inr (.inl hh)
    · rw [hr.2] at e
      rcases hh with hh | hh <;> rw [hh.2] at e <;> cases e
  rw [wp_bind]
  refine wp_close_one h2 rfl rfl (by intro e; cases e) fun T2 h3 => ?_
  refine wp_close_one (one_empty h3) rfl rfl (by intro e; cases e) fun T3 h4 => ?_
  have h5 := none_empty h4
  have : T3 = stdTable := by
    funext n
    have hi := fun p hp => (h5.iff_ n p hp).trans ((st_start (l := false)).iff_ n p hp).symm
    cases e : T3 n with
    | none =>
      cases e' : stdTable n with
      | none => rfl
      | some p =>
        have hp : p.isLost = false := by
          unfold stdTable at e'
          split at e' <;> cases e'
          rfl
        rw [(hi p hp).2 e'] at e
        cases e
    | some p =>
      cases hp : p.isLost with
      | false => exact ((hi p hp).1 e).symm
      | true =>
        cases p with
        | lost p => exact absurd (h5.lost n p e).1 (by decide)
        | _ => cases hp
  rw [this]
  exact hQ

end

end Zdb.Fds
