/-
C70: the process uses and closes only the descriptors it owns, and what it has open is what its variables hold.
-/
import Verif.Spec.Fds
import Verif.Lemmas.FdsSim
namespace Zdb.Fds

/-- What is known at the end of a run of the server. -/
theorem serve_inv {l : Bool} {n : Nat} {es : List Ev} {r : Res (Option Srv)} (h : Exec l (serve n es) stdTable r) :
    r = .died ∨ (∃ T, r = .done none T) ∨
      ∃ s T L, r = .done (some s) T ∧ Inv l L s T ∧ (l = false → L = lockHand s.ilock s.dlock) ∧ s.main.length = n := by
  let Q : Option Srv → Fdt → Prop := fun o T => ∀ s, o = some s →
    ∃ L, Inv l L s T ∧ (l = false → L = lockHand s.ilock s.dlock) ∧ s.main.length = n
  have hw : wp l (serve n es) Q stdTable := by
    unfold serve
    rw [wp_bind]
    refine wp_zdbOpen (fun T _ _ => ?_) fun L s T ho => ?_
    · intro s hs
      cases hs
    · dsimp only
      rw [wp_bind]
      refine wp_listenOn ho fun s' T' h1 h2 hlen hi => ?_
      rw [wp_bind]
      refine wp_runEvs es hi fun s'' T'' hs hi' => ?_
      intro s3 e
      cases e
      refine ⟨L, hi', fun hf => ?_, by rw [hs.2.2.1]; exact hlen⟩
      rw [hs.1, hs.2.1, h1, h2]
      exact ho.locks hf
  rcases wp_sound h hw with h | ⟨o, T, h, hq⟩
  · exact .inl h
  · cases o with
    | none => exact .inr (.inl ⟨T, h⟩)
    | some s =>
      obtain ⟨L, h1, h2, h3⟩ := hq s rfl
      exact .inr (.inr ⟨s, T, L, h, h1, h2, h3⟩)

/-- What a variable holds, in the words of the invariant. -/
theorem owns_iff {L : Hand} {s : Srv} {fd : Nat} {p : Path} (hp : p.isLock = false ∨ L = lockHand s.ilock s.dlock)
    (hl : ∀ n p, L n p → p.isLock = true) :
    Owns s fd p ↔ (fixedHand L s fd p ∨ ((clientsHand s.clients).or (rootsHand s.roots)) fd p) := by
  constructor
  · intro h
    cases h with
    | std n hn => exact .inl (.inl ⟨hn, rfl⟩)
    | ilock =>
      rcases hp with hp | hp
      · cases hp
      · exact .inl (.inr (.inl (by rw [hp]; exact .inl ⟨rfl, rfl⟩)))
    | dlock =>
      rcases hp with hp | hp
      · cases hp
      · exact .inl (.inr (.inl (by rw [hp]; exact .inr ⟨rfl, rfl⟩)))
    | listen i fd hi => exact .inl (.inr (.inr (.inl ⟨i, hi, rfl⟩)))
    | epoll fd he => exact .inl (.inr (.inr (.inr ⟨he, rfl⟩)))
    | client c hc => exact .inr (.inl ⟨c, hc, rfl, rfl⟩)
    | index r fd hr hf => exact .inr (.inr ⟨r, hr, .inr ⟨hf, rfl⟩⟩)
    | data r fd hr hf => exact .inr (.inr ⟨r, hr, .inl ⟨hf, rfl⟩⟩)
  · rintro ((h | h | ⟨i, hi, h⟩ | h) | ⟨c, hc, h1, h2⟩ | ⟨r, hr, h | h⟩)
    · rw [h.2]; exact .std fd h.1
    · rcases hp with hp | hp
      · rw [hl fd p h] at hp
        cases hp
      · rw [hp] at h
        rcases h with h | h
        · rw [h.2, ← Option.some.inj h.1]; exact .ilock
        · rw [h.2, ← Option.some.inj h.1]; exact .dlock
    · rw [h]; exact .listen i fd hi
    · rw [h.2]; exact .epoll fd h.1
    · rw [h1, h2]; exact .client c hc
    · rw [h.2]; exact .data r fd hr h.1
    · rw [h.2]; exact .index r fd hr h.1

/-- **C70.** Whatever clients, kernel and files answer, the server never uses or closes a descriptor that is not open on
    what it takes it for; and if it forgets none, then at every moment between two events the descriptors open are
    exactly those its variables hold. Missing: the runs that forget a descriptor (`C70_lost_partial`,
    `C70_leak_refuted`), and the end of the process (`C70_stop_refuted`, `C70_flock_refuted`). -/
theorem C70_partial (n : Nat) (es : List Ev) (r : Res (Option Srv)) (h : Exec false (serve n es) stdTable r) :
    r ≠ .bad ∧ ∀ s T, r = .done (some s) T → ∀ fd p, T fd = some p ↔ Owns s fd p := by
  rcases serve_inv h with rfl | ⟨T, rfl⟩ | ⟨s, T, L, rfl, hi, hl, _⟩
  · exact ⟨fun e => (nomatch e), fun s T e => (nomatch e)⟩
  · exact ⟨fun e => (nomatch e), fun s T e => (nomatch e)⟩
  · refine ⟨fun e => (nomatch e), fun s' T' e fd p => ?_⟩
    cases e
    rw [owns_iff (.inr (hl rfl)) hi.lk]
    cases hp : p.isLost with
    | false => exact hi.st.iff_ fd p hp
    | true =>
      cases p with
      | lost p =>
        constructor
        · intro e
          exact absurd (hi.st.lost fd p e).1 (by decide)
        · intro ho
          have := (owns_iff (.inr (hl rfl)) hi.lk).2 ho
          cases this
      | _ => cases hp

/-- **C70**, with runs that forget descriptors: nothing is used or closed that is not open on what it is taken for; what
    is open belongs to a variable, or is the descriptor of a namespace, an index file or a lock file that was
    forgotten. -/
theorem C70_lost_partial (n : Nat) (es : List Ev) (r : Res (Option Srv)) (h : Exec true (serve n es) stdTable r) :
    r ≠ .bad ∧ ∀ s T, r = .done (some s) T →
      (∀ fd p, p.isLost = false → p.isLock = false → (T fd = some p ↔ Owns s fd p)) ∧
      ∀ fd p, T fd = some (.lost p) → p.canLeak = true := by
  rcases serve_inv h with rfl | ⟨T, rfl⟩ | ⟨s, T, L, rfl, hi, hl, _⟩
  · exact ⟨fun e => (nomatch e), fun s T e => (nomatch e)⟩
  · exact ⟨fun e => (nomatch e), fun s T e => (nomatch e)⟩
  · refine ⟨fun e => (nomatch e), fun s' T' e => ?_⟩
    cases e
    exact ⟨fun fd p hp hk => (hi.st.iff_ fd p hp).trans (owns_iff (.inl hk) hi.lk).symm,
      fun fd p e => (hi.st.lost fd p e).2⟩

/-- The descriptors of the variables of a server. -/
def owned (s : Srv) : List Nat :=
  [0, 1, 2, s.ilock, s.dlock] ++ s.main ++ s.evfd.toList ++ s.clients.map (·.fd) ++
    s.roots.flatMap fun r => r.idxFd.toList ++ r.datFd.toList

theorem mem_owned {s : Srv} {fd : Nat} {p : Path} (h : Owns s fd p) : fd ∈ owned s := by
  unfold owned
  simp only [List.mem_append, List.mem_flatMap]
  cases h with
  | std _ hn =>
    refine .inl (.inl (.inl (.inl ?_)))
    have : fd = 0 ∨ fd = 1 ∨ fd = 2 := by omega
    rcases this with e | e | e <;> rw [e] <;> simp
  | ilock => exact .inl (.inl (.inl (.inl (by simp))))
  | dlock => exact .inl (.inl (.inl (.inl (by simp))))
  | listen i fd hi => exact .inl (.inl (.inl (.inr (List.mem_of_getElem? hi))))
  | epoll fd he => exact .inl (.inl (.inr (by rw [he]; simp)))
  | client c hc => exact .inl (.inr (List.mem_map_of_mem hc))
  | index r fd hr hf => exact .inr ⟨r, hr, .inl (by rw [hf]; simp)⟩
  | data r fd hr hf => exact .inr ⟨r, hr, .inr (by rw [hf]; simp)⟩

theorem nodup_le : ∀ (fds own : List Nat), fds.Nodup → (∀ fd ∈ fds, fd ∈ own) → fds.length ≤ own.length := by
  intro fds
  induction fds with
  | nil => intro own _ _; exact Nat.zero_le _
  | cons a fds ih =>
    intro own hn hm
    have hn' := List.nodup_cons.1 hn
    have ha := hm a List.mem_cons_self
    have := ih (own.erase a) hn'.2 fun fd hf =>
      (List.mem_erase_of_ne (fun e : fd = a => hn'.1 (e ▸ hf))).2 (hm fd (List.mem_cons_of_mem _ hf))
    rw [List.length_erase_of_mem ha] at this
    have hp := List.length_pos_of_mem ha
    simp only [List.length_cons]
    omega

theorem toList_le (o : Option Nat) : o.toList.length ≤ 1 := by cases o <;> simp

theorem owned_length (s : Srv) : (owned s).length ≤ 6 + s.main.length + s.clients.length + 2 * s.roots.length := by
  have hr : ∀ rs : List Root, (rs.flatMap fun r => r.idxFd.toList ++ r.datFd.toList).length ≤ 2 * rs.length := by
    intro rs
    induction rs with
    | nil => simp
    | cons r rs ih =>
      have h1 := toList_le r.idxFd
      have h2 := toList_le r.datFd
      simp only [List.flatMap_cons, List.length_append, List.length_cons]
      omega
  have h1 := hr s.roots
  have h2 := toList_le s.evfd
  simp only [owned, List.length_append, List.length_map, List.length_cons, List.length_nil]
  omega

/-- **C70**, the number of descriptors: however many requests a server has answered, it has two descriptors for every
    namespace, one for every client and for every listening socket, and six more. -/
theorem C70_count_partial (n : Nat) (es : List Ev) (s : Srv) (T : Fdt)
    (h : Exec false (serve n es) stdTable (.done (some s) T)) (fds : List Nat) (hn : fds.Nodup)
    (ho : ∀ fd ∈ fds, T fd ≠ none) : fds.length ≤ 6 + n + s.clients.length + 2 * s.roots.length := by
  have hlen : s.main.length = n := by
    rcases serve_inv h with h | ⟨T, h⟩ | ⟨s', T', L, h, _, _, hl⟩
    · cases h
    · cases h
    · cases h
      exact hl
  refine Nat.le_trans (nodup_le fds (owned s) hn fun fd hf => ?_) (by rw [← hlen]; exact owned_length s)
  cases e : T fd with
  | none => exact absurd e (ho fd hf)
  | some p => exact mem_owned (((C70_partial n es _ h).2 s T rfl fd p).1 e)

/-- **C70**, the library: a program that opens the database, uses it and closes it has the descriptors it had before,
    unless one was forgotten. -/
theorem C70_close_partial (es : List Ev) (r : Res Bool) (h : Exec false (library es) stdTable r) :
    r ≠ .bad ∧ ∀ T, r = .done true T → T = stdTable := by
  let Q : Bool → Fdt → Prop := fun b T => b = true → T = stdTable
  have hw : wp false (library es) Q stdTable := by
    unfold library
    rw [wp_bind]
    refine wp_zdbOpen (fun T _ _ => ?_) fun L s T ho => ?_
    · exact fun e => nomatch e
    · dsimp only
      rw [wp_bind]
      refine wp_runEvs es ho.inv fun s' T' hs hi => ?_
      rw [wp_bind]
      refine wp_zdbClose hi (hs.2.2.1.trans ho.main) (hs.2.2.2.1.trans ho.evfd) (hs.2.2.2.2 ho.main ho.clients) ?_ ?_
      · rw [hs.1, hs.2.1]
        exact ho.locks rfl
      · exact fun _ => rfl
  rcases wp_sound h hw with rfl | ⟨b, T, rfl, hq⟩
  · exact ⟨fun e => (nomatch e), fun T e => (nomatch e)⟩
  · refine ⟨fun e => (nomatch e), fun T' e => ?_⟩
    cases e
    exact hq rfl

/-! ### a run -/

/-- Answers on which a namespace without files is loaded; `f` and `f + 1` are free. -/
def ansLoad (f : Nat) : List Nat := [1, f + 1, 1, 1, 0, 0, f + 1, 1, 1, 0, 0, f + 1, f + 2, 0, 1, 0, f + 2, 0, 0]
/-- Answers for the start. -/
def ansStart : List Nat := [4, 0, 5, 0] ++ ansLoad 5 ++ [0, 8, 0, 9, 0]
/-- Answers for a SET in a data file that is full. -/
def ansSet : List Nat :=
  [0, 1, 0, 0, 1, 0, 0, 0, 0, 1, 0, 11, 1, 0, 0, 12, 0, 1, 0, 12, 0, 0, 0, 1, 0, 1, 1, 0, 0, 1, 0, 1, 0]

/-- What the process has after its start. -/
def srvStart : Srv :=
  { ilock := 3, dlock := 4, roots := [⟨0, 0, some 5, 0, some 6⟩], main := [7], evfd := some 8, clients := [], conns := 0 }

/-- A run that meets the hypotheses: a client connects, makes a namespace, and a SET moves it to new files. -/
theorem exFds_run : ∃ T, Exec false (serve 1 [.connect 0, .nsnew 0 1, .cmd 0 1 .set]) stdTable
    (.done (some { srvStart with
      roots := [⟨0, 0, some 5, 0, some 6⟩, ⟨1, 1, some 10, 1, some 11⟩], clients := [⟨9, 0⟩], conns := 1 }) T) :=
  ⟨_, sim_sound false _ (ansStart ++ [0, 0, 10, 0, 0] ++ [0, 1, 0] ++ ansLoad 10 ++ [1, 0] ++ ansSet) _ _ [] rfl⟩

/-- Answers on which a namespace with two index files is loaded; `f` and `f + 1` are free. -/
def ansReload (f : Nat) : List Nat :=
  [1, f + 1, 1, 1, 0, 2] ++ [f + 1, 3, 1, 0, 1] ++ [f + 1, 3, 1, 0, 1] ++ [f + 1, f + 2, 0, 1, 0, f + 2, 0, 0]

/-- Another: the server finds two index files and goes on with the second, a client reads a value from the first data
    file. -/
theorem exFds_restart : ∃ T, Exec false (serve 1 [.connect 0, .cmd 0 0 .get]) stdTable
    (.done (some { srvStart with
      roots := [⟨0, 1, some 5, 1, some 6⟩], clients := [⟨9, 0⟩], conns := 1 }) T) :=
  ⟨_, sim_sound false _ ([4, 0, 5, 0] ++ ansReload 5 ++ [0, 8, 0, 9, 0] ++ [0, 0, 10, 0, 0] ++
    [1, 0, 0, 0, 1, 0, 11, 2, 0, 0, 1, 0]) _ _ [] rfl⟩

/-- A program that opens the database, stores a value and closes it. -/
theorem exFds_library : Exec false (library [.cmd 0 0 .set]) stdTable (.done true stdTable) := by
  have h : ∃ T, Exec false (library [.cmd 0 0 .set]) stdTable (.done true T) :=
    ⟨_, sim_sound false _ ([4, 0, 5, 0] ++ ansLoad 5 ++ [0] ++ [0, 0, 0, 0, 0, 0, 0, 1, 0, 1, 1, 0, 0, 1, 0] ++ [1, 0, 0]) _ _ [] rfl⟩
  obtain ⟨T, h⟩ := h
  rw [(C70_close_partial _ _ h).2 T rfl] at h
  exact h

/-! ### refutations -/

theorem exec_talk {l : Bool} {s : Srv} {k : Nat} {T : Fdt} : Exec l (talk s k) T (.done () T) := by
  unfold talk
  cases s.clients.find? (·.conn = k) with
  | none => exact .ret () T
  | some c => exact .asked _ T 0 _ (.ret () T)

theorem exec_io {l : Bool} {fd : Option Nat} {p : Path} {T : Fdt} {a : Nat} (h : Ok T fd p) :
    Exec l (io fd p) T (.done a T) := by
  cases fd with
  | none => exact .usedNeg p _ T a _ (.ret a T)
  | some n => exact .used n p _ T a _ (h n rfl) (.ret a T)

/-- NSNEW of a namespace with a descriptor of another version leaves that descriptor open. -/
theorem exec_nsnew {s : Srv} {k ns m : Nat} {T : Fdt} (he : Ok T s.evfd .epoll) (hn : s.roots.any (·.ns = ns) = false)
    (hm : T m = none) : Exec true ((Ev.nsnew k ns).prog s) T (.done s (T.set m (.lost (.desc ns)))) := by
  have hd : Exec true (descriptorLoad ns) T (.done false (T.set m (.lost (.desc ns)))) := by
    have e : T.set m (.lost (.desc ns)) = (T.set m (.desc ns)).set m (.lost (.desc ns)) := by
      funext x
      simp only [Fdt.set]
      split <;> rfl
    rw [e]
    exact .opened _ _ T m _ hm (.used m _ _ _ 1 _ set_self (.asked _ _ 0 _ (.lost m _ _ _ _ rfl (.ret _ _))))
  unfold Ev.prog
  refine Exec.bind (exec_io (a := 0) he) ?_
  refine Exec.bind exec_talk ?_
  rw [if_neg (by rw [hn]; exact Bool.false_ne_true)]
  refine Exec.bind (a := none) (T' := T.set m (.lost (.desc ns))) ?_ (Exec.bind exec_talk (.ret s _))
  exact Exec.bind (p := ask) (a := 1) (.asked _ T 1 _ (.ret 1 T)) (Exec.bind hd (.ret none _))

/-- Descriptors `m`, …, `m + n - 1` are forgotten. -/
theorem exec_nsnews {s : Srv} {ns : Nat} (hn : s.roots.any (·.ns = ns) = false) :
    ∀ (n : Nat) {T : Fdt} {m : Nat}, Ok T s.evfd .epoll → (∀ x, m ≤ x → T x = none) →
      ∃ T', Exec true (runEvs (List.replicate n (.nsnew 0 ns)) s) T (.done s T') ∧
        (∀ x, x < m → T' x = T x) ∧ ∀ x, m ≤ x → x < m + n → T' x = some (.lost (.desc ns)) := by
  intro n
  induction n with
  | zero =>
    intro T m _ _
    exact ⟨T, .ret s T, fun _ _ => rfl, fun x h1 h2 => absurd h2 (by omega)⟩
  | succ n ih =>
    intro T m he hf
    have hm := hf m (Nat.le_refl m)
    obtain ⟨T', h1, h2, h3⟩ := ih (T := T.set m (.lost (.desc ns))) (m := m + 1) (he.set hm) fun x hx => by
      rw [set_ne (by omega)]
      exact hf x (by omega)
    refine ⟨T', Exec.bind (exec_nsnew he hn hm) h1, fun x hx => ?_, fun x hx hx' => ?_⟩
    · rw [h2 x (by omega), set_ne (by omega)]
    · by_cases e : x = m
      · subst e
        rw [h2 x (by omega), set_self]
      · exact h3 x (by omega) (by omega)

/-- The start of the server, and a client. -/
theorem exec_start (es : List Ev) : ∃ T, Ok T (some 8) .epoll ∧ (∀ x, 10 ≤ x → T x = none) ∧
    ∀ s' T', Exec true (runEvs es { srvStart with clients := [⟨9, 0⟩], conns := 1 }) T (.done s' T') →
      Exec true (serve 1 (.connect 0 :: es)) stdTable (.done (some s') T') := by
  have h1 : ∃ T, T = T ∧ Exec true zdbOpen stdTable (.done (some { srvStart with main := [], evfd := none }) T) ∧
      ∃ T', Exec true (listenOn 1 { srvStart with main := [], evfd := none }) T (.done srvStart T') ∧
      ∃ T'', Exec true ((Ev.connect 0).prog srvStart) T' (.done { srvStart with clients := [⟨9, 0⟩], conns := 1 } T'') ∧
        T'' 8 = some .epoll ∧ ∀ x, 10 ≤ x → T'' x = none := by
    refine ⟨_, rfl, sim_sound true _ ([4, 0, 5, 0] ++ ansLoad 5 ++ [0]) _ _ [] rfl, _,
      sim_sound true _ [8, 0, 9, 0] _ _ [] rfl, _, sim_sound true _ [0, 0, 10, 0, 0] _ _ [] rfl, rfl, fun x hx => ?_⟩
    have : ∀ k, k < 10 → x ≠ k := fun k hk => by omega
    simp [Fdt.set, Fdt.clear, stdTable, this, show ¬ x < 3 by omega]
  obtain ⟨T, _, h1, T', h2, T'', h3, h4, h5⟩ := h1
  refine ⟨T'', fun n hn => by cases hn; exact h4, h5, fun s' T3 h => ?_⟩
  exact Exec.bind h1 (Exec.bind h2 (Exec.bind (Exec.bind h3 h) (.ret _ _)))

/-- **C70** is false where a descriptor is forgotten: every NSNEW in a directory with a descriptor of another version
    leaves one more descriptor open, without end and with no namespace made. -/
theorem C70_leak_refuted (n : Nat) : ∃ s T,
    Exec true (serve 1 (.connect 0 :: List.replicate n (.nsnew 0 1))) stdTable (.done (some s) T) ∧
    s.roots.length = 1 ∧ s.clients.length = 1 ∧
    ∃ fds : List Nat, fds.Nodup ∧ fds.length = n ∧ ∀ fd ∈ fds, T fd ≠ none ∧ ∀ p, ¬ Owns s fd p := by
  obtain ⟨T, h1, h2, h3⟩ := exec_start (List.replicate n (.nsnew 0 1))
  obtain ⟨T', h4, h5, h6⟩ := exec_nsnews (s := { srvStart with clients := [⟨9, 0⟩], conns := 1 }) (ns := 1) rfl n h1 h2
  have hx := h3 _ _ h4
  refine ⟨_, T', hx, rfl, rfl, List.range' 10 n, List.nodup_range', List.length_range', fun fd hf => ?_⟩
  have hr := List.mem_range'_1.1 hf
  have hl := h6 fd hr.1 hr.2
  refine ⟨by rw [hl]; exact fun e => (nomatch e), fun p ho => ?_⟩
  have hm := mem_owned ho
  have hlt : ∀ x ∈ owned { srvStart with clients := [⟨9, 0⟩], conns := 1 }, x < 10 := by decide
  exact absurd (hlt fd hm) (by omega)

theorem exec_total {α : Type} (p : Prog α) : ∀ T, ∃ r, Exec true p T r := by
  induction p with
  | ret a => intro T; exact ⟨_, .ret a T⟩
  | openf p k ih => intro T; exact (ih none T).elim fun r h => ⟨r, .refused p k T r h⟩
  | closef fd p k ih =>
    intro T
    cases fd with
    | none => exact (ih T).elim fun r h => ⟨r, .closedNeg p k T r h⟩
    | some fd =>
      by_cases hf : T fd = some p
      · exact (ih _).elim fun r h => ⟨r, .closed fd p k T r hf h⟩
      · exact ⟨_, .closedBad fd p k T hf⟩
  | iof fd p k ih =>
    intro T
    cases fd with
    | none => exact (ih 0 T).elim fun r h => ⟨r, .usedNeg p k T 0 r h⟩
    | some fd =>
      by_cases hf : T fd = some p
      · exact (ih 0 T).elim fun r h => ⟨r, .used fd p k T 0 r hf h⟩
      · exact ⟨_, .usedBad fd p k T hf⟩
  | askf k ih => intro T; exact (ih 0 T).elim fun r h => ⟨r, .asked k T 0 r h⟩
  | lose fd p k ih =>
    intro T
    cases fd with
    | none => exact (ih T).elim fun r h => ⟨r, .lostNeg p k T r h⟩
    | some fd => exact (ih _).elim fun r h => ⟨r, .lost fd p k T r rfl h⟩
  | die => intro T; exact ⟨_, .died T⟩

theorem exec_closeMain : ∀ (fds : List Nat) (i : Nat) {T : Fdt} {r : Res Unit}, Exec true (closeMain fds i) T r →
    r = .bad ∨ ∃ T', r = .done () T' ∧ (∀ fd, T fd = none → T' fd = none) ∧ ∀ fd ∈ fds, T' fd = none := by
  intro fds
  induction fds with
  | nil =>
    intro i T r h
    cases h
    exact .inr ⟨T, rfl, fun _ h => h, fun fd h => absurd h (by simp)⟩
  | cons a fds ih =>
    intro i T r h
    change Exec true (.closef (some a) (.listen i) (closeMain fds (i + 1))) T r at h
    cases h with
    | closed _ _ _ _ _ _ h =>
      rcases ih (i + 1) h with h | ⟨T', h, h1, h2⟩
      · exact .inl h
      · refine .inr ⟨T', h, fun fd hf => h1 fd ?_, fun fd hf => ?_⟩
        · simp only [Fdt.clear]
          split
          · rfl
          · exact hf
        · rcases List.mem_cons.1 hf with e | hf
          · exact h1 fd (by rw [e]; exact clear_self)
          · exact h2 fd hf
    | closedBad => exact .inl rfl

theorem exec_closeClients : ∀ (cs : List Client) {T : Fdt} {r : Res Unit}, Exec true (closeClients cs) T r →
    r = .bad ∨ ∃ T', r = .done () T' ∧ ∀ fd, T fd = none → T' fd = none := by
  intro cs
  induction cs with
  | nil =>
    intro T r h
    cases h
    exact .inr ⟨T, rfl, fun _ h => h⟩
  | cons c cs ih =>
    intro T r h
    change Exec true (.closef (some c.fd) (.client c.conn) (closeClients cs)) T r at h
    cases h with
    | closed _ _ _ _ _ _ h =>
      rcases ih h with h | ⟨T', h, h1⟩
      · exact .inl h
      · refine .inr ⟨T', h, fun fd hf => h1 fd ?_⟩
        simp only [Fdt.clear]
        split
        · rfl
        · exact hf
    | closedBad => exact .inl rfl

/-- **C70** is false at the end of the server: after STOP every listening socket is closed twice, so that every server
    that listens closes a descriptor it no longer has. -/
theorem C70_stop_refuted (n : Nat) (es : List Ev) (s : Srv) (T : Fdt)
    (h : Exec true (serve (n + 1) es) stdTable (.done (some s) T)) :
    (∃ r, Exec true (stop s) T r) ∧ ∀ r, Exec true (stop s) T r → r = .bad := by
  refine ⟨exec_total _ T, fun r hr => ?_⟩
  have hlen : s.main.length = n + 1 := by
    rcases serve_inv h with h | ⟨T, h⟩ | ⟨s', T', L, h, _, _, hl⟩
    · cases h
    · cases h
    · cases h
      exact hl
  unfold stop at hr
  rcases Exec.bind_inv _ hr with ⟨_, T1, h1, hr⟩ | ⟨_, h1⟩ | ⟨e, _⟩
  · rcases exec_closeMain _ _ h1 with e | ⟨T', e, _, hz⟩
    · cases e
    cases e
    rcases Exec.bind_inv _ hr with ⟨_, T2, h2, hr⟩ | ⟨_, h2⟩ | ⟨e, _⟩
    · rcases exec_closeClients _ h2 with e | ⟨T', e, hk⟩
      · cases e
      cases e
      cases hm : s.main with
      | nil => rw [hm] at hlen; cases hlen
      | cons a fds =>
        rw [hm] at hr hz
        change Exec true (.closef (some a) (.listen 0) (closeMain fds 1)) T2 r at hr
        have ha := hk a (hz a List.mem_cons_self)
        cases hr with
        | closed _ _ _ _ _ hc _ => rw [ha] at hc; cases hc
        | closedBad => rfl
    · rcases exec_closeClients _ h2 with e | ⟨T', e, _⟩ <;> cases e
    · exact e
  · rcases exec_closeMain _ _ h1 with e | ⟨T', e, _, _⟩ <;> cases e
  · exact e

/-- **C70** is false for a program on a file system that cannot lock: the function that locks answers 1 in the place of
    a descriptor, and at the end the standard output is closed. -/
theorem C70_flock_refuted :
    (∃ s T, Exec true zdbOpen stdTable (.done (some s) T) ∧ s.ilock = 1 ∧ T 1 = some (.std 1)) ∧
    Exec true (library []) stdTable .bad :=
  ⟨⟨_, _, sim_sound true _ ([4, 2, 5, 0] ++ ansLoad 5 ++ [0]) _ _ [] rfl, rfl, rfl⟩,
    sim_sound true _ ([4, 2, 5, 0] ++ ansLoad 5 ++ [0, 0]) _ _ [] rfl⟩

end Zdb.Fds
