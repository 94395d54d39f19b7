/-
Namespaces: loading, jumps, RELOAD, FLUSH, NSSET, NSDEL. What a namespace holds is held by nobody else, before and after.
-/
import Verif.Lemmas.HeapScan
namespace Zdb.Heap

/-- What the index and the data of a namespace hold. -/
def coreO (sp : Space) : Own := cnt ([sp.iroot, sp.ifile, sp.dirty] ++ seqBlocks sp.seq ++ [sp.droot, sp.dfile])

/-- What the object of a namespace holds. -/
def headO (sp : Space) : Own := cnt ([sp.self, sp.name, sp.ipath, sp.dpath] ++ sp.pass.toList)

/-- What a namespace holds. -/
def spO (sp : Space) : Own := cnt sp.blocks

/-- What namespaces hold. -/
def spsO (l : List Space) : Own := cnt (l.flatMap Space.blocks)

theorem spO_ap (sp : Space) (x : Nat) : spO sp x = headO sp x + coreO sp x := by
  simp only [spO, headO, coreO, Space.blocks]
  owna

theorem headO_ap (sp : Space) (x : Nat) :
    headO sp x = one sp.self x + one sp.name x + one sp.ipath x + one sp.dpath x + cnt sp.pass.toList x := by
  simp only [headO]
  owna

theorem coreO_ap (sp : Space) (x : Nat) :
    coreO sp x = one sp.iroot x + one sp.ifile x + one sp.dirty x + cnt (seqBlocks sp.seq) x + one sp.droot x +
      one sp.dfile x := by
  simp only [coreO]
  owna

theorem spsO_nil (x : Nat) : spsO [] x = 0 := rfl
theorem spsO_cons (sp : Space) (l : List Space) (x : Nat) : spsO (sp :: l) x = spO sp x + spsO l x := by
  simp only [spsO, spO]
  owna
theorem spsO_append (l l' : List Space) (x : Nat) : spsO (l ++ l') x = spsO l x + spsO l' x := by
  simp only [spsO, List.flatMap_append]
  owna

theorem seq_none (x : Nat) : cnt (seqBlocks none) x = 0 := rfl
theorem seq_some (p : Nat × Nat) (x : Nat) : cnt (seqBlocks (some p)) x = one p.1 x + one p.2 x := by
  simp only [seqBlocks]
  owna

/-- Arithmetic of owners with namespaces. -/
macro "owsa" : tactic => `(tactic| ((try simp only [spO_ap, headO_ap, coreO_ap, spsO_nil, spsO_cons, spsO_append, seq_none,
  seq_some, add_ap, sub_ap] at *) <;> owna))
/-- The same at every block. -/
macro "ows" : tactic => `(tactic| (intro x; owsa))

/-- A sequential namespace has its map of files. -/
def ModeOk (sp : Space) : Prop := sp.seqMode = true → sp.seq.isSome = true

theorem SA.of {o : Own} {sp : Space} (hm : ModeOk sp) (e : ∀ x, spO sp x ≤ o x) : SA o sp := by
  have hb : ∀ b ∈ sp.blocks, 1 ≤ o b := Av.of_le e
  refine ⟨?_, ?_, ?_, ?_, ?_, ?_, ?_, ?_, ?_, ?_, ?_, hm⟩
  any_goals exact hb _ (by simp [Space.blocks])
  · intro b h
    exact hb _ (by simp [Space.blocks, h])
  · intro p h
    exact ⟨hb _ (by simp [Space.blocks, h, seqBlocks]), hb _ (by simp [Space.blocks, h, seqBlocks])⟩

section
variable {l : Level} {M : Mem} {o F : Own} {q : List Resp} {β : Type} {Q : β → Mem → Prop} {c : Client} {sp : Space}
  {s : Srv}

theorem wp_seqPush {p : Nat × Nat} {k : Nat × Nat → Prog β} (h : Holds l o M) (h1 : 1 ≤ o p.1) (h2 : 1 ≤ o p.2)
    (h3 : p.1 ≠ p.2)
    (hk : ∀ m M, Holds l (one m + (o - one p.2)) M → wp l (k (p.1, m)) Q M) : wp l (seqPush p >>= k) Q M := by
  rw [wp_bind]
  unfold seqPush
  refine wp_useb h h1 ?_
  as a
  br
  · refine wp_useb h h2 ?_
    refine hk _ M (h.re fun x => ?_)
    simp only [add_ap, sub_ap]
    by_cases e : x = p.2
    · subst e; rw [one_self]; omega
    · simp [one, e]
  · refine wp_realloc h h2 fun m M h => ?_
    us
    exact hk m M h

theorem wp_dirtyResize {b : Nat} {k : Nat → Prog β} (h : Holds l o M) (h1 : 1 ≤ o b)
    (hk : ∀ m M, Holds l (one m + (o - one b)) M → wp l (k m) Q M) : wp l (dirtyResize b >>= k) Q M := by
  rw [wp_bind]
  unfold dirtyResize
  as a
  br
  · refine hk _ M (h.re fun x => ?_)
    simp only [add_ap, sub_ap]
    by_cases e : x = b
    · subst e; rw [one_self]; omega
    · simp [one, e]
  · refine wp_realloc h h1 fun m M h => ?_
    us
    exact hk m M h

theorem pair_ne {p : Nat × Nat} (h : Holds l o M) (e : ∀ x, one p.1 x + one p.2 x ≤ o x) : p.1 ≠ p.2 := by
  intro he
  have h1 := e p.1
  have h2 := h.le p.1
  rw [← he, one_self] at h1
  omega

/-- A namespace has changed, but not its object. -/
def Upd (l : Level) (F : Own) (sp sp' : Space) (M : Mem) : Prop :=
  Holds l (F + spO sp') M ∧ sp'.self = sp.self ∧ ModeOk sp'

theorem wp_jump {k : Space → Prog β} (h : Holds l (F + spO sp) M) (hm : ModeOk sp)
    (hk : ∀ sp' M, Upd l F sp sp' M → wp l (k sp') Q M) : wp l (jump sp >>= k) Q M := by
  rw [wp_bind]
  unfold jump
  have as1 : SA (F + spO sp) sp := SA.of hm (by own)
  refine wp_useb h as1.iroot ?_
  refine wp_useb h as1.ifile ?_
  refine wp_dirtyResize h as1.dirty fun d M h => ?_
  cases hs : sp.seq with
  | none =>
    have hnm : sp.seqMode ≠ true := fun e => by simpa [hs] using hm e
    refine wp_useb h (by owsa) ?_
    refine wp_useb h (by owsa) ?_
    refine hk _ M ⟨h.re ?_, rfl, fun e => absurd e hnm⟩
    intro x
    simp only [spO_ap, headO_ap, coreO_ap, add_ap, sub_ap, hs]
    owna
  | some p =>
    have hp := as1.seq p hs
    have hle : ∀ x, one p.1 x + one p.2 x ≤ (one d + (F + spO sp - one sp.dirty)) x := by
      intro x
      simp only [spO_ap, headO_ap, coreO_ap, add_ap, sub_ap, hs, seq_some]
      omega
    have h1 := hle p.1
    have h2 := hle p.2
    rw [one_self] at h1 h2
    refine wp_seqPush h (by omega) (by omega) (pair_ne h hle) fun m M h => ?_
    refine wp_useb h ?_ ?_
    · simp only [spO_ap, headO_ap, coreO_ap, add_ap, sub_ap, hs, seq_some, one_self]; omega
    refine wp_useb h ?_ ?_
    · simp only [spO_ap, headO_ap, coreO_ap, add_ap, sub_ap, hs, seq_some, one_self]; omega
    refine hk _ M ⟨h.re ?_, rfl, fun _ => rfl⟩
    intro x
    simp only [spO_ap, headO_ap, coreO_ap, add_ap, sub_ap, hs, seq_some]
    omega

/-- A command has changed a namespace and added replies. -/
def UpdExt (l : Level) (F : Own) (q : List Resp) (sp : Space) (r : Space × List Resp) (M : Mem) : Prop :=
  Ext l (F + spO r.1) q r.2 M ∧ r.1.self = sp.self ∧ ModeOk r.1

theorem wp_cmdSet (h : Holds l (F + spO sp) M) (hm : ModeOk sp) (hc : Req c) (ac : Av F c.reqBlocks)
    (ag : GA F s) (aq : Av F (respBlocks q)) : wp l (cmdSet s c sp q) (UpdExt l F q sp) M := by
  unfold cmdSet
  have asp : SA (F + spO sp) sp := SA.of hm (by own)
  have key : c.argc = 3 ∨ c.argc = 4 → wp l (do
      arg c 1
      let (ok, q) ← check q
      if !ok then pure (sp, q) else do
        let named ← ask
        let existing ← if named = 0 then pure false else indexGet s sp
        arg c 2
        let (ok, q) ← check q
        if !ok then pure (sp, q) else do
          let full ← ask
          let sp ← if full = 0 then pure sp else jump sp
          let q ← setHandler s c sp existing q
          pure (sp, q)) (UpdExt l F q sp) M := by
    intro ha
    ar
    refine wp_check h (aq.mono (by own)) ?_ (fun q' M' h' => ⟨h', rfl, hm⟩)
    simp only [Bool.not_true, Bool.false_eq_true, if_false]
    as named
    have k2 : ∀ (existing : Bool) (M : Mem), Holds l (F + spO sp) M → wp l (do
        arg c 2
        let (ok, q) ← check q
        if !ok then pure (sp, q) else do
          let full ← ask
          let sp ← if full = 0 then pure sp else jump sp
          let q ← setHandler s c sp existing q
          pure (sp, q)) (UpdExt l F q sp) M := by
      intro existing M h
      ar
      refine wp_check h (aq.mono (by own)) ?_ (fun q' M' h' => ⟨h', rfl, hm⟩)
      simp only [Bool.not_true, Bool.false_eq_true, if_false]
      as full
      have k3 : ∀ sp' M, Upd l F sp sp' M → wp l (do
          let q ← setHandler s c sp' existing q
          pure (sp', q)) (UpdExt l F q sp) M := by
        rintro sp' M ⟨h, e, hm'⟩
        refine wp_call (wp_setHandler h hc (ac.mono (by own)) (SA.of hm' (by own)) (ag.mono (by own))
          (aq.mono (by own)) ha) ?_
        exact fun q' M h => ⟨h, e, hm'⟩
      br
      · exact k3 sp M ⟨h, rfl, hm⟩
      · exact wp_jump h hm k3
    br
    · exact k2 false M h
    · exact wp_indexGet h asp (ag.mono (by own)) k2
  br
  · refine wp_check h (aq.mono (by own)) ?_ (fun q' M' h' => ⟨h', rfl, hm⟩)
    simp only [Bool.not_true, Bool.false_eq_true, if_false]
    exact key (.inr hi)
  · refine wp_validate h hc (ac.mono (by own)) (aq.mono (by own)) (fun hn => ?_) (fun q' M' h' => ⟨h', rfl, hm⟩)
    simp only [Bool.not_true, Bool.false_eq_true, if_false]
    exact key (.inl hn)

/-- The map of files that a mode needs. -/
def SeqOk (m : Bool) (sq : Option (Nat × Nat)) : Prop := m = true → sq.isSome = true

theorem wp_rehash {m : Bool} {sq : Option (Nat × Nat)} {k : Option (Nat × Nat) → Prog β}
    (h : Holds l (F + cnt (seqBlocks sq)) M)
    (hk : ∀ sq' M, SeqOk m sq' → Holds l (F + cnt (seqBlocks sq')) M → wp l (k sq') Q M) :
    wp l (rehash m sq >>= k) Q M := by
  rw [wp_bind]
  unfold rehash
  br
  · cases sq with
    | some p => exact hk _ M (fun _ => rfl) h
    | none =>
      refine wp_malloc h fun a M h => ?_
      refine wp_malloc h fun b M h => ?_
      refine wp_seqPush h (by owsa) (by owsa) (pair_ne h (by ows)) fun m M h => ?_
      exact hk _ M (fun _ => rfl) (h.re (by ows))
  · exact hk _ M (fun e => absurd e hi) h

theorem wp_loadFiles {k : Loading → Prog β}
    (hk : ∀ r M, SeqOk r.seqMode r.seq → Holds l (F + one r.dirty + cnt (seqBlocks r.seq)) M → wp l (k r) Q M) :
    ∀ n (r : Loading) (M : Mem), SeqOk r.seqMode r.seq → Holds l (F + one r.dirty + cnt (seqBlocks r.seq)) M →
      wp l (loadFiles n r >>= k) Q M := by
  intro n
  induction n with
  | zero => intro r M hr h; exact hk r M hr h
  | succ n ih =>
    intro r M hr h
    rw [wp_bind]
    unfold loadFiles
    refine wp_dirtyResize h (by owsa) fun d M h => ?_
    as mode
    generalize headerMode mode r.seqMode = mo
    refine wp_rehash (F := F + one d) (sq := r.seq) (h.re (by ows)) fun sq M hsq h => ?_
    al b
    us
    have fin : ∀ sq' M, SeqOk mo sq' → Holds l (one b + (F + one d + cnt (seqBlocks sq'))) M → wp l (do
        freeb b
        loadFiles n ⟨d, mo, sq'⟩) (fun r M => wp l (k r) Q M) M := by
      intro sq' M hs h
      fr
      exact wp_bind.1 (ih ⟨d, mo, sq'⟩ M hs (h.re (by ows)))
    split
    · refine wp_seqPush h (by owsa) (by owsa) (pair_ne h (by ows)) fun m M h => ?_
      exact fin _ M (fun _ => rfl) (h.re (by ows))
    · exact fin _ M hsq h

theorem wp_loadLazy {self name ipath dpath : Nat} {pass : Option Nat} {k : Space → Prog β} (h : Holds l F M)
    (hk : ∀ sp M, sp.self = self → sp.name = name → sp.ipath = ipath → sp.dpath = dpath → sp.pass = pass →
      ModeOk sp → Holds l (F + coreO sp) M → wp l (k sp) Q M) :
    wp l (loadLazy self name ipath dpath pass >>= k) Q M := by
  rw [wp_bind]
  unfold loadLazy
  al iroot
  al ifile
  al dirty
  as mode
  refine wp_rehash (F := F + one iroot + one ifile + one dirty) (sq := none) (h.re (by ows)) fun sq M hsq h => ?_
  as n
  refine wp_loadFiles (F := F + one iroot + one ifile) (fun r M hr h => ?_) n _ M hsq (h.re (by ows))
  al droot
  al dfile
  exact hk _ M rfl rfl rfl rfl rfl hr (h.re (by ows))

theorem wp_namespaceLoad {k : Option Space → Prog β} (h : Holds l F M)
    (hn : ∀ M, Holds l F M → wp l (k none) Q M)
    (hs : ∀ sp M, ModeOk sp → Holds l (F + spO sp) M → wp l (k (some sp)) Q M) :
    wp l (namespaceLoad >>= k) Q M := by
  rw [wp_bind]
  unfold namespaceLoad
  al self
  al name
  al ipath
  al dpath
  as a
  br
  · refine wp_lose h (by owna) fun M h => ?_
    refine wp_lose h (by owna) fun M h => ?_
    refine wp_lose h (by owna) fun M h => ?_
    refine wp_lose h (by owna) fun M h => ?_
    exact hn M (h.re (by own))
  as d
  split
  · fr
    fr
    fr
    refine wp_free_none ?_
    fr
    exact hn M (h.re (by own))
  · refine wp_loadLazy h fun sp M e1 e2 e3 e4 e5 hm h => ?_
    refine hs sp M hm (h.re fun x => ?_)
    simp only [spO_ap, headO_ap, add_ap, e1, e2, e3, e4, e5]
    owna
  · al p
    us
    refine wp_loadLazy h fun sp M e1 e2 e3 e4 e5 hm h => ?_
    refine hs sp M hm (h.re fun x => ?_)
    simp only [spO_ap, headO_ap, add_ap, e1, e2, e3, e4, e5]
    owna

theorem wp_destroy {k : Unit → Prog β} (h : Holds l (F + coreO sp) M) (hk : ∀ M, Holds l F M → wp l (k ()) Q M) :
    wp l (destroy sp >>= k) Q M := by
  rw [wp_bind]
  unfold destroy
  obtain ⟨self, name, ipath, dpath, pass, iroot, ifile, dirty, seqMode, seq, droot, dfile⟩ := sp
  simp only
  have fin : ∀ M, Holds l (F + one iroot + one droot + one dfile) M → wp l (do
      freeb iroot
      useb droot
      freeb dfile
      freeb droot) (fun a M => wp l (k a) Q M) M := by
    intro M h
    fr
    us
    fr
    apply wp_tail
    fr
    exact hk M (h.re (by own))
  refine wp_useb h (by owsa) ?_
  refine wp_freeb h (by owsa) fun M h => ?_
  refine wp_freeb h (by owsa) fun M h => ?_
  cases seq with
  | none => exact fin M (h.re (by ows))
  | some p =>
    obtain ⟨a, b⟩ := p
    refine wp_useb h (by owsa) ?_
    refine wp_freeb h (by owsa) fun M h => ?_
    refine wp_freeb h (by owsa) fun M h => ?_
    exact fin M (h.re (by ows))

theorem wp_namespaceFree {k : Unit → Prog β} (h : Holds l (F + headO sp) M)
    (hk : ∀ M, Holds l F M → wp l (k ()) Q M) : wp l (namespaceFree sp >>= k) Q M := by
  rw [wp_bind]
  unfold namespaceFree
  refine wp_useb h (by owsa) ?_
  refine wp_freeb h (by owsa) fun M h => ?_
  refine wp_freeb h (by owsa) fun M h => ?_
  refine wp_freeb h (by owsa) fun M h => ?_
  refine wp_free h (fun b hb => by rw [sub_ap, sub_ap, sub_ap, add_ap, headO_ap, hb]; owna) fun M h => ?_
  apply wp_tail
  refine wp_freeb h (by owsa) fun M h => ?_
  exact hk M (h.re (by ows))

theorem wp_reload {k : Space → Prog β} (h : Holds l (F + spO sp) M)
    (hk : ∀ sp' M, Upd l F sp sp' M → wp l (k sp') Q M) : wp l (reload sp >>= k) Q M := by
  rw [wp_bind]
  unfold reload
  refine wp_useb h (by owsa) ?_
  refine wp_destroy (F := F + headO sp) (h.re (by ows)) fun M h => ?_
  apply wp_tail
  refine wp_loadLazy h fun sp' M e1 e2 e3 e4 e5 hm h => ?_
  refine hk sp' M ⟨h.re fun x => ?_, e1, hm⟩
  simp only [spO_ap, headO_ap, add_ap, e1, e2, e3, e4, e5]
  omega

theorem wp_flush {k : Space → Prog β} (h : Holds l (F + spO sp) M)
    (hk : ∀ sp' M, Upd l F sp sp' M → wp l (k sp') Q M) : wp l (flush sp >>= k) Q M := by
  rw [wp_bind]
  unfold flush
  refine wp_useb h (by owsa) ?_
  al i
  refine wp_useb h (by owsa) ?_
  al d
  refine wp_destroy (F := F + headO sp + one i + one d) (h.re (by ows)) fun M h => ?_
  us
  us
  refine wp_loadLazy h fun sp' M e1 e2 e3 e4 e5 hm h => ?_
  fr
  fr
  refine hk sp' M ⟨h.re fun x => ?_, e1, hm⟩
  simp only [spO_ap, headO_ap, add_ap, sub_ap, e1, e2, e3, e4, e5]
  omega

theorem wp_nssetPassword {k : Space → Prog β} (h : Holds l (F + spO sp) M) (hm : ModeOk sp)
    (hk : ∀ sp' M, Upd l F sp sp' M → sp'.ipath = sp.ipath → wp l (k sp') Q M) :
    wp l (nssetPassword sp >>= k) Q M := by
  rw [wp_bind]
  unfold nssetPassword
  as a
  br
  · refine wp_free h (fun b hb => by rw [add_ap, spO_ap, headO_ap, hb]; owna) fun M h => ?_
    exact hk _ M ⟨h.re (by ows), rfl, hm⟩ rfl
  · al p
    cases hp : sp.pass with
    | none =>
      refine hk _ M ⟨h.re fun x => ?_, rfl, hm⟩ rfl
      simp only [spO_ap, headO_ap, coreO_ap, add_ap, hp]
      owna
    | some old =>
      refine wp_lose h (by rw [add_ap, add_ap, spO_ap, headO_ap, hp]; owna) fun M h => ?_
      refine hk _ M ⟨h.re fun x => ?_, rfl, hm⟩ rfl
      simp only [spO_ap, headO_ap, coreO_ap, add_ap, sub_ap, hp]
      owna

theorem wp_nsset (h : Holds l (F + spO sp) M) (hm : ModeOk sp) (aq : Av F (respBlocks q)) :
    wp l (nsset sp q) (UpdExt l F q sp) M := by
  unfold nsset
  refine wp_useb h (by owsa) ?_
  as what
  split
  · refine wp_check h (aq.mono (by own)) ?_ (fun q' M' h' => ⟨h', rfl, hm⟩)
    simp only [Bool.not_true, Bool.false_eq_true, if_false]
    as m
    refine wp_useb h (by owsa) ?_
    refine wp_rehash (F := F + (spO sp - cnt (seqBlocks sp.seq))) (sq := sp.seq) (h.re (by ows)) fun sq M hsq h => ?_
    refine wp_call (wp_replyStack (o := F + spO { sp with seqMode := m ≠ 0, seq := sq }) (h.re ?_) (aq.mono (by own))) ?_
    · ows
    · exact fun q' M h => ⟨h, rfl, hsq⟩
  · refine wp_nssetPassword h hm fun sp' M hu e => ?_
    obtain ⟨h, e1, hm'⟩ := hu
    refine wp_use_some h (by owsa) ?_
    refine wp_call (wp_replyStack h (aq.mono (by own))) ?_
    exact fun q' M h => ⟨h, e1, hm'⟩
  · refine wp_call (wp_replyStack h (aq.mono (by own))) ?_
    exact fun q' M h => ⟨h, rfl, hm⟩

theorem wp_namespaceGet {k : Option Nat → Prog β} (h : Holds l o M) (hn : wp l (k none) Q M) :
    ∀ (ls : List Space), (∀ sp ∈ ls, SA o sp) → (∀ sp ∈ ls, wp l (k (some sp.self)) Q M) →
      wp l (namespaceGet ls >>= k) Q M := by
  intro ls
  induction ls with
  | nil => intro _ _; exact hn
  | cons sp ls ih =>
    intro ha hs
    rw [wp_bind]
    unfold namespaceGet
    have as1 := ha sp (List.mem_cons_self ..)
    refine wp_useb h as1.self ?_
    refine wp_useb h as1.name ?_
    as a
    br
    · exact hs sp (List.mem_cons_self ..)
    · exact wp_bind.1 (ih (fun sp h => ha sp (List.mem_cons_of_mem _ h)) fun sp h => hs sp (List.mem_cons_of_mem _ h))

/-- The namespaces of a list. -/
def spaceIds (ls : List Space) : List Nat := ls.map (·.self)

theorem wp_onSpace {α : Type} {f : Space → Prog (Space × α)} {p : Nat} {P : Own → α → Mem → Prop} :
    ∀ (ls : List Space) (F : Own) (M : Mem), p ∈ spaceIds ls → (∀ sp ∈ ls, ModeOk sp) → Holds l (F + spsO ls) M →
      (∀ sp F' M, (∀ x, F x ≤ F' x) → ModeOk sp → Holds l (F' + spO sp) M →
        wp l (f sp) (fun r M => P (F' + spO r.1) r.2 M ∧ r.1.self = sp.self ∧ ModeOk r.1) M) →
      wp l (onSpace p f ls) (fun r M => P (F + spsO r.1) r.2 M ∧ spaceIds r.1 = spaceIds ls ∧ ∀ sp ∈ r.1, ModeOk sp)
        M := by
  intro ls
  induction ls with
  | nil => intro F M hp; simp [spaceIds] at hp
  | cons sp ls ih =>
    intro F M hp hm h hf
    unfold onSpace
    br
    · refine wp_call (hf sp (F + spsO ls) M (by own) (hm sp (List.mem_cons_self ..)) (h.re (by ows))) ?_
      rintro ⟨sp', a⟩ M ⟨hP, e, hm'⟩
      refine ⟨?_, by simp only [spaceIds, List.map_cons] at e ⊢; rw [e], ?_⟩
      · have : F + spsO (sp' :: ls) = F + spsO ls + spO sp' := own_ext (by ows)
        simp only at hP ⊢
        rw [this]
        exact hP
      · intro x hx
        rcases List.mem_cons.1 hx with rfl | hx
        · exact hm'
        · exact hm x (List.mem_cons_of_mem _ hx)
    · have hp' : p ∈ spaceIds ls := by
        simp only [spaceIds, List.map_cons, List.mem_cons] at hp
        rcases hp with rfl | hp
        · exact absurd rfl hi
        · exact hp
      refine wp_call (ih (F + spO sp) M hp' (fun x hx => hm x (List.mem_cons_of_mem _ hx)) (h.re (by ows))
        fun sp' F' M hF => hf sp' F' M fun x => Nat.le_trans (by owna) (hF x)) ?_
      rintro ⟨ls', a⟩ M ⟨hP, e, hm'⟩
      refine ⟨?_, by simp only [spaceIds, List.map_cons] at e ⊢; rw [e], ?_⟩
      · have : F + spsO (sp :: ls') = F + spO sp + spsO ls' := own_ext (by ows)
        simp only at hP ⊢
        rw [this]
        exact hP
      · intro x hx
        rcases List.mem_cons.1 hx with rfl | hx
        · exact hm x (List.mem_cons_self ..)
        · exact hm' x hx

theorem wp_dropSpace {p : Nat} :
    ∀ (ls : List Space) (F : Own) (M : Mem), p ∈ spaceIds ls → (∀ sp ∈ ls, ModeOk sp) → Holds l (F + spsO ls) M →
      wp l (dropSpace p ls) (fun r M => Holds l (F + spsO r) M ∧ (∀ n ∈ spaceIds ls, n ≠ p → n ∈ spaceIds r) ∧
        ∀ sp ∈ r, ModeOk sp) M := by
  intro ls
  induction ls with
  | nil => intro F M hp; simp [spaceIds] at hp
  | cons sp ls ih =>
    intro F M hp hm h
    unfold dropSpace
    br
    · refine wp_useb h (by owsa) ?_
      refine wp_destroy (F := F + spsO ls + headO sp) (h.re (by ows)) fun M h => ?_
      refine wp_useb h (by owsa) ?_
      refine wp_useb h (by owsa) ?_
      refine wp_namespaceFree h fun M h => ?_
      refine ⟨h, ?_, fun x hx => hm x (List.mem_cons_of_mem _ hx)⟩
      intro n hn hne
      simp only [spaceIds, List.map_cons, List.mem_cons] at hn ⊢
      rcases hn with rfl | hn
      · exact absurd hi hne
      · exact hn
    · have hp' : p ∈ spaceIds ls := by
        simp only [spaceIds, List.map_cons, List.mem_cons] at hp
        rcases hp with rfl | hp
        · exact absurd rfl hi
        · exact hp
      refine wp_call (ih (F + spO sp) M hp' (fun x hx => hm x (List.mem_cons_of_mem _ hx)) (h.re (by ows))) ?_
      rintro ls' M ⟨h, e, hm'⟩
      refine ⟨h.re (by ows), ?_, ?_⟩
      · intro n hn hne
        simp only [spaceIds, List.map_cons, List.mem_cons] at hn ⊢
        rcases hn with rfl | hn
        · exact .inl rfl
        · exact .inr (e n hn hne)
      · intro x hx
        rcases List.mem_cons.1 hx with rfl | hx
        · exact hm x (List.mem_cons_self ..)
        · exact hm' x hx

end

end Zdb.Heap
