/-
C39, C54: the hooks.
-/
import Verif.Lemmas.Hook
import Verif.Props.UserMap
import Verif.Lemmas.Wire
namespace Zdb

/-- C39.  Whatever the order of starts, terminations and cleanups, no empty slot is dereferenced and the table lists
    exactly the jobs, each once, with the state of its own process; the counter of hooks is exact.  Missing: a
    hook that the server waits for and whose process could not be created (see the refutations). -/
theorem C39_refines_partial {es : List HookEv} (h : HookOK hookSys0 es) (hf : ∀ e ∈ es, e.forked) :
    ∃ y, hookRun hookSys0 es = some y ∧ (y.tab.slots.filterMap id).Perm ((jobRun [] es).map Job.line) ∧
      y.tab.active = (y.tab.slots.filterMap id).length := by
  obtain ⟨y, h1, h2⟩ := HInv.run es hinv_init h hf
  exact ⟨y, h1, h2.perm, by rw [h2.active, h2.perm.length_eq, List.length_map]⟩

theorem jobRun_append : ∀ (es fs : List HookEv) (J : List Job), jobRun J (es ++ fs) = jobRun (jobRun J es) fs
  | [], _, _ => rfl
  | _ :: es, fs, _ => jobRun_append es fs _

theorem jobStep_running {J : List Job} {j : Job} (hj : j ∈ J) (he : j.ended = none) (hs : j.seen = none) {e : HookEv}
    (hne : ∀ st, e ≠ .exit j.pid st) : j ∈ jobStep J e := by
  cases e with
  | start => exact List.mem_append_left _ hj
  | wait => exact List.mem_append_left _ hj
  | exit p st =>
    refine List.mem_map.2 ⟨j, hj, if_neg (fun hh => hne st (by rw [hh.1]))⟩
  | clean now done =>
    simp only [jobStep]
    split
    · exact List.mem_map.2 ⟨j, hj, if_neg (fun hh => by rw [he] at hh; cases hh.2)⟩
    · exact List.mem_filter.2 ⟨hj, by simp [Job.keep, hs]⟩

theorem jobRun_running : ∀ (es : List HookEv) {J : List Job} {j : Job}, j ∈ J → j.ended = none → j.seen = none →
    (∀ st, .exit j.pid st ∉ es) → j ∈ jobRun J es
  | [], _, _, hj, _, _, _ => hj
  | e :: es, _, j, hj, he, hs, hne =>
    jobRun_running es (jobStep_running hj he hs (fun st h => hne st (h ▸ List.mem_cons_self ..))) he hs
      (fun st h => hne st (List.mem_cons_of_mem _ h))

theorem jobRun_ended : ∀ (es : List HookEv) {J : List Job} {j : Job}, j ∈ J → j.ended ≠ none →
    (∀ t done, .clean t done ∉ es) → j ∈ jobRun J es
  | [], _, _, hj, _, _ => hj
  | e :: es, J, j, hj, he, hne => by
    refine jobRun_ended es (J := jobStep J e) ?_ he (fun t d h => hne t d (List.mem_cons_of_mem _ h))
    cases e with
    | start => exact List.mem_append_left _ hj
    | wait => exact List.mem_append_left _ hj
    | exit p st => exact List.mem_map.2 ⟨j, hj, if_neg (fun hh => he hh.2)⟩
    | clean now done => exact absurd (List.mem_cons_self ..) (hne now done)

theorem jobRun_seen : ∀ (es : List HookEv) {J : List Job} {j : Job} {t : Nat}, j ∈ J → j.ended ≠ none → j.seen = some t →
    (∀ t' done, .clean t' done ∈ es → t' ≤ t + 300) → j ∈ jobRun J es
  | [], _, _, _, hj, _, _, _ => hj
  | e :: es, J, j, t, hj, he, hs, hne => by
    refine jobRun_seen es (J := jobStep J e) ?_ he hs (fun t d h => hne t d (List.mem_cons_of_mem _ h))
    cases e with
    | start => exact List.mem_append_left _ hj
    | wait => exact List.mem_append_left _ hj
    | exit p st => exact List.mem_map.2 ⟨j, hj, if_neg (fun hh => he hh.2)⟩
    | clean now done =>
      simp only [jobStep]
      split
      · exact List.mem_map.2 ⟨j, hj, if_neg (fun hh => by rw [Job.live_iff, hs] at hh; cases hh.1.2)⟩
      · refine List.mem_filter.2 ⟨hj, ?_⟩
        have := hne now done (List.mem_cons_self ..)
        simp [Job.keep, hs, this]

/-- C39: a hook whose process has not terminated is listed, as not finished. -/
theorem C39_running_partial {a b : List HookEv} {kind : Bytes} {args : List Bytes} {now p : Nat}
    (h : HookOK hookSys0 (a ++ .start kind args now (some p) :: b)) (hf : ∀ e ∈ a ++ .start kind args now (some p) :: b, e.forked)
    (hb : ∀ st, .exit p st ∉ b) :
    ∃ y, hookRun hookSys0 (a ++ .start kind args now (some p) :: b) = some y ∧
      some { kind, args, pid := p, created := now, finished := 0, status := 0 } ∈ y.tab.slots := by
  obtain ⟨y, h1, h2, -⟩ := C39_refines_partial h hf
  refine ⟨y, h1, ?_⟩
  have hj : (⟨kind, args, p, now, none, none⟩ : Job) ∈ jobRun [] (a ++ .start kind args now (some p) :: b) := by
    rw [jobRun_append]
    exact jobRun_running b (List.mem_append_right _ (List.mem_singleton_self _)) rfl rfl hb
  have := h2.mem_iff.2 (List.mem_map_of_mem (f := Job.line) hj)
  obtain ⟨x, hx, e⟩ := List.mem_filterMap.1 this
  simp only [id] at e
  rw [e] at hx
  exact hx

/-- C39: when its process has terminated with the state `st`, the next cleanup (at the time `t`) records the end and the
    exit status on this hook, which stays listed with them for 300 seconds. -/
theorem C39_status_partial {a b c d : List HookEv} {kind : Bytes} {args : List Bytes} {now p st t : Nat}
    {done : List (Nat × Nat)} {es : List HookEv}
    (hes : es = a ++ .start kind args now (some p) :: (b ++ .exit p st :: (c ++ .clean t done :: d)))
    (h : HookOK hookSys0 es) (hf : ∀ e ∈ es, e.forked) (hb : ∀ st, .exit p st ∉ b) (hp : p ≠ 0)
    (hc : ∀ t done, .clean t done ∉ c) (hd : ∀ t' done, .clean t' done ∈ d → t' ≤ t + 300) :
    ∃ y, hookRun hookSys0 es = some y ∧
      some { kind, args, pid := p, created := now, finished := t, status := wexit st } ∈ y.tab.slots := by
  obtain ⟨y, h1, h2, -⟩ := C39_refines_partial h hf
  refine ⟨y, h1, ?_⟩
  have hj : (⟨kind, args, p, now, some st, some t⟩ : Job) ∈ jobRun [] es := by
    rw [hes, jobRun_append, jobRun, jobRun_append, jobRun, jobRun_append, jobRun]
    have j1 := jobRun_running b (J := jobStep (jobRun [] a) (.start kind args now (some p)))
      (List.mem_append_right _ (List.mem_singleton_self _)) rfl rfl hb
    generalize jobRun (jobStep (jobRun [] a) (.start kind args now (some p))) b = J1 at j1 ⊢
    have j2 : (⟨kind, args, p, now, some st, none⟩ : Job) ∈ jobStep J1 (.exit p st) :=
      List.mem_map.2 ⟨_, j1, if_pos ⟨rfl, rfl⟩⟩
    have j3 := jobRun_ended c j2 (by simp) hc
    generalize jobRun (jobStep J1 (.exit p st)) c = J3 at j3 ⊢
    refine jobRun_seen d ?_ (by simp) rfl hd
    simp only [jobStep]
    have hl : Job.live ⟨kind, args, p, now, some st, none⟩ = true := Job.live_iff.2 ⟨hp, rfl⟩
    rw [if_pos (List.any_eq_true.2 ⟨_, j3, hl⟩)]
    exact List.mem_map.2 ⟨_, j3, if_pos ⟨hl, rfl⟩⟩
  have := h2.mem_iff.2 (List.mem_map_of_mem (f := Job.line) hj)
  obtain ⟨x, hx, e⟩ := List.mem_filterMap.1 this
  simp only [id] at e
  rw [e] at hx
  exact hx

/-! ### examples -/

/-- Ten hooks (the table grows), two of which terminate in the other order; a cleanup, a later one. -/
def exHooks : List HookEv :=
  [.wait (str "ready") [str "id"] 100 (some 50) 101 0 none] ++
  (List.range 9).map (fun i => .start (str "jump-data") [str "id", str "d0", str "d1"] (110 + i) (some (60 + i))) ++
  [.exit 65 256, .exit 61 0, .clean 120 [(61, 0), (65, 256)], .clean 900 []]

/-- `HookOK` by calculation. -/
def hookGuardB (y : HookSys) : HookEv → Bool
  | .start _ _ _ fork => fork.all (fun p => decide (0 < p) && decide (p ≤ 2 ^ 22) && !(y.kids.map (·.1)).contains p)
  | .wait _ _ _ fork fin st got => decide (0 < fin) &&
    fork.all (fun p => decide (0 < p) && decide (p ≤ 2 ^ 22) && !(y.kids.map (·.1)).contains p) &&
    (fork.isSome || match got with
      | none => y.kids.isEmpty
      | some p => y.kids.contains (p, some st))
  | .exit pid _ => y.kids.contains (pid, none)
  | .clean now done => decide (0 < now) && done.isPerm (zombies y.kids)

def hookOKB : HookSys → List HookEv → Bool
  | _, [] => true
  | y, e :: es => hookGuardB y e && match hookStep y e with
    | none => true
    | some y' => hookOKB y' es

theorem hookGuardB_sound {y : HookSys} {e : HookEv} (h : hookGuardB y e = true) : HookGuard y e := by
  cases e with
  | start kind args now fork =>
    rintro p rfl
    simpa [hookGuardB, and_assoc] using h
  | wait kind args now fork fin st got =>
    simp only [hookGuardB, Bool.and_eq_true, decide_eq_true_eq] at h
    obtain ⟨⟨h1, h2⟩, h3⟩ := h
    refine ⟨h1, ?_, ?_⟩
    · rintro p rfl
      simpa [and_assoc] using h2
    · rintro rfl
      cases got with
      | none => exact .inl ⟨rfl, by simpa using h3⟩
      | some p => exact .inr ⟨p, rfl, by simpa using h3⟩
  | exit pid st =>
    show (pid, none) ∈ y.kids
    simpa [hookGuardB] using h
  | clean now done =>
    simp only [hookGuardB, Bool.and_eq_true, decide_eq_true_eq, List.isPerm_iff] at h
    exact h

theorem hookOKB_sound : ∀ {es : List HookEv} {y : HookSys}, hookOKB y es = true → HookOK y es
  | [], _, _ => trivial
  | e :: es, y, h => by
    simp only [hookOKB, Bool.and_eq_true] at h
    refine ⟨hookGuardB_sound h.1, fun y' hy => hookOKB_sound ?_⟩
    have h2 := h.2
    rw [hy] at h2
    exact h2

theorem exHooks_ok : HookOK hookSys0 exHooks ∧ ∀ e ∈ exHooks, e.forked := by
  refine ⟨hookOKB_sound (by decide +kernel), ?_⟩
  intro e he
  have : exHooks.all (fun e => match e with
    | .wait _ _ _ fork _ _ _ => fork.isSome
    | _ => true) = true := by decide +kernel
  have := List.all_eq_true.1 this e he
  cases e <;> first | trivial | exact this

/-- There the table has grown to 16 slots, the two ends are recorded. -/
theorem exHooks_table : (hookRun hookSys0 exHooks).map (fun y => (y.tab.slots.length, y.tab.active, y.tab.childwait,
    y.tab.slots.map (Option.map (fun h => (h.pid, h.finished, h.status))))) =
    some (16, 10, 7, [some (50, 101, 0), some (60, 0, 0), some (61, 120, 0), some (62, 0, 0), some (63, 0, 0), some (64, 0, 0),
      some (65, 120, 1), some (66, 0, 0), some (67, 0, 0), some (68, 0, 0), none, none, none, none, none, none]) := by
  rfl

/-! ### where the claim fails: the process of a hook that the server waits for cannot be created -/

/-- `waitpid(0)` takes the child of another hook: the exit status of hook 70 is recorded on the hook that never ran, and
    hook 70 stays listed as not finished. -/
theorem C39_status_refuted : ∃ es : List HookEv, HookOK hookSys0 es ∧
    (hookRun hookSys0 es).map (fun y => (y.kids, y.tab.slots.filterMap id)) = some ([],
      [⟨str "jump-data", [str "id", str "d0", str "d1"], 70, 100, 0, 0⟩,
       ⟨str "jump-index", [str "id", str "i0", str "i1", []], 0, 105, 106, 3⟩]) := by
  refine ⟨[.start (str "jump-data") [str "id", str "d0", str "d1"] 100 (some 70), .exit 70 768,
    .wait (str "jump-index") [str "id", str "i0", str "i1", []] 105 none 106 768 (some 70), .clean 110 []],
    hookOKB_sound (by decide +kernel), by decide +kernel⟩

/-- The counter of children is decremented though none was created, so it later is 0 while a hook runs; finished hooks
    before it are dropped, and the search for it dereferences an empty slot. -/
theorem C39_null_refuted : ∃ es : List HookEv, HookOK hookSys0 es ∧ hookRun hookSys0 es = none := by
  refine ⟨[.wait (str "ready") [str "id"] 100 (some 50) 101 0 none,
    .wait (str "missing-data") [str "id", str "d0"] 105 none 106 0 none,
    .start (str "namespace-created") [str "id", str "a"] 500 (some 70), .clean 510 [],
    .start (str "namespace-created") [str "id", str "b"] 520 (some 71), .exit 70 0, .clean 530 [(70, 0)]],
    hookOKB_sound (by decide +kernel), ?_⟩
  have : (hookRun hookSys0 [.wait (str "ready") [str "id"] 100 (some 50) 101 0 none,
    .wait (str "missing-data") [str "id", str "d0"] 105 none 106 0 none,
    .start (str "namespace-created") [str "id", str "a"] 500 (some 70), .clean 510 [],
    .start (str "namespace-created") [str "id", str "b"] 520 (some 71), .exit 70 0, .clean 530 [(70, 0)]]).isNone = true := by
    decide +kernel
  exact Option.isNone_iff_eq_none.1 this

/-! ### HOOKS -/

/-- C54: the answer to HOOKS announces as many hooks as it sends. -/
theorem C54_count_partial {es : List HookEv} (h : HookOK hookSys0 es) (hf : ∀ e ∈ es, e.forked) :
    ∃ y, ∃ L : List Hook, hookRun hookSys0 es = some y ∧ L.Perm ((jobRun [] es).map Job.line) ∧
      hooksText y.tab = 42 :: decBytes L.length ++ [13, 10] ++ L.flatMap hookText := by
  obtain ⟨y, h1, h2, h3⟩ := C39_refines_partial h hf
  exact ⟨y, _, h1, h2, by rw [hooksText, h3]⟩

/-- What HOOKS tells about a hook: kind, arguments after the first one, process id, time of start, time of end, status. -/
def hookValue (h : Hook) : Wire.Value :=
  .array [.bulk h.kind, .array (h.args.tail.map .bulk), .int h.pid, .int h.created, .int h.finished, .int h.status]

theorem readValue_num (d n : Nat) (s : Bytes) :
    Wire.readValue (d + 1) ((58 :: decBytes n ++ [13, 10]) ++ s) = some (.int n, s) := by
  have := Wire.readValue_int d n s
  rwa [Wire.decInt, if_neg (by omega), Int.natAbs_natCast] at this

theorem readMany_bulks (d : Nat) (l : List Bytes) (s : Bytes) :
    Wire.readMany (Wire.readValue (d + 1)) l.length (l.flatMap bulkText ++ s) = some (l.map .bulk, s) := by
  induction l with
  | nil => rfl
  | cons b l ih =>
    have e : bulkText b = Wire.encBulk b := by simp [bulkText, Wire.encBulk, Wire.crlf, List.append_assoc]
    rw [List.length_cons, Wire.readMany, List.flatMap_cons, List.append_assoc, e, Wire.readValue_bulk]
    dsimp only
    rw [ih]
    rfl

theorem readValue_hook (d : Nat) (h : Hook) (s : Bytes) :
    Wire.readValue (d + 3) (hookText h ++ s) = some (hookValue h, s) := by
  have e6 : ([42, 54, 13, 10] : Bytes) = Wire.encHead 6 := by decide
  have eh : 42 :: decBytes (h.args.length - 1) ++ [13, 10] = Wire.encHead (h.args.drop 1).length := by
    simp [Wire.encHead, Wire.crlf]
  have ek : bulkText h.kind = Wire.encBulk h.kind := by simp [bulkText, Wire.encBulk, Wire.crlf, List.append_assoc]
  have et : h.args.tail = h.args.drop 1 := by simp
  unfold hookText hookValue
  rw [et, e6, eh, ek]
  simp only [List.append_assoc]
  rw [Wire.readValue_head]
  have step : ∀ {f : Bytes → Option (Wire.Value × Bytes)} {n : Nat} {x y : Bytes} {v : Wire.Value} {l : List Wire.Value},
      f x = some (v, y) → Wire.readMany f n y = some (l, s) → Wire.readMany f (n + 1) x = some (v :: l, s) := by
    intro f n x y v l h1 h2
    rw [Wire.readMany, h1]
    dsimp only
    rw [h2]
  have num : ∀ (n : Nat) (s : Bytes), Wire.readValue (d + 2) (58 :: decBytes n ++ ([13, 10] ++ s)) = some (.int n, s) := by
    intro n s
    have := readValue_num (d + 1) n s
    rwa [List.append_assoc] at this
  rw [step (Wire.readValue_bulk (d + 1) h.kind _) (step (v := .array ((h.args.drop 1).map .bulk)) ?_ (step (num h.pid _)
    (step (num h.created _) (step (num h.finished _) (step (num h.status _) rfl)))))]
  · rfl
  · rw [Wire.readValue_head, readMany_bulks]
    rfl

theorem readMany_hooks (d : Nat) (L : List Hook) (s : Bytes) :
    Wire.readMany (Wire.readValue (d + 3)) L.length (L.flatMap hookText ++ s) = some (L.map hookValue, s) := by
  induction L with
  | nil => rfl
  | cons h L ih =>
    rw [List.length_cons, Wire.readMany, List.flatMap_cons, List.append_assoc, readValue_hook]
    dsimp only
    rw [ih]
    rfl

/-- C54: a client reads the answer to HOOKS as a list of all hooks that were started and not dropped, each with its
    data, and nothing is left over. -/
theorem C54_read_partial {es : List HookEv} (h : HookOK hookSys0 es) (hf : ∀ e ∈ es, e.forked) :
    ∃ y, ∃ L : List Hook, hookRun hookSys0 es = some y ∧ L.Perm ((jobRun [] es).map Job.line) ∧
      Wire.decode (hooksText y.tab) = ([.array (L.map hookValue)], []) := by
  obtain ⟨y, L, h1, h2, h3⟩ := C54_count_partial h hf
  refine ⟨y, L, h1, h2, ?_⟩
  have e : hooksText y.tab = Wire.encHead L.length ++ L.flatMap hookText := by
    rw [h3]; simp [Wire.encHead, Wire.crlf, List.append_assoc]
  have hr : Wire.readValue 4 (hooksText y.tab) = some (.array (L.map hookValue), []) := by
    rw [e, Wire.readValue_head]
    have := readMany_hooks 0 L []
    rw [List.append_nil] at this
    rw [this]; rfl
  have hl : (hooksText y.tab).length = (L.flatMap hookText ++ decBytes L.length).length + 2 + 1 := by
    rw [h3]; simp; omega
  rw [Wire.decode, hl, Wire.readAll, hr]
  dsimp only
  rw [Wire.readAll_nil]

theorem hooksText_le {L : List Hook} (h : ∀ x ∈ L, (hookText x).length ≤ 1024) : (L.flatMap hookText).length ≤ L.length * 1024 := by
  induction L with
  | nil => simp
  | cons a L ih =>
    have h1 := h a (List.mem_cons_self ..)
    have h2 := ih (fun n hn => h n (List.mem_cons_of_mem _ hn))
    simp only [List.flatMap_cons, List.length_append, List.length_cons, Nat.add_mul]
    omega

/-- C54: it fits its buffer, final NUL included, if each hook takes at most 1024 bytes (and there are less than 10^1000). -/
theorem C54_fits_partial {es : List HookEv} (h : HookOK hookSys0 es) (hf : ∀ e ∈ es, e.forked) :
    ∃ y, hookRun hookSys0 es = some y ∧
      ((∀ x ∈ y.tab.slots.filterMap id, (hookText x).length ≤ 1024) → y.tab.active < 10 ^ 1000 →
        (hooksText y.tab).length + 1 ≤ hooksBuffer y.tab) := by
  obtain ⟨y, h1, h2, h3⟩ := C39_refines_partial h hf
  refine ⟨y, h1, fun h4 h5 => ?_⟩
  have h6 := hooksText_le h4
  have h7 : (decBytes y.tab.active).length ≤ 1000 := by
    unfold decBytes
    rw [List.length_map]
    exact (Nat.length_toDigits_le_iff (by decide) (by decide)).2 h5
  unfold hooksText hooksBuffer
  rw [← h3] at h6
  generalize List.flatMap _ _ = X at h6 ⊢
  simp only [List.length_cons, List.length_append, List.length_nil]
  omega

/-- The list of modified files as given to the hook, `index_dirty_list_generate`, libzdb/index.c:308-335. -/
def dirtyArg (L : List Nat) : Bytes := (L.flatMap (fun n => decBytes n ++ [32])).dropLast

/-- The argument of a hook can be longer: a jump when 1000 files are modified (the hook of each earlier jump having
    failed) makes the answer longer than its buffer. -/
theorem C54_refuted : ∃ es : List HookEv, HookOK hookSys0 es ∧ (∀ e ∈ es, e.forked) ∧
    ∃ y, hookRun hookSys0 es = some y ∧ hooksBuffer y.tab < (hooksText y.tab).length := by
  refine ⟨[.wait (str "jump-index") [str "id", str "i1000", str "i1001", dirtyArg (List.range 1000)] 100 (some 50) 101 256 none],
    hookOKB_sound (by decide +kernel), ?_, _, rfl, by decide +kernel⟩
  intro e he
  rw [List.mem_singleton] at he
  subst he
  rfl

end Zdb
