/-
Properties of user-key namespaces: C01, C02, C07, C08, C17, C23, C26, C46, C47, C49.
-/
import Verif.Lemmas.UserRun
import Verif.Lemmas.UserSpec
import Verif.Lemmas.DataExt
import Verif.Spec.Example
namespace Zdb

/-! ### the executions exist: a concrete one used in the examples below -/

theorem exCmds_args : ∀ x ∈ exCmds, ArgsOK x.2.2 := by
  intro x hx
  simp only [exCmds, List.mem_cons, List.not_mem_nil, or_false] at hx
  rcases hx with rfl | rfl | rfl | rfl | rfl | rfl | rfl | rfl
  all_goals exact ⟨⟨_, _, rfl, by decide⟩, by decide⟩

theorem mem_traceOf {br : Branches} {s : Store} {l : List (Ctx × DsCmd × List Bytes)} {x : NsEvent × Reply}
    (h : x ∈ traceOf br s l) : ∃ y ∈ l, x.1 = .cmd y.1 y.2.1 y.2.2 := by
  induction l generalizing br s with
  | nil => simp [traceOf] at h
  | cons z l ih =>
    obtain ⟨c, d, argv⟩ := z
    simp only [traceOf, List.mem_cons] at h
    rcases h with rfl | h
    · exact ⟨_, List.mem_cons_self .., rfl⟩
    · obtain ⟨y, hy, he⟩ := ih h
      exact ⟨y, List.mem_cons_of_mem _ hy, he⟩

theorem traceOf_length (br : Branches) (s : Store) (l : List (Ctx × DsCmd × List Bytes)) :
    (traceOf br s l).length = l.length := by
  induction l generalizing br s with
  | nil => rfl
  | cons z l ih => obtain ⟨c, d, argv⟩ := z; simp [traceOf, ih]

theorem userRun_of_cmds (l : List (Ctx × DsCmd × List Bytes)) (hu : ∀ x ∈ l, x.1.u = 7)
    (hc : ∀ x ∈ l, CtxOK x.1) (ha : ∀ x ∈ l, ArgsOK x.2.2) (hl : l.length ≤ maxEvents) :
    UserRun none 7 (traceOf (fun _ => []) (freshStore .user) l)
      (runCmds (fun _ => []) (freshStore .user) l).1 (runCmds (fun _ => []) (freshStore .user) l).2.1 where
  hcfg := Or.inl rfl
  run := ⟨fun _ => [], fun _ => [], freshStore .user, fun _ => rfl, freshNs_eq none _ 7, runCmds_run none 7 l hu _ _⟩
  ev := by
    intro x hx
    obtain ⟨y, hy, he⟩ := mem_traceOf hx
    rw [he]; exact ⟨hc y hy, ha y hy⟩
  len := by rw [traceOf_length]; exact hl

/-- A test for the conditions of `EvOK`. -/
def okCmd (x : Ctx × DsCmd × List Bytes) : Bool :=
  x.1.u == 7 && x.1.io.iapp.isNone && x.1.io.iflag.isNone && x.1.io.iover.isNone &&
  decide (x.1.limit ≤ 2 ^ 31) && decide (x.1.conf.maxsize < 2 ^ 63) &&
  (match x.2.2 with
   | [] => false
   | n :: _ => !n.isEmpty) && x.2.2.all (fun b => decide (b.length ≤ 2 ^ 23))

theorem okCmd_ok {x : Ctx × DsCmd × List Bytes} (h : okCmd x = true) : x.1.u = 7 ∧ CtxOK x.1 ∧ ArgsOK x.2.2 := by
  obtain ⟨c, d, argv⟩ := x
  simp only [okCmd, Bool.and_eq_true, beq_iff_eq, Option.isNone_iff_eq_none, decide_eq_true_eq, List.all_eq_true] at h
  obtain ⟨⟨⟨⟨⟨⟨⟨h1, h2⟩, h3⟩, h4⟩, h5⟩, h6⟩, h7⟩, h8⟩ := h
  refine ⟨h1, ⟨h2, h3, h4, h5, h6⟩, ⟨?_, h8⟩⟩
  cases argv with
  | nil => cases h7
  | cons n rest => exact ⟨n, rest, rfl, by simpa using h7⟩

/-- A concrete execution of commands checked by evaluation. -/
theorem userRun_ok (l : List (Ctx × DsCmd × List Bytes)) (h : l.all okCmd = true) (hl : l.length ≤ maxEvents) :
    UserRun none 7 (traceOf (fun _ => []) (freshStore .user) l)
      (runCmds (fun _ => []) (freshStore .user) l).1 (runCmds (fun _ => []) (freshStore .user) l).2.1 := by
  rw [List.all_eq_true] at h
  exact userRun_of_cmds l (fun x hx => (okCmd_ok (h x hx)).1) (fun x hx => (okCmd_ok (h x hx)).2.1)
    (fun x hx => (okCmd_ok (h x hx)).2.2) hl

theorem exRun : UserRun none 7 (traceOf (fun _ => []) (freshStore .user) exCmds)
    (runCmds (fun _ => []) (freshStore .user) exCmds).1 (runCmds (fun _ => []) (freshStore .user) exCmds).2.1 :=
  userRun_of_cmds exCmds (by decide)
    (by
      intro x hx
      simp only [exCmds, List.mem_cons, List.not_mem_nil, or_false] at hx
      rcases hx with rfl | rfl | rfl | rfl | rfl | rfl | rfl | rfl
      all_goals exact exCtx_ok)
    exCmds_args (by decide)

set_option maxRecDepth 100000 in
/-- The replies of the concrete execution. -/
example : (runCmds (fun _ => []) (freshStore .user) exCmds).2.2 =
    [.bulk (str "a"), .bulk (str "b"), .ok, .bulk (str "a"), .ok, .bulk (str "three"), .nil, .int 1] := rfl

/-! ### C01 -/

/-- C01: the replies of an execution are those of the map. -/
theorem C01_replies_are_those_of_a_map {cfg : Option Mode} {u : Nat} {tr : List (NsEvent × Reply)}
    {br' : Branches} {s' : Store} (h : UserRun cfg u tr br' s') : Agrees [] tr := by
  obtain ⟨G, -, -, ha⟩ := h.inv
  exact ha

/-- C01, in terms of requests and replies only: a GET of a key of 1 to 255 bytes (namespace not
    frozen) returns the payload of the last acknowledged SET of this key not followed by an
    acknowledged DEL, and nil if there is none. -/
theorem C01_get_returns_last_acknowledged_set {cfg : Option Mode} {u : Nat}
    {tr : List (NsEvent × Reply)} {br' : Branches} {s' : Store} {c : Ctx} {name k : Bytes} {r : Reply}
    (h : UserRun cfg u (tr ++ [(.cmd c .get [name, k], r)]) br' s')
    (hk : k ≠ []) (hk2 : k.length ≤ 255) (hz : c.conf.lock ≠ .frozen) :
    r = match lastWrite k tr with
      | some p => .bulk p
      | none => .nil := by
  obtain ⟨G, -, -, ha⟩ := h.inv
  rw [agrees_append] at ha
  have hg := agrees_get [] tr ha.1 k
  have hr := ha.2.1 _ rfl
  simp only [specEvent, specCmd, specRead, if_neg hk, if_neg (Nat.not_lt.2 hk2), if_neg hz] at hr
  rw [hr]
  change _ = lastWrite k tr at hg
  rw [← hg]
  cases (specRun [] (tr.map (·.1))).get k <;> rfl

/-- A concrete case. -/
theorem C01_lastWrite_example :
    lastWrite (str "a") (traceOf (fun _ => []) (freshStore .user) exCmds) = some (str "three") ∧
    lastWrite (str "b") (traceOf (fun _ => []) (freshStore .user) exCmds) = none := by
  decide +kernel

/-! ### C02 -/

/-- C02 (1): reloading after any execution succeeds. -/
theorem C02_reload_succeeds {cfg : Option Mode} {u : Nat} {tr : List (NsEvent × Reply)}
    {br' : Branches} {s' : Store} (h : UserRun cfg u tr br' s') (hlen : tr.length < maxEvents) :
    ∃ br'' s'', reloadNs cfg br' u s' = .ok br'' s'' ∧ UserRun cfg u (tr ++ [(.reload, .ok)]) br'' s'' ∧
      s''.ifiles = s'.ifiles ∧ s''.dfiles = s'.dfiles := by
  obtain ⟨G, hi, -, -⟩ := h.inv
  obtain ⟨br'', s'', h1, -, h3, h4, -⟩ := hi.reload cfg h.hcfg (h.room hi hlen)
  exact ⟨br'', s'', h1, h.reload hlen h1, h3, h4⟩

/-- C02 (2): two executions with the same commands give the same replies, wherever restarts happened
    (cursor commands excepted, see Props/Scan). -/
theorem C02_restarts_are_invisible {cfg : Option Mode} {u u' : Nat} {tr tr' : List (NsEvent × Reply)}
    {br br' : Branches} {s s' : Store} (h : UserRun cfg u tr br s) (h' : UserRun cfg u' tr' br' s')
    (hc : cmdsOf tr = cmdsOf tr') : visible tr = visible tr' := by
  obtain ⟨G, -, -, ha⟩ := h.inv
  obtain ⟨G', -, -, ha'⟩ := h'.inv
  rw [visible_eq [] tr ha, visible_eq [] tr' ha', hc]

/-! ### C07 -/

/-- C07: the number of entries and the total size kept in memory (and shown by DBSIZE and NSINFO) are
    the number of keys that GET finds and the sum of the lengths of their payloads. -/
theorem C07_counters_are_exact {cfg : Option Mode} {u : Nat} {tr : List (NsEvent × Reply)}
    {br' : Branches} {s' : Store} (h : UserRun cfg u tr br' s') (c : Ctx) (hc : c.u = u) :
    ∃ keys : List (Bytes × Bytes), (keys.map (·.1)).Nodup ∧
      (∀ k p, (k, p) ∈ keys ↔ getSingle c br' s' k = .bulk p) ∧
      cmdDbsize s' = .int keys.length ∧ s'.datasize = (keys.map (·.2.length)).sum := by
  obtain ⟨G, hi, -, -⟩ := h.inv
  subst hc
  refine ⟨(absKV G).map (fun x => (x.1, x.2.payload)), ?_, ?_, ?_, ?_⟩
  · rw [List.map_map]; exact absKV_nodup hi
  · intro k p
    rw [getSingle_spec hi, List.mem_map]
    constructor
    · rintro ⟨⟨k', v⟩, hm, he⟩
      injection he with he1 he2
      subst he1; subst he2
      rw [(KV.mem_iff_get (absKV_nodup hi)).1 hm]; rfl
    · intro hg
      cases hv : (absKV G).get k with
      | none => rw [hv] at hg; simp [replyGet] at hg
      | some v =>
        rw [hv] at hg
        simp only [replyGet, Reply.bulk.injEq] at hg
        exact ⟨(k, v), (KV.mem_iff_get (absKV_nodup hi)).2 hv, by rw [← hg]⟩
  · rw [cmdDbsize, hi.entries_eq]; simp
  · rw [hi.total_eq, KV.total, List.map_map]; rfl

/-! ### C08 -/

/-- C08 (1): a SET of a new or existing key that passes the other checks is refused exactly if the
    total payload afterwards would exceed the quota. -/
theorem C08_set_refused_iff_over_quota {cfg : Option Mode} {u : Nat} {tr : List (NsEvent × Reply)}
    {br' : Branches} {s' : Store} {c : Ctx} {name k p : Bytes} {r : Reply}
    (h : UserRun cfg u (tr ++ [(.cmd c .set [name, k, p], r)]) br' s')
    (hk2 : k.length ≤ 255) (hw : c.writable = true) (hl : c.conf.lock = .unlocked)
    (hworm : c.conf.worm = false) :
    r = .err "No space left on this namespace" ↔
      c.conf.maxsize ≠ 0 ∧
      ((specRun [] (tr.map (·.1))).del k).total + p.length > c.conf.maxsize := by
  obtain ⟨G, -, -, ha⟩ := h.inv
  rw [agrees_append] at ha
  have hn := specRun_nodup [] (tr.map (·.1)) List.nodup_nil
  have hr := ha.2.1 _ rfl
  rw [KV.total_del _ _ hn]
  generalize specRun [] (tr.map (·.1)) = m at hr
  simp only [specEvent, specCmd, specSet, if_neg (Nat.not_lt.2 hk2), writeRefusal, hw, hl, hworm] at hr
  simp only [Bool.not_true, Bool.false_eq_true, if_false, Bool.and_false] at hr
  constructor
  · intro he
    rw [hr] at he
    by_cases hq : c.conf.maxsize ≠ 0 ∧ m.total - m.sizeOf k + p.length > c.conf.maxsize
    · exact hq
    · rw [if_neg hq] at he
      split at he
      · simp at he
      · split at he
        · simp at he
        · split at he <;> simp at he
  · intro hq
    rw [hr, if_pos hq]

/-- C08 (2): with a constant quota the total payload never exceeds it. -/
theorem C08_total_within_quota {cfg : Option Mode} {u : Nat} {tr : List (NsEvent × Reply)}
    {br' : Branches} {s' : Store} (h : UserRun cfg u tr br' s') (q : Nat) (hq : q ≠ 0)
    (hall : ∀ x ∈ tr, ∀ c d argv, x.1 = .cmd c d argv → c.conf.maxsize = q) : s'.datasize ≤ q := by
  obtain ⟨G, hi, hG, -⟩ := h.inv
  rw [hi.total_eq, hG]
  exact specRun_quota q hq [] _ List.nodup_nil (Nat.zero_le _) (fun e he c d argv hx => by
    obtain ⟨x, hx1, hx2⟩ := List.mem_map.1 he
    exact hall x hx1 c d argv (by rw [hx2, hx]))

/-! ### C17 -/

/-- C17 (user mode): between two moments of an execution every data file only grows at its end, and
    only the file which was current can grow. -/
theorem C17_data_files_append_only {cfg : Option Mode} {u : Nat} {tr tr' : List (NsEvent × Reply)}
    {br br' : Branches} {s s' : Store} (h : UserRun cfg u tr br s) (h' : NsRun cfg u br s tr' br' s')
    (hev : ∀ x ∈ tr', EvOK x.1) (hlen : tr.length + tr'.length ≤ maxEvents) :
    ∀ (i : Nat) (f : Bytes), s.dfiles[i]? = some f →
      ∃ x, s'.dfiles[i]? = some (f ++ x) ∧ (i + 1 < s.dfiles.length → x = []) := by
  have key : DataExt s s' := by
    induction h' generalizing tr with
    | nil => exact DataExt.refl _
    | @cmd c d argv br br1 br2 s s1 s2 r tr' hu h1 h2 ih =>
      obtain ⟨G, hi, -, -⟩ := h.inv
      have hx := hev _ (List.mem_cons_self ..)
      simp only [List.length_cons] at hlen
      have hcap := h.room hi (by omega)
      have hid := hi.iid
      have hil := hi.irep.length
      have hs : InStep s := ⟨by rw [hi.dlen, hi.did]; omega, by omega, hi.did⟩
      have he := dsCommand_ext c br hs (by omega) d argv
      rw [h1] at he
      refine he.ext.trans (ih (h.snoc (by omega) hx (.cmd c d argv hu h1 (.nil _ _)))
        (fun x hx => hev x (List.mem_cons_of_mem _ hx)) (by simp; omega))
    | @foreign br br1 br2 s s2 tr' h1 h2 ih =>
      simp only [List.length_cons] at hlen
      exact ih (h.snoc (x := (.foreign, .nil)) (by omega) trivial (.foreign h1 (.nil _ _)))
        (fun x hx => hev x (List.mem_cons_of_mem _ hx)) (by simp; omega)
    | @reload br br1 br2 s s1 s2 tr' h1 h2 ih =>
      simp only [List.length_cons] at hlen
      obtain ⟨br'', s'', k1, k2, k3, k4⟩ := C02_reload_succeeds h (by omega)
      rw [h1] at k1
      injection k1 with k1 k1'
      subst k1; subst k1'
      obtain ⟨G, hi, -, -⟩ := h.inv
      obtain ⟨G', hi', -, -⟩ := k2.inv
      have hsame : s.dataid = s1.dataid := by
        have a1 := hi.iid
        have a2 := hi'.iid
        have a3 := hi.dlen
        have a4 := hi'.dlen
        have a5 := hi.did
        have a6 := hi'.did
        rw [k4] at a4
        omega
      refine DataExt.trans (t := s1) ⟨by omega, fun i f hf => ⟨[], by rw [k4]; simpa using hf, fun _ => rfl⟩⟩ ?_
      exact ih (h.snoc (x := (.reload, .ok)) (by omega) trivial (.reload h1 (.nil _ _)))
        (fun x hx => hev x (List.mem_cons_of_mem _ hx)) (by simp; omega)
  intro i f hf
  obtain ⟨G, hi, -, -⟩ := h.inv
  obtain ⟨x, hx, hx0⟩ := key.2 i f hf
  refine ⟨x, hx, fun hlt => hx0 ?_⟩
  have a1 := hi.iid
  have a3 := hi.dlen
  have a5 := hi.did
  omega

/-! ### C23 -/

/-- C23 (1): there are as many index files as data files and the last ones are the current ones. -/
theorem C23_files_in_step {cfg : Option Mode} {u : Nat} {tr : List (NsEvent × Reply)}
    {br : Branches} {s : Store} (h : UserRun cfg u tr br s) :
    s.ifiles.length = s.dfiles.length ∧ s.indexid + 1 = s.ifiles.length ∧ s.dataid + 1 = s.dfiles.length := by
  obtain ⟨G, hi, -, -⟩ := h.inv
  have a1 := hi.iid
  have a2 := hi.irep.length
  have a3 := hi.dlen
  have a5 := hi.did
  omega

/-- C23 (2): after an acknowledged SET the payload is at the end of the data file which is current. -/
theorem C23_payload_in_current_file {cfg : Option Mode} {u : Nat} {tr : List (NsEvent × Reply)}
    {br br' : Branches} {s s' : Store} (h : UserRun cfg u tr br s) (hlen : tr.length < maxEvents)
    {c : Ctx} {name k p k' : Bytes} (hs : dsCommand c br s .set [name, k, p] = (br', s', .bulk k')) :
    ∃ f, s'.dfiles[s'.dataid]? = some (f ++ p) := by
  obtain ⟨G, hi, -, -⟩ := h.inv
  have hcap := h.room hi hlen
  have hid := hi.iid
  have hil := hi.irep.length
  have hst : InStep s := ⟨by rw [hi.dlen, hi.did]; omega, by omega, hi.did⟩
  have he := (cmdSet_body_ext c br hst (by omega) [name, k, p] k p).2
  simp only [dsCommand, cmdSet] at hs
  rw [hs] at he
  obtain ⟨hh, f, hf⟩ := he k' rfl
  exact ⟨f ++ (encDHdr hh ++ k'), by rw [hf]; simp⟩

/-! ### C26 -/

/-- C26 (daemon, user mode): a SET is answered nil (nothing stored) only if GET returns exactly
    the payload given. -/
theorem C26_set_skipped_only_if_identical {cfg : Option Mode} {u : Nat} {tr : List (NsEvent × Reply)}
    {br : Branches} {s : Store} (h : UserRun cfg u tr br s) (hlen : tr.length < maxEvents)
    {c : Ctx} (hcu : c.u = u) (hc : CtxOK c) {name k p : Bytes} (ha : ArgsOK [name, k, p])
    (hs : (dsCommand c br s .set [name, k, p]).2.2 = .nil) : getSingle c br s k = .bulk p := by
  obtain ⟨G, hi, -, -⟩ := h.inv
  subst hcu
  generalize hcall : dsCommand c br s .set [name, k, p] = x at hs
  obtain ⟨br1, s1, r⟩ := x
  simp only at hs
  subst hs
  have hx := h.snoc (x := (.cmd c .set [name, k, p], _)) hlen ⟨hc, ha⟩
    (.cmd c .set [name, k, p] rfl hcall (.nil _ _))
  obtain ⟨G2, -, hG2, ha2⟩ := hx.inv
  obtain ⟨G1, hi1, hG1, ha1⟩ := h.inv
  rw [agrees_append] at ha2
  have hr := ha2.2.1 _ rfl
  rw [← hG1] at hr
  rw [getSingle_spec hi1]
  simp only [specEvent, specCmd, specSet] at hr
  split at hr
  · simp at hr
  · split at hr
    · simp at hr
    · split at hr
      · simp at hr
      · split at hr
        · simp at hr
        · split at hr
          · simp at hr
          · split at hr
            · rename_i hp
              rw [Option.map_eq_some_iff] at hp
              obtain ⟨v, hv, rfl⟩ := hp
              rw [hv]; rfl
            · split at hr <;> simp at hr

set_option maxRecDepth 100000 in
/-- The case happens: storing the same payload twice. -/
example : (runCmds (fun _ => []) (freshStore .user)
    [(exCtx, .set, [str "SET", str "a", str "one"]), (exCtx, .set, [str "SET", str "a", str "one"])]).2.2 =
    [.bulk (str "a"), .nil] := rfl

/-! ### C46, C49 -/

theorem specReplies_filter (m : KV) (l : List (Ctx × DsCmd × List Bytes)) (q : DsCmd → Bool)
    (hq : ∀ d, q d = false → d.writes = false) :
    specReplies m (l.filter (fun x => q x.2.1)) = (specReplies m l).filter (fun x => q x.1.2.1) := by
  induction l generalizing m with
  | nil => rfl
  | cons x l ih =>
    obtain ⟨c, d, argv⟩ := x
    by_cases hd : q d = true
    · rw [List.filter_cons_of_pos (by exact hd)]
      simp only [specReplies]
      cases hx : (specCmd c m d argv).2 with
      | none => simp only [ih]
      | some r => simp only [ih]; rw [List.filter_cons_of_pos (by exact hd)]
    · have hd' : q d = false := by simpa using hd
      rw [List.filter_cons_of_neg (by simp [hd'])]
      simp only [specReplies]
      rw [specCmd_fst_of_not_writes c m d argv (hq d hd')]
      cases hx : (specCmd c m d argv).2 with
      | none => simp only [ih]
      | some r => simp only [ih]; rw [List.filter_cons_of_neg (by simp [hd'])]

/-- C46 (user mode, SCAN excepted): two executions which differ only in NSJUMP commands (and restarts) give
    the same replies to all other commands. -/
theorem C46_jumps_are_invisible {cfg : Option Mode} {u u' : Nat} {tr tr' : List (NsEvent × Reply)}
    {br br' : Branches} {s s' : Store} (h : UserRun cfg u tr br s) (h' : UserRun cfg u' tr' br' s')
    (hc : (cmdsOf tr).filter (fun x => x.2.1 != .nsjump) = (cmdsOf tr').filter (fun x => x.2.1 != .nsjump)) :
    (visible tr).filter (fun x => x.1.2.1 != .nsjump) = (visible tr').filter (fun x => x.1.2.1 != .nsjump) := by
  obtain ⟨G, -, -, ha⟩ := h.inv
  obtain ⟨G', -, -, ha'⟩ := h'.inv
  rw [visible_eq [] tr ha, visible_eq [] tr' ha']
  have hq : ∀ d : DsCmd, (d != .nsjump) = false → d.writes = false := by
    intro d hd; cases d <;> simp_all [DsCmd.writes]
  have e1 := specReplies_filter [] (cmdsOf tr) (· != .nsjump) hq
  have e2 := specReplies_filter [] (cmdsOf tr') (· != .nsjump) hq
  rw [← e1, ← e2, hc]

/-- C49 (1): in any state of any namespace, commands other than SET, DEL, NSJUMP and INDEX change neither files
    nor memory. -/
theorem C49_reads_change_nothing (c : Ctx) (br : Branches) (s : Store) (d : DsCmd) (argv : List Bytes)
    (hd : d ≠ .set ∧ d ≠ .del ∧ d ≠ .nsjump ∧ d ≠ .index) :
    (dsCommand c br s d argv).1 = br ∧ (dsCommand c br s d argv).2.1 = s := by
  cases d <;> simp [dsCommand] at hd ⊢

/-- C49 (2): two executions of a user-key namespace with the same SETs and DELs give the same replies to
    them, whatever else was asked in between. -/
theorem C49_only_writes_matter {cfg : Option Mode} {u u' : Nat} {tr tr' : List (NsEvent × Reply)}
    {br br' : Branches} {s s' : Store} (h : UserRun cfg u tr br s) (h' : UserRun cfg u' tr' br' s')
    (hc : writesOf (cmdsOf tr) = writesOf (cmdsOf tr')) :
    (visible tr).filter (fun x => x.1.2.1.writes) = (visible tr').filter (fun x => x.1.2.1.writes) := by
  obtain ⟨G, -, -, ha⟩ := h.inv
  obtain ⟨G', -, -, ha'⟩ := h'.inv
  rw [visible_eq [] tr ha, visible_eq [] tr' ha']
  have e1 := specReplies_filter [] (cmdsOf tr) DsCmd.writes (fun d hd => hd)
  have e2 := specReplies_filter [] (cmdsOf tr') DsCmd.writes (fun d hd => hd)
  unfold writesOf at hc
  rw [← e1, ← e2, hc]

/-! ### C47 -/

/-- C47: in any state of any namespace, MGET of one or more keys of 1 to 255 bytes is the array of the
    replies of GET (namespace not frozen). -/
theorem C47_mget_is_a_list_of_gets (c : Ctx) (br : Branches) (s : Store) (name name' : Bytes)
    (ks : List Bytes) (hn : name' ≠ []) (hks : ks ≠ []) (hk : ∀ k ∈ ks, k ≠ [] ∧ k.length ≤ 255)
    (hz : c.conf.lock ≠ .frozen) :
    (dsCommand c br s .mget (name :: ks)).2.2 =
      .arr (ks.map (fun k => (dsCommand c br s .get [name', k]).2.2)) := by
  have hg : ∀ k ∈ ks, cmdGet c br s [name', k] = getSingle c br s k := by
    intro k hkm
    obtain ⟨h1, h2⟩ := hk k hkm
    have hz' : (c.conf.lock == .frozen) = false := by simpa using hz
    simp [cmdGet, readChecks, argsValidate, h1, hn, NsConf.isFrozen, hz', Nat.not_lt.2 h2]
  obtain ⟨k, rest, rfl⟩ : ∃ k rest, ks = k :: rest := by
    cases ks with
    | nil => exact absurd rfl hks
    | cons k rest => exact ⟨k, rest, rfl⟩
  simp only [dsCommand, cmdMget]
  have hany : (k :: rest).any (fun k => decide (k.length > 255)) = false := by
    rw [List.any_eq_false]
    intro x hx
    have := (hk x hx).2
    simpa using this
  have hz' : c.conf.isFrozen = false := by unfold NsConf.isFrozen; simpa using hz
  simp only [hany, hz', Bool.false_eq_true, if_false]
  congr 1
  exact List.map_congr_left (fun x hx => (hg x hx).symm)

set_option maxRecDepth 100000 in
/-- A concrete case. -/
example : (runCmds (fun _ => []) (freshStore .user)
    [(exCtx, .set, [str "SET", str "a", str "one"]), (exCtx, .mget, [str "MGET", str "a", str "b"])]).2.2 =
    [.bulk (str "a"), .arr [.bulk (str "one"), .nil]] := rfl

end Zdb
