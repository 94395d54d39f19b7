/-
C02: what a restart changes in the replies of a user-key namespace, and what not.
-/
import Verif.Lemmas.Twin
import Verif.Props.UserMap
import Verif.Props.DataLog
import Verif.Lemmas.History
import Verif.Props.Isolation
import Verif.Props.Scan
namespace Zdb

/-! ### commands that walk over the index -/

theorem cursorPos_files {s t : Store} (h : s.ifiles = t.ifiles) (k : BKey) : cursorPos s k = cursorPos t k := by
  simp only [cursorPos, itemGetDisk, h]

theorem cursorOverrun_files {s t : Store} (h : s.ifiles = t.ifiles) (k : BKey) : cursorOverrun s k = cursorOverrun t k := by
  simp only [cursorOverrun, itemGetDisk, h]

theorem scanWith_files {s t : Store} (h : s.ifiles = t.ifiles) (c : Ctx) (first : Walk) (walk : Nat → Nat → Walk)
    (argv : List Bytes) : scanWith c s first walk argv = scanWith c t first walk argv := by
  unfold scanWith
  simp only [cursorPos_files h, cursorOverrun_files h]

theorem Twin.scan {s t : Store} (h : Twin s t) (c : Ctx) (argv : List Bytes) : cmdScan c s argv = cmdScan c t argv := by
  unfold cmdScan
  rw [h.ifiles, scanWith_files h.ifiles]

theorem Twin.rscan {s t : Store} (h : Twin s t) (c : Ctx) (argv : List Bytes) : cmdRscan c s argv = cmdRscan c t argv := by
  unfold cmdRscan lastHeader
  rw [h.ifiles, h.iid, h.iprev, scanWith_files h.ifiles]

theorem UInv.sameKeycur {br b : Branches} {c : Ctx} {s t : Store} {G G' : Log} (h : UInv br c.u s G) (h' : UInv b c.u t G')
    (he : s.ifiles = t.ifiles) (argv : List Bytes) : cmdKeycur c br s argv = cmdKeycur c b t argv := by
  unfold cmdKeycur
  simp only [h.sameGet h' he]

/-- An execution gives the replies of the execution with the same commands and no restarts. -/
theorem NsRun.follow {cfg : Option Mode} (hcfg : cfg = none ∨ cfg = some .user) {u : Nat} {br br' : Branches}
    {s s' : Store} {tr : List (NsEvent × Reply)} (hr : NsRun cfg u br s tr br' s') {b : Branches} {t : Store}
    (h : Sim u br s b t) (hev : ∀ x ∈ tr, EvOK x.1) (hroom : Room s.ifiles.length (totalData s) tr.length) :
    Sim u br' s' (runCmds b t (cmdsOf tr)).1 (runCmds b t (cmdsOf tr)).2.1 ∧
      repliesOf tr = repliesOf (traceOf b t (cmdsOf tr)) := by
  induction hr generalizing b t with
  | nil br s => exact ⟨h, rfl⟩
  | @cmd c d argv br br1 br2 s s1 s2 r tr hu h1 h2 ih =>
    subst hu
    obtain ⟨G, G', hU, hU', ha, he, hl⟩ := h
    obtain ⟨hc, hargs⟩ := hev _ (List.mem_cons_self ..)
    have hroom1 : Room s.ifiles.length (totalData s) 1 := hroom.mono (by simp)
    have hT := hU.twin hU' he hl
    have hT2 := hU.twinCommand hU' hT ha (by have := hroom1.1; omega) hc.limit d argv hargs.size
    obtain ⟨G1, i1, i2, i3, -⟩ := hU.command hc d argv hargs hroom1
    obtain ⟨G2, j1, j2, j3, -⟩ := hU'.command hc d argv hargs (by rw [← he, totalData, ← hl]; exact hroom1)
    have hg := dsCommand_grows c br s d argv (2 ^ 23) hargs.size
    have hrep : d.placed = true → r = (dsCommand c b t d argv).2.2 := by
      intro hp
      have e1 : r = (dsCommand c br s d argv).2.2 := by rw [h1]
      rw [e1]
      cases hd : d.determined with
      | true =>
        have hs := specCmd_snd c (absKV G) d argv
        rw [hd] at hs
        obtain ⟨r', hr'⟩ := Option.isSome_iff_exists.1 hs
        rw [i3 r' hr', j3 r' (by rw [← ha]; exact hr')]
      | false =>
        cases d <;> simp [DsCmd.determined] at hd <;> simp [DsCmd.placed, DsCmd.determined] at hp
        · exact hT.scan c argv
        · exact hT.rscan c argv
        · exact hU.sameKeycur hU' he argv
    rw [h1] at i1 hg hT2
    have hsim : Sim c.u br1 s1 (dsCommand c b t d argv).1 (dsCommand c b t d argv).2.1 :=
      ⟨G1, G2, i1, j1, by rw [i2, j2, ha], hT2.ifiles, hT2.lens⟩
    obtain ⟨k1, k2⟩ := ih hsim (fun x hx => hev x (List.mem_cons_of_mem _ hx)) (hroom.step hg (by omega))
    refine ⟨k1, ?_⟩
    simp only [repliesOf, cmdsOf, List.filterMap_cons, traceOf] at k2 ⊢
    cases hp : d.placed with
    | false => simpa using k2
    | true => simp only [if_true]; rw [k2, hrep hp]
  | @foreign br br1 br2 s s2 tr h1 h2 ih =>
    obtain ⟨G, G', hU, hU', ha, he, hl⟩ := h
    exact ih ⟨G, G', hU.foreign h1, hU', ha, he, hl⟩ (fun x hx => hev x (List.mem_cons_of_mem _ hx)) (hroom.mono (by simp))
  | @reload br br1 br2 s s1 s2 tr h1 h2 ih =>
    obtain ⟨G, G', hU, hU', ha, he, hl⟩ := h
    have hlen := hU.irep.length
    obtain ⟨b', t', k1, k2, k3, k4, -⟩ := hU.reload cfg hcfg (by have := hroom.1; omega)
    rw [h1] at k1
    injection k1 with k1 k1'
    subst k1; subst k1'
    exact ih ⟨G, G', k2, hU', ha, by rw [k3, he], by rw [k4, hl]⟩ (fun x hx => hev x (List.mem_cons_of_mem _ hx))
      (by rw [k3, totalData, k4]; exact hroom.mono (by simp))

theorem UserRun.follow {cfg : Option Mode} {u : Nat} {tr : List (NsEvent × Reply)} {br : Branches} {s : Store}
    (h : UserRun cfg u tr br s) :
    Sim u br s (runCmds (fun _ => []) (freshStore .user) (cmdsOf tr)).1 (runCmds (fun _ => []) (freshStore .user) (cmdsOf tr)).2.1 ∧
      repliesOf tr = repliesOf (traceOf (fun _ => []) (freshStore .user) (cmdsOf tr)) := by
  obtain ⟨br0, br1, s1, h0, h1, h2⟩ := h.run
  have hm : cfg.getD .user = .user := by rcases h.hcfg with rfl | rfl <;> rfl
  rw [freshNs_eq, hm] at h1
  injection h1 with h1 h1'
  subst h1; subst h1'
  exact h2.follow h.hcfg ⟨_, _, freshStore_uinv br0 u h0, freshStore_uinv _ u (fun _ => rfl), rfl, rfl, rfl⟩ h.ev
    (freshStore_room _ h.len)

/-- C02 for SCAN, RSCAN and KEYCUR besides the commands of `C02_restarts_are_invisible`: two executions with the same
    commands give the same replies to all of these, wherever restarts happened.  Missing: KSCAN (`C02_kscan_same_keys`,
    `C02_kscan_refuted`), HISTORY (`C02_history_partial`, `C02_history_refuted`), DATA RAW (`C02_refuted`) and
    INDEX DIRTY (`C02_dirty_refuted`). -/
theorem C02_cursors_partial {cfg : Option Mode} {u u' : Nat} {tr tr' : List (NsEvent × Reply)}
    {br br' : Branches} {s s' : Store} (h : UserRun cfg u tr br s) (h' : UserRun cfg u' tr' br' s')
    (hc : cmdsOf tr = cmdsOf tr') : repliesOf tr = repliesOf tr' := by
  rw [h.follow.2, h'.follow.2, hc]

/-- The same for a namespace among others on a node. -/
theorem C02_cursors_of_the_node {S S' : Settings} {u u' : Nat} {n n1 m m1 : Node} {l l' : List (Event × List (Nat × Msg))}
    {tr tr' : List (NsEvent × Reply)} (hn : Reachable S n) (hm : Reachable S' m) (hlim : S.limit ≤ 2 ^ 31)
    (hlim' : S'.limit ≤ 2 ^ 31) (hcfg : S.cfg = none ∨ S.cfg = some .user) (hcc : S'.cfg = S.cfg)
    (h0 : storeOf n u = some (freshStore .user)) (h0' : storeOf m u' = some (freshStore .user))
    (h : Life S u n l tr n1) (h' : Life S' u' m l' tr' m1) (hlen : tr.length ≤ maxEvents) (hlen' : tr'.length ≤ maxEvents)
    (hc : cmdsOf tr = cmdsOf tr') : repliesOf tr = repliesOf tr' := by
  obtain ⟨r, hr⟩ := Option.isSome_iff_exists.1 h.ends
  obtain ⟨r', hr'⟩ := Option.isSome_iff_exists.1 h'.ends
  have e1 := h.userRun hn.inv hlim hcfg h0 hlen (s' := r.store) (by unfold storeOf; rw [hr]; rfl)
  have e2 := h'.userRun hm.inv hlim' (by rw [hcc]; exact hcfg) h0' hlen' (s' := r'.store) (by unfold storeOf; rw [hr']; rfl)
  rw [hcc] at e2
  exact C02_cursors_partial e1 e2 hc

/-- The files themselves: two executions with the same commands leave the same index files, byte by byte, and data files
    of the same lengths, wherever restarts happened. -/
theorem C02_same_index_files {cfg : Option Mode} {u u' : Nat} {tr tr' : List (NsEvent × Reply)}
    {br br' : Branches} {s s' : Store} (h : UserRun cfg u tr br s) (h' : UserRun cfg u' tr' br' s')
    (hc : cmdsOf tr = cmdsOf tr') :
    s.ifiles = s'.ifiles ∧ s.dfiles.map List.length = s'.dfiles.map List.length := by
  obtain ⟨-, -, -, -, -, h1, h2⟩ := h.follow.1
  obtain ⟨-, -, -, -, -, h3, h4⟩ := h'.follow.1
  rw [h1, h2, h3, h4, hc]
  exact ⟨rfl, rfl⟩

/-- KSCAN finds the same keys, wherever restarts happened, but possibly in another order. -/
theorem C02_kscan_same_keys {cfg : Option Mode} {u u' : Nat} {tr tr' : List (NsEvent × Reply)}
    {br br' : Branches} {s s' : Store} (h : UserRun cfg u tr br s) (h' : UserRun cfg u' tr' br' s')
    (hc : cmdsOf tr = cmdsOf tr') (key : Bytes) :
    ((kscanSel br u buckets key).map Entry.id).Perm ((kscanSel br' u' buckets key).map Entry.id) := by
  obtain ⟨G, g1, g2, -⟩ := h.inv
  obtain ⟨G', g1', g2', -⟩ := h'.inv
  refine (g1.kscanSel key).trans (.trans ?_ (g1'.kscanSel key).symm)
  rw [g2, g2', specRun_eq, specRun_eq, hc]

/-- HISTORY, followed through its cursors, gives the same replies wherever restarts happened, for a key that exists.
    Missing: the oldest version of a key that was not created in the first file (`C02_history_refuted`). -/
theorem C02_history_partial {cfg : Option Mode} {tr tr' : List (NsEvent × Reply)} {br br' : Branches} {s s' : Store}
    {c c' : Ctx} (h : UserRun cfg c.u tr br s) (h' : UserRun cfg c'.u tr' br' s') (hc : cmdsOf tr = cmdsOf tr')
    (hz : c.conf.lock ≠ .frozen) (hz' : c'.conf.lock ≠ .frozen) (n : Bytes) {k : Bytes} (hk : k.length ≤ 255) {v : Val}
    (hv : (specRun [] (tr.map (·.1))).get k = some v) :
    RecallsSame (FirstFile cfg c.u tr br s k)
      (fun cur => (dsCommand c br s .history (n :: k :: cur.toList)).2.2)
      (fun cur => (dsCommand c' br' s' .history (n :: k :: cur.toList)).2.2) none v.versions := by
  obtain ⟨G, g1, g2, -⟩ := h.inv
  obtain ⟨G', g1', g2', -⟩ := h'.inv
  have he := (C02_same_index_files h h' hc).1
  have hs : absKV G = absKV G' := by rw [g2, g2', specRun_eq, specRun_eq, hc]
  rw [← g2] at hv
  have hv' := hv
  rw [hs] at hv'
  refine ((g1.history (notFrozen hz) n hk hv).both (fun cur x xs y ys hx hy => ?_)
    (g1'.history (notFrozen hz') n hk hv')).mono (fun hf => ?_)
  · exact g1.sameCursor g1' he (notFrozen hz) (notFrozen hz') _ hx hy
  · have := h.early g1 hf
    exact ⟨this, this.bare (g1.bare g1' he)⟩

/-! ### what a restart changes -/

/-- The state after the commands `l` and a restart. -/
def reborn (l : List (Ctx × DsCmd × List Bytes)) : Branches × Store :=
  let x := runCmds (fun _ => []) (freshStore .user) l
  match reloadNs none x.1 7 x.2.1 with
  | .ok br s => (br, s)
  | _ => (fun _ => [], freshStore .user)

/-- The trace of the commands `l`, a restart and the commands `m`. -/
def rebornTrace (l m : List (Ctx × DsCmd × List Bytes)) : List (NsEvent × Reply) :=
  traceOf (fun _ => []) (freshStore .user) l ++ (.reload, .ok) :: traceOf (reborn l).1 (reborn l).2 m

theorem NsRun.trans {cfg : Option Mode} {u : Nat} {br br1 br2 : Branches} {s s1 s2 : Store}
    {tr tr' : List (NsEvent × Reply)} (h : NsRun cfg u br s tr br1 s1) (h' : NsRun cfg u br1 s1 tr' br2 s2) :
    NsRun cfg u br s (tr ++ tr') br2 s2 := by
  induction h with
  | nil => exact h'
  | cmd c d argv hu h1 _ ih => exact .cmd c d argv hu h1 (ih h')
  | foreign h1 _ ih => exact .foreign h1 (ih h')
  | reload h1 _ ih => exact .reload h1 (ih h')

theorem reborn_run (l m : List (Ctx × DsCmd × List Bytes)) (hl : l.all okCmd = true) (hm : m.all okCmd = true)
    (hlen : l.length + m.length + 1 ≤ maxEvents) :
    UserRun none 7 (rebornTrace l m) (runCmds (reborn l).1 (reborn l).2 m).1 (runCmds (reborn l).1 (reborn l).2 m).2.1 := by
  have h := userRun_ok l hl (by omega)
  obtain ⟨br, s, h1, -, -, -⟩ := C02_reload_succeeds h (by rw [traceOf_length]; omega)
  have hr : reborn l = (br, s) := by simp only [reborn, h1]
  rw [List.all_eq_true] at hl hm
  refine ⟨Or.inl rfl, ?_, ?_, ?_⟩
  · obtain ⟨br0, b, t, k0, k1, k2⟩ := h.run
    refine ⟨br0, b, t, k0, k1, k2.trans (.reload h1 ?_)⟩
    rw [hr]
    exact runCmds_run none 7 m (fun x hx => (okCmd_ok (hm x hx)).1) br s
  · intro x hx
    rcases List.mem_append.1 hx with hx | hx
    · exact h.ev x hx
    · rcases List.mem_cons.1 hx with rfl | hx
      · trivial
      · obtain ⟨y, hy, he⟩ := mem_traceOf hx
        rw [he]; exact (okCmd_ok (hm y hy)).2
  · simp only [rebornTrace, List.length_append, List.length_cons, traceOf_length]; omega

theorem cmdsOf_append (a b : List (NsEvent × Reply)) : cmdsOf (a ++ b) = cmdsOf a ++ cmdsOf b := List.filterMap_append

theorem cmdsOf_traceOf (br : Branches) (s : Store) (l : List (Ctx × DsCmd × List Bytes)) : cmdsOf (traceOf br s l) = l := by
  induction l generalizing br s with
  | nil => rfl
  | cons x l ih =>
    obtain ⟨c, d, argv⟩ := x
    have := ih (dsCommand c br s d argv).1 (dsCommand c br s d argv).2.1
    simp only [cmdsOf] at this ⊢
    simp only [traceOf, List.filterMap_cons, this]

theorem rebornTrace_cmds (l m : List (Ctx × DsCmd × List Bytes)) : cmdsOf (rebornTrace l m) = l ++ m := by
  have : cmdsOf ((NsEvent.reload, Reply.ok) :: traceOf (reborn l).1 (reborn l).2 m) = m := by
    have := cmdsOf_traceOf (reborn l).1 (reborn l).2 m
    simpa [cmdsOf] using this
  rw [rebornTrace, cmdsOf_append, cmdsOf_traceOf, this]

/-- A SET and a change of file. -/
def exLeft : List (Ctx × DsCmd × List Bytes) :=
  [(exCtx, .set, [str "SET", str "a", str "one"]), (exCtx, .nsjump, [str "NSJUMP"])]

/-- A SET in the new file. -/
def exRight : List (Ctx × DsCmd × List Bytes) := [(exCtx, .set, [str "SET", str "b", str "two"])]

/-- C02 is false for DATA RAW: after SET, NSJUMP, SET it shows 28 as the place of the previous record, but 0 if there was a
    restart between NSJUMP and the second SET. -/
theorem C02_refuted :
    ∃ tr tr' br br' s s' c argv r, UserRun none 7 tr br s ∧ UserRun none 7 tr' br' s' ∧ cmdsOf tr = cmdsOf tr' ∧
      (dsCommand c br s .data argv).2.2 = .arr [.bulk (str "b"), .int 28, .bulk (hex8 (crc32 (str "two"))), .int 0, r, .bulk (str "two")] ∧
      (dsCommand c br' s' .data argv).2.2 = .arr [.bulk (str "b"), .int 0, .bulk (hex8 (crc32 (str "two"))), .int 0, r, .bulk (str "two")] := by
  refine ⟨_, _, _, _, _, _, exCtx, rawArgs (str "DATA") 1 28, .int 1700000000, userRun_ok (exLeft ++ exRight) (by decide) (by decide),
    reborn_run exLeft exRight (by decide) (by decide) (by decide), ?_, ?_, ?_⟩
  · rw [rebornTrace_cmds, cmdsOf_traceOf]
  · generalize hs : (runCmds (fun _ => []) (freshStore .user) (exLeft ++ exRight)).2.1 = s
    have h : dataRaw s 1 (28 : Nat) = .found (DRec.hdr ⟨str "b", str "two", 28, false, 1700000000⟩) (str "b") (str "two") := by
      subst hs; rfl
    simp only [dsCommand]
    rw [cmdData_raw rfl s (by decide) (by decide) (by decide), h]
    rfl
  · generalize hs : (runCmds (reborn exLeft).1 (reborn exLeft).2 exRight).2.1 = s
    have h : dataRaw s 1 (28 : Nat) = .found (DRec.hdr ⟨str "b", str "two", 0, false, 1700000000⟩) (str "b") (str "two") := by
      subst hs; rfl
    simp only [dsCommand]
    rw [cmdData_raw rfl s (by decide) (by decide) (by decide), h]
    rfl

/-- A SET, and a SET whose payload is only written in part. -/
def exTornLeft : List (Ctx × DsCmd × List Bytes) :=
  [(exCtx, .set, [str "SET", str "a", str "one"]),
   ({ exCtx with io := { exCtx.io with dpay := some 2 } }, .set, [str "SET", str "x", str "torn"])]

/-- A SET in the same file, and one in a new file. -/
def exTornRight : List (Ctx × DsCmd × List Bytes) :=
  [(exCtx, .set, [str "SET", str "c", str "four"]), (exCtx, .nsjump, [str "NSJUMP"]),
   (exCtx, .set, [str "SET", str "b", str "0123456789abcdefghijklmnopqrstuvwxyz"])]

set_option maxRecDepth 100000 in
/-- C02 is false for HISTORY of a key created after a jump: its payload is read in the first file, and here the bytes
    found there contain the place of the record before another one, which is 28 or, after a restart, 50. -/
theorem C02_history_refuted :
    ∃ tr tr' br br' s s' c argv a x y, UserRun none 7 tr br s ∧ UserRun none 7 tr' br' s' ∧ cmdsOf tr = cmdsOf tr' ∧
      (dsCommand c br s .history argv).2.2 = .arr [.nil, .bulk a, .bulk (x ++ 28 :: y)] ∧
      (dsCommand c br' s' .history argv).2.2 = .arr [.nil, .bulk a, .bulk (x ++ 50 :: y)] := by
  refine ⟨_, _, _, _, _, _, exCtx, [str "HISTORY", str "b"], str "1700000000",
    [111, 110, 101, 1, 4, 0, 0, 0, 28, 0, 0, 0, 239, 34, 231, 209, 0, 0, 241, 83, 101, 120, 116, 111, 1, 4, 0, 0, 0],
    [0, 0, 0, 169, 113, 148],
    userRun_ok (exTornLeft ++ exTornRight) (by decide) (by decide),
    reborn_run exTornLeft exTornRight (by decide) (by decide) (by decide), ?_, ?_, ?_⟩
  · rw [rebornTrace_cmds, cmdsOf_traceOf]
  · rfl
  · rfl

/-- C02 is false for INDEX DIRTY: after a SET twice of the same key file 0 is dirty, but not if there was a restart. -/
theorem C02_dirty_refuted :
    ∃ tr tr' br br' s s' c argv, UserRun none 7 tr br s ∧ UserRun none 7 tr' br' s' ∧ cmdsOf tr = cmdsOf tr' ∧
      (dsCommand c br s .index argv).2.2 = .arr [.int 0] ∧ (dsCommand c br' s' .index argv).2.2 = .arr [] := by
  refine ⟨_, _, _, _, _, _, exCtx, [str "INDEX", str "DIRTY"],
    userRun_ok [(exCtx, .set, [str "SET", str "a", str "one"]), (exCtx, .set, [str "SET", str "a", str "two"])] (by decide) (by decide),
    reborn_run [(exCtx, .set, [str "SET", str "a", str "one"]), (exCtx, .set, [str "SET", str "a", str "two"])] [] (by decide) (by decide) (by decide),
    ?_, ?_, ?_⟩
  · rw [rebornTrace_cmds, cmdsOf_traceOf]; rfl
  · rfl
  · rfl

/-- Two keys with the same hash; the first is overwritten. -/
def exSame : List (Ctx × DsCmd × List Bytes) :=
  [(exCtx, .set, [str "SET", str "k0000", str "one"]), (exCtx, .set, [str "SET", str "kKR2u", str "two"]),
   (exCtx, .set, [str "SET", str "k0000", str "three"])]

theorem flatMap_single {α : Type} (f : Nat → List α) (h0 : Nat) (hf : ∀ h, h ≠ h0 → f h = []) (n : Nat) :
    (List.range n).flatMap f = if h0 < n then f h0 else [] := by
  induction n with
  | zero => rfl
  | succ n ih =>
    rw [List.range_succ, List.flatMap_append, ih]
    simp only [List.flatMap_cons, List.flatMap_nil, List.append_nil]
    by_cases h1 : h0 = n
    · subst h1; simp
    · rw [hf n (fun e => h1 e.symm), List.append_nil]
      by_cases h2 : h0 < n
      · rw [if_pos h2, if_pos (by omega)]
      · rw [if_neg h2, if_neg (by omega)]

/-- KSCAN when all keys have the same hash. -/
theorem kscan_oneBranch {br : Branches} {s : Store} {G : Log} {c : Ctx} (h : UInv br c.u s G) {h0 : Nat}
    (hk : ∀ k ∈ (absKV G).map (·.1), keyHash k = h0) (hlt : h0 < 2 ^ 24) (n p : Bytes) (hn : n ≠ []) (hp : p ≠ []) :
    (dsCommand c br s .kscan [n, p]).2.2 =
      cmdKscan.kscanReply ((br h0).filter (fun e => e.ns == c.u && p.isPrefixOf e.id)) := by
  have hb : buckets = 2 ^ 24 := by unfold buckets; rfl
  have hsel : kscanSel br c.u buckets p = (br h0).filter (fun e => e.ns == c.u && p.isPrefixOf e.id) := by
    rw [hb]
    unfold kscanSel
    rw [flatMap_single _ h0 _ _, if_pos hlt]
    intro i hi
    have hempty : nsBranch br c.u i = [] := by
      have := h.brs i
      have e : ents c.u i (live G) = [] := by
        rw [ents, List.filter_eq_nil_iff.2, List.map_nil]
        intro l hl
        have := hk l.id (by rw [absKV, List.map_map]; exact List.mem_map_of_mem (f := Loc.id) hl)
        rw [this]
        simpa using fun e => hi e.symm
      rw [e] at this
      exact this.eq_nil
    rw [List.filter_eq_nil_iff]
    intro e he
    have : e ∉ nsBranch br c.u i := by rw [hempty]; simp
    rw [nsBranch, List.mem_filter] at this
    simp only [Bool.and_eq_true, not_and]
    intro h1 _
    exact this ⟨he, h1⟩
  simp only [dsCommand, cmdKscan, h.mode, argsValidate]
  simp [hn, hp, hsel]

set_option maxRecDepth 100000 in
/-- C02 is false for KSCAN: in memory an overwritten key keeps its place, after a restart the keys of a branch are in the
    order of their last SET. -/
theorem C02_kscan_refuted :
    ∃ tr tr' br br' s s' c argv, UserRun none 7 tr br s ∧ UserRun none 7 tr' br' s' ∧ cmdsOf tr = cmdsOf tr' ∧
      (dsCommand c br s .kscan argv).2.2 = .arr [.bulk [48], .arr [.bulk (str "k0000"), .bulk (str "kKR2u")]] ∧
      (dsCommand c br' s' .kscan argv).2.2 = .arr [.bulk [48], .arr [.bulk (str "kKR2u"), .bulk (str "k0000")]] := by
  have h := userRun_ok exSame (by decide) (by decide)
  have h' := reborn_run exSame [] (by decide) (by decide) (by decide)
  obtain ⟨G, g1, g2, -⟩ := h.inv
  obtain ⟨G', g1', g2', -⟩ := h'.inv
  have hk : ∀ k ∈ (specMap [] exSame).map (·.1), keyHash k = 10951814 := by decide +kernel
  rw [specRun_eq, cmdsOf_traceOf] at g2
  rw [specRun_eq, rebornTrace_cmds, List.append_nil] at g2'
  rw [← g2] at hk
  have e := kscan_oneBranch (c := exCtx) g1 hk (by decide) (str "KSCAN") (str "k") (by decide) (by decide)
  rw [g2, ← g2'] at hk
  have e' := kscan_oneBranch (c := exCtx) g1' hk (by decide) (str "KSCAN") (str "k") (by decide) (by decide)
  refine ⟨_, _, _, _, _, _, exCtx, [str "KSCAN", str "k"], h, h', ?_, ?_, ?_⟩
  · rw [rebornTrace_cmds, cmdsOf_traceOf, List.append_nil]
  · rw [e]; rfl
  · rw [e']; rfl

set_option maxRecDepth 100000 in
/-- A concrete case of `C02_cursors_partial`: the execution `exCmds` followed by SCAN, RSCAN and KEYCUR, with and without
    a restart; the replies are not errors. -/
theorem C02_cursors_example :
    let m := [(exCtx, .scan, [str "SCAN"]), (exCtx, .rscan, [str "RSCAN"]), (exCtx, .keycur, [str "KEYCUR", str "a"])]
    repliesOf (rebornTrace exCmds m) = repliesOf (traceOf (fun _ => []) (freshStore .user) (exCmds ++ m)) ∧
    (repliesOf (rebornTrace exCmds m)).length = 11 ∧
    (repliesOf (rebornTrace exCmds m)).drop 9 =
      [((exCtx, .rscan, [str "RSCAN"]), .arr [.bulk (cursorOf ⟨1, 29, { idlength := 1, offset := 28, length := 5, previous := 64, flags := 0, dataid := 1, timestamp := 1700000000, crc := crc32 (str "three"), parentid := 0, parentoff := 29, id := str "a" }⟩),
          .arr [.arr [.bulk (str "a"), .int 5, .int 1700000000]]]),
       ((exCtx, .keycur, [str "KEYCUR", str "a"]), .bulk (cursorOf ⟨1, 29, { idlength := 1, offset := 28, length := 5, previous := 64, flags := 0, dataid := 1, timestamp := 1700000000, crc := crc32 (str "three"), parentid := 0, parentoff := 29, id := str "a" }⟩))] := by
  intro m
  refine ⟨C02_cursors_partial (reborn_run exCmds m (by decide) (by decide) (by decide))
    (userRun_ok (exCmds ++ m) (by decide) (by decide)) (by rw [rebornTrace_cmds, cmdsOf_traceOf]), rfl, rfl⟩

/-- A concrete case of `C02_history_partial`: three versions in two files, with and without a restart before the third
    one. -/
theorem C02_history_example :
    RecallsSame True
      (fun cur => (dsCommand exCtx (runCmds (fun _ => []) (freshStore .user) exVersions).1
        (runCmds (fun _ => []) (freshStore .user) exVersions).2.1 .history (str "HISTORY" :: str "a" :: cur.toList)).2.2)
      (fun cur => (dsCommand exCtx
        (runCmds (reborn (exVersions.take 2)).1 (reborn (exVersions.take 2)).2 (exVersions.drop 2)).1
        (runCmds (reborn (exVersions.take 2)).1 (reborn (exVersions.take 2)).2 (exVersions.drop 2)).2.1 .history
        (str "HISTORY" :: str "a" :: cur.toList)).2.2)
      none [⟨str "three", 1700000000⟩, ⟨str "two", 1700000000⟩, ⟨str "one", 1700000000⟩] :=
  (C02_history_partial (c := exCtx) (c' := exCtx) (userRun_ok exVersions (by decide) (by decide))
    (reborn_run (exVersions.take 2) (exVersions.drop 2) (by decide) (by decide) (by decide))
    (by rw [rebornTrace_cmds, cmdsOf_traceOf, List.take_append_drop]) (by decide) (by decide) (str "HISTORY") (by decide)
    (v := ⟨str "three", 1700000000, [⟨str "two", 1700000000⟩, ⟨str "one", 1700000000⟩]⟩) rfl).mono
      (fun _ => exVersions_first)

end Zdb
