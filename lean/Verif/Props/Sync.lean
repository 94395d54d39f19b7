/-
Power losses under `--sync` (C63) and `--synctime` (C64).
-/
import Verif.Lemmas.SyncTime
import Verif.Props.Fault
import Verif.Spec.SeqExample
namespace Zdb

/-! ### C63 -/

/-- C63, user-key mode, as far as it is true.  Under `--sync`, the power is lost after any execution, whatever part
    of the writes not followed by an `fsync` reached the disk.  The files left are loaded without error, and each key
    has the payload of its last acknowledged SET if it was not deleted since; a deleted key reads nothing or the
    payload it had before its deletion.  From there every execution, with failing writes or not, goes on from that
    value.
    Missing: deletions (`C63_refuted`), sequential mode (`C63_seq_refuted`), a power loss in the middle of a command
    (`C63_mid_partial`, `C63_torn_refuted`), failing writes before the loss, restarts after it (SCAN may then list a key twice, `C63_scan_refuted`). -/
theorem C63_partial {cfg : Option Mode} {cf : SyncConf} (hcf : cf.sync = true) {u t : Nat}
    {tr : List (NsEvent × Reply)} {br : Branches} {s : Store} {D : Disk} (h : SyncRun cfg cf u t tr br s D)
    {fi fd : List Bytes} (hp : PowerLoss D fi fd) {br0 : Branches} {v : Nat}
    (hbr : ∀ h, (br0 h).filter (fun e => e.ns == v) = []) :
    ∃ br1 s1, loadNs cfg br0 v fi fd = .ok br1 s1 ∧ ∀ k, ∃ w, MayKeep k tr w ∧
      ∀ tr' br' s', NsRun cfg v br1 s1 tr' br' s' → (∀ x ∈ tr', FaultOK x.1) →
        tr.length + tr'.length < maxEvents → Spared k w tr' →
        ∀ (c : Ctx) (name : Bytes), c.u = v → name ≠ [] → k ≠ [] → k.length ≤ 255 → c.conf.lock ≠ .frozen →
          cmdGet c br' s' [name, k] = getReply (tr'.foldl (fun a x => (writeOf k x).getD a) w) ∧
          cmdExists c br' s' [name, k] = existsReply (tr'.foldl (fun a x => (writeOf k x).getD a) w) ∧
          cmdLength c br' s' [name, k] = lengthReply (tr'.foldl (fun a x => (writeOf k x).getD a) w) ∧
          cmdCheck c br' s' [name, k] = checkReply (tr'.foldl (fun a x => (writeOf k x).getD a) w) := by
  obtain ⟨br1, s1, h1, h2, h3, h4, h5⟩ := h.loaded hcf hp hbr
  refine ⟨br1, s1, h1, fun k => ?_⟩
  obtain ⟨w, hw, hv⟩ := h5 k
  refine ⟨w, hw, ?_⟩
  intro tr' br' s' hr hev hlen hsp c name hu hn hk hl hf
  subst hu
  unfold maxEvents at hlen
  obtain ⟨j1, -, -, j2⟩ := faultRun_val hr hev h2 h3 (by omega) hv hsp
  exact j2.reads j1 name hn hk hl hf

/-- Without a deletion since its last SET, a key keeps its payload. -/
theorem C63_set_partial {cfg : Option Mode} {cf : SyncConf} (hcf : cf.sync = true) {u t : Nat}
    {tr : List (NsEvent × Reply)} {br : Branches} {s : Store} {D : Disk} (h : SyncRun cfg cf u t tr br s D)
    {fi fd : List Bytes} (hp : PowerLoss D fi fd) {br0 : Branches} {v : Nat}
    (hbr : ∀ h, (br0 h).filter (fun e => e.ns == v) = []) {k p : Bytes} (hkp : lastWrite k tr = some p)
    (hk : k ≠ []) (hl : k.length ≤ 255) (c : Ctx) (name : Bytes) (hu : c.u = v) (hn : name ≠ [])
    (hf : c.conf.lock ≠ .frozen) :
    ∃ br1 s1, loadNs cfg br0 v fi fd = .ok br1 s1 ∧ cmdGet c br1 s1 [name, k] = .bulk p := by
  obtain ⟨br1, s1, h1, h2⟩ := C63_partial hcf h hp hbr
  obtain ⟨w, hw, h3⟩ := h2 k
  refine ⟨br1, s1, h1, ?_⟩
  have hlen := h.len
  have := (h3 [] br1 s1 (.nil _ _) (by simp) (by simpa using hlen) trivial c name hu hn hk hl hf).1
  rw [this]
  rcases hw with rfl | ⟨h4, -⟩
  · rw [hkp]; rfl
  · rw [h4] at hkp; cases hkp

/-! ### witnesses -/

/-- Running commands with a disk. -/
def diskCmds (cf : SyncConf) (br : Branches) (s : Store) (D : Disk) : List (Ctx × DsCmd × List Bytes) → Disk
  | [] => D
  | (c, d, argv) :: l =>
    let x := dsCommand c br s d argv
    diskCmds cf x.1 x.2.1 (runOps cf c.now D (dsOps c br s d argv)) l

theorem diskCmds_run (cfg : Option Mode) (cf : SyncConf) (u : Nat) (l : List (Ctx × DsCmd × List Bytes))
    (hu : ∀ x ∈ l, x.1.u = u) (br : Branches) (s : Store) (D : Disk) :
    DiskRun cfg cf u br s D (traceOf br s l) (runCmds br s l).1 (runCmds br s l).2.1 (diskCmds cf br s D l) := by
  induction l generalizing br s D with
  | nil => exact .nil _ _ _
  | cons x l ih =>
    obtain ⟨c, d, argv⟩ := x
    exact .cmd c d argv (hu _ (List.mem_cons_self ..)) rfl
      (ih (fun x hx => hu x (List.mem_cons_of_mem _ hx)) _ _ _)

/-- The disk of a namespace created at the time of `exCtx` after some commands. -/
def freshDisk (m : Mode) (cf : SyncConf) (l : List (Ctx × DsCmd × List Bytes)) : Disk :=
  diskCmds cf (fun _ => []) (freshStore m) (Disk.fresh cf exCtx.now m) l

theorem partly_none (f : Bytes) (ws : List (Nat × Bytes)) : Partly f ws f := by
  induction ws with
  | nil => exact .nil f
  | cons w ws ih => exact .cons [] (List.nil_sublist _) ih

/-- The outcome in which only what was synced is on the disk. -/
theorem powerLoss_safe (D : Disk) :
    PowerLoss D (D.i.map fun f => f.safe.getD []) (D.d.map fun f => f.safe.getD []) := by
  refine ⟨by simp, by simp, ?_, ?_⟩
  · intro n f h
    rw [List.getElem?_map, h]
    exact .kept (partly_none _ _)
  · intro n f h
    rw [List.getElem?_map, h]
    exact .kept (partly_none _ _)

/-- The replies to some commands after a power loss that kept only what was synced. -/
def afterLoss (cfg : Option Mode) (D : Disk) (l : List (Ctx × DsCmd × List Bytes)) : Option (List Reply) :=
  match loadNs cfg (fun _ => []) 7 (D.i.map fun f => f.safe.getD []) (D.d.map fun f => f.safe.getD []) with
  | .ok br s => some (runCmds br s l).2.2
  | _ => none

/-- The option `--sync` alone. -/
def syncOn : SyncConf := { sync := true, synctime := 0, secure := false }

theorem syncRun_of_cmds (cf : SyncConf) (l : List (Ctx × DsCmd × List Bytes)) (hu : ∀ x ∈ l, x.1.u = 7)
    (hc : ∀ x ∈ l, CtxOK x.1 ∧ ArgsOK x.2.2 ∧ NoFault (.cmd x.1 x.2.1 x.2.2)) (hl : l.length < maxEvents) :
    SyncRun none cf 7 exCtx.now (traceOf (fun _ => []) (freshStore .user) l) (runCmds (fun _ => []) (freshStore .user) l).1
      (runCmds (fun _ => []) (freshStore .user) l).2.1 (freshDisk .user cf l) where
  hcfg := Or.inl rfl
  run := ⟨fun _ => [], fun _ => [], freshStore .user, fun _ => rfl, freshNs_eq none _ 7, diskCmds_run _ _ _ _ hu _ _ _⟩
  ev := by
    intro x hx
    obtain ⟨y, hy, he⟩ := mem_traceOf hx
    rw [he]
    exact ⟨⟨(hc y hy).1, (hc y hy).2.1⟩, (hc y hy).2.2⟩
  len := by rw [traceOf_length]; exact hl

theorem exCmds_sync : SyncRun none syncOn 7 exCtx.now (traceOf (fun _ => []) (freshStore .user) exCmds)
    (runCmds (fun _ => []) (freshStore .user) exCmds).1 (runCmds (fun _ => []) (freshStore .user) exCmds).2.1
    (freshDisk .user syncOn exCmds) := by
  refine syncRun_of_cmds syncOn exCmds (by decide) ?_ (by decide)
  intro x hx
  simp only [exCmds, List.mem_cons, List.not_mem_nil, or_false] at hx
  rcases hx with rfl | rfl | rfl | rfl | rfl | rfl | rfl | rfl
  all_goals exact ⟨exCtx_ok, ⟨⟨_, _, rfl, by decide⟩, by decide⟩, rfl, rfl, rfl, rfl, rfl⟩

set_option maxRecDepth 100000 in
/-- C63 is false for deletions: `b` was deleted, the DEL was acknowledged, and after the power loss GET answers its
    payload.  The overwritten `a` has its last payload. -/
theorem C63_refuted :
    SyncRun none syncOn 7 exCtx.now (traceOf (fun _ => []) (freshStore .user) exCmds)
      (runCmds (fun _ => []) (freshStore .user) exCmds).1 (runCmds (fun _ => []) (freshStore .user) exCmds).2.1
      (freshDisk .user syncOn exCmds) ∧
    lastWrite (str "b") (traceOf (fun _ => []) (freshStore .user) exCmds) = none ∧
    PowerLoss (freshDisk .user syncOn exCmds) ((freshDisk .user syncOn exCmds).i.map fun f => f.safe.getD [])
      ((freshDisk .user syncOn exCmds).d.map fun f => f.safe.getD []) ∧
    afterLoss none (freshDisk .user syncOn exCmds)
      [(exCtx, .get, [str "GET", str "a"]), (exCtx, .get, [str "GET", str "b"])] =
      some [.bulk (str "three"), .bulk (str "two")] :=
  ⟨exCmds_sync, by decide +kernel, powerLoss_safe _, rfl⟩

/-- A sequential key stored, overwritten and stored again, and one deleted. -/
def overCmds : List (Ctx × DsCmd × List Bytes) :=
  [(exCtx, .set, [str "SET", [], str "one"]),
   (exCtx, .set, [str "SET", [], str "two"]),
   (exCtx, .set, [str "SET", sid 0, str "uno"]),
   (exCtx, .del, [str "DEL", sid 1])]

set_option maxRecDepth 100000 in
/-- C63 is false in sequential mode: an overwrite and a deletion, both acknowledged, are lost. -/
theorem C63_seq_refuted :
    DiskRun (some .seq) syncOn 7 (fun _ => []) (freshStore .seq) (Disk.fresh syncOn exCtx.now .seq)
      (traceOf (fun _ => []) (freshStore .seq) overCmds) (runCmds (fun _ => []) (freshStore .seq) overCmds).1
      (runCmds (fun _ => []) (freshStore .seq) overCmds).2.1 (freshDisk .seq syncOn overCmds) ∧
    (runCmds (fun _ => []) (freshStore .seq) overCmds).2.2 = [.bulk (sid 0), .bulk (sid 1), .bulk (sid 0), .ok] ∧
    PowerLoss (freshDisk .seq syncOn overCmds) ((freshDisk .seq syncOn overCmds).i.map fun f => f.safe.getD [])
      ((freshDisk .seq syncOn overCmds).d.map fun f => f.safe.getD []) ∧
    afterLoss (some .seq) (freshDisk .seq syncOn overCmds)
      [(exCtx, .get, [str "GET", sid 0]), (exCtx, .get, [str "GET", sid 1])] =
      some [.bulk (str "one"), .bulk (str "two")] :=
  ⟨diskCmds_run _ _ _ _ (by decide) _ _ _, rfl, powerLoss_safe _, rfl⟩

/-- A key overwritten from another index file. -/
def jumpCmds : List (Ctx × DsCmd × List Bytes) :=
  [(exCtx, .set, [str "SET", str "a", str "one"]),
   (exCtx, .nsjump, [str "NSJUMP"]),
   (exCtx, .set, [str "SET", str "a", str "two"])]

set_option maxRecDepth 100000 in
/-- After a power loss SCAN may list a key twice, although DBSIZE counts it once: the overwritten item in the
    first index file has lost its deleted flag. -/
theorem C63_scan_refuted :
    SyncRun none syncOn 7 exCtx.now (traceOf (fun _ => []) (freshStore .user) jumpCmds)
      (runCmds (fun _ => []) (freshStore .user) jumpCmds).1 (runCmds (fun _ => []) (freshStore .user) jumpCmds).2.1
      (freshDisk .user syncOn jumpCmds) ∧
    PowerLoss (freshDisk .user syncOn jumpCmds) ((freshDisk .user syncOn jumpCmds).i.map fun f => f.safe.getD [])
      ((freshDisk .user syncOn jumpCmds).d.map fun f => f.safe.getD []) ∧
    (afterLoss none (freshDisk .user syncOn jumpCmds)
      [(exCtx, .scan, [str "SCAN"]), (exCtx, .dbsize, [str "DBSIZE"]), (exCtx, .get, [str "GET", str "a"])]).map
      (fun l => l.map fun
        | .arr [_, .arr x] => x.length
        | .int n => n.toNat
        | .bulk b => b.length
        | _ => 0) = some [2, 1, 3] :=
  ⟨syncRun_of_cmds syncOn jumpCmds (by decide) (by
    intro x hx
    simp only [jumpCmds, List.mem_cons, List.not_mem_nil, or_false] at hx
    rcases hx with rfl | rfl | rfl
    all_goals exact ⟨exCtx_ok, ⟨⟨_, _, rfl, by decide⟩, by decide⟩, rfl, rfl, rfl, rfl, rfl⟩) (by decide),
   powerLoss_safe _, by decide +kernel⟩

/-! ### C64 -/

/-- C64 as far as it is true.  Under `--synctime T`, in user-key mode, the power is lost after any execution without
    deletion that has not left the first files, and only what was synced is on the disk.  The execution is cut in two:
    after a restart each key has the value of its last SET in the first part, and the SETs acknowledged in the second
    part are all within `T` seconds of the time `L`.
    Missing: pending writes of which a part reached the disk (`C64_torn_refuted`), deletions (`C64_del_refuted`),
    several files (false without `--secure`: `C64_jump_refuted`); sequential mode is in `C64_seq_partial`, restarts before the
    loss in `C64_restart_partial`. -/
theorem C64_partial {cfg : Option Mode} {cf : SyncConf} (hcf : cf.sync = false) (hT : 0 < cf.synctime)
    {u t : Nat} {tr : List (NsEvent × Reply)} {br : Branches} {s : Store} {D : Disk}
    (h : SyncRun cfg cf u t tr br s D) (hnd : ∀ x ∈ tr, NoDel x.1) (h1 : s.ifiles.length = 1) (hclock : Clock tr)
    (ht : cf.synctime < t) (hlater : ∀ x ∈ tr, ∀ a, evTime x.1 = some a → t ≤ a) {br0 : Branches} {v : Nat}
    (hbr : ∀ h, (br0 h).filter (fun e => e.ns == v) = []) :
    ∃ L tr1 tr2, tr = tr1 ++ tr2 ∧
      (∀ x ∈ tr2, Acked x → ∃ a, evTime x.1 = some a ∧ L ≤ a ∧ a ≤ L + cf.synctime) ∧
      ∃ br1 s1, loadNs cfg br0 v (D.i.map fun f => f.safe.getD []) (D.d.map fun f => f.safe.getD []) = .ok br1 s1 ∧
        ∀ (c : Ctx) (name k : Bytes), c.u = v → name ≠ [] → k ≠ [] → k.length ≤ 255 → c.conf.lock ≠ .frozen →
          cmdGet c br1 s1 [name, k] = getReply (lastWrite k tr1) := by
  obtain ⟨L, tr1, tr2, e, hS⟩ := h.snap hcf rfl hT hnd h1 hclock ht hlater
  obtain ⟨b, t, G, g1, g2, g3, g4⟩ := hS.state
  have hG := g1.irep.length
  obtain ⟨br1, s1, j1, j2, -⟩ := g1.load' (br0 := br0) (u := v) cfg h.hcfg (by omega) hbr
  have hfiles : ∀ (l : List DFile) (m : List Bytes), l.map DFile.safe = m.map some →
      l.map (fun f => f.safe.getD []) = m := by
    intro l m hlm
    have : l.map (fun f => f.safe.getD []) = (l.map DFile.safe).map (fun o => o.getD []) := by simp
    rw [this, hlm, List.map_map]
    exact List.map_id m
  refine ⟨L, tr1, tr2, e, hS.recent, br1, s1, ?_, ?_⟩
  · rw [hfiles _ _ (congrArg Prod.fst g3), hfiles _ _ (congrArg Prod.snd g3)]
    exact j1
  · intro c name k hu hn hk hl hf
    subst hu
    rw [cmdGet_spec j2 name k hn, specRead, if_neg hk, if_neg (by omega), if_neg hf, absKV_get, ← g4 k]
    cases liveGet G k <;> rfl

/-! ### witnesses -/

/-- The option `--synctime 5` alone. -/
def sync5 : SyncConf := { sync := false, synctime := 5, secure := false }

/-- The command `n` seconds after the creation of the namespace. -/
def later (n : Nat) : Ctx := { exCtx with now := exCtx.now + n }

theorem later_ok (n : Nat) : CtxOK (later n) := ⟨rfl, rfl, rfl, exCtx_ok.4, exCtx_ok.5⟩

def timeCmds : List (Ctx × DsCmd × List Bytes) :=
  [(later 1, .set, [str "SET", str "a", str "one"]),
   (later 10, .set, [str "SET", str "b", str "two"]),
   (later 12, .set, [str "SET", str "a", str "three"]),
   (later 15, .set, [str "SET", str "c", str "four"])]

theorem sync5_run (l : List (Ctx × DsCmd × List Bytes)) (h : ∀ x ∈ l, ∃ n, x.1 = later n)
    (ha : ∀ x ∈ l, ArgsOK x.2.2) (hl : l.length < maxEvents) :
    SyncRun none sync5 7 exCtx.now (traceOf (fun _ => []) (freshStore .user) l)
      (runCmds (fun _ => []) (freshStore .user) l).1 (runCmds (fun _ => []) (freshStore .user) l).2.1
      (freshDisk .user sync5 l) := by
  refine syncRun_of_cmds sync5 l ?_ ?_ hl
  · intro x hx
    obtain ⟨n, e⟩ := h x hx
    rw [e]; rfl
  · intro x hx
    obtain ⟨n, e⟩ := h x hx
    refine ⟨by rw [e]; exact later_ok n, ha x hx, ?_⟩
    rw [e]; exact ⟨rfl, rfl, rfl, rfl, rfl⟩

theorem timeCmds_run : SyncRun none sync5 7 exCtx.now (traceOf (fun _ => []) (freshStore .user) timeCmds)
    (runCmds (fun _ => []) (freshStore .user) timeCmds).1 (runCmds (fun _ => []) (freshStore .user) timeCmds).2.1
    (freshDisk .user sync5 timeCmds) := by
  refine sync5_run timeCmds ?_ ?_ (by decide)
  · intro x hx
    simp only [timeCmds, List.mem_cons, List.not_mem_nil, or_false] at hx
    rcases hx with rfl | rfl | rfl | rfl
    all_goals exact ⟨_, rfl⟩
  · intro x hx
    simp only [timeCmds, List.mem_cons, List.not_mem_nil, or_false] at hx
    rcases hx with rfl | rfl | rfl | rfl
    all_goals exact ⟨⟨_, _, rfl, by decide⟩, by decide⟩

set_option maxRecDepth 100000 in
/-- A case meeting the hypotheses of `C64_partial`: the SETs of the seconds 1 and 10 are kept, those of the seconds
    12 and 15 are lost. -/
example : SyncRun none sync5 7 exCtx.now (traceOf (fun _ => []) (freshStore .user) timeCmds)
      (runCmds (fun _ => []) (freshStore .user) timeCmds).1 (runCmds (fun _ => []) (freshStore .user) timeCmds).2.1
      (freshDisk .user sync5 timeCmds) ∧
    (∀ x ∈ traceOf (fun _ => []) (freshStore .user) timeCmds, NoDel x.1) ∧
    (runCmds (fun _ => []) (freshStore .user) timeCmds).2.1.ifiles.length = 1 ∧
    Clock (traceOf (fun _ => []) (freshStore .user) timeCmds) ∧
    (∀ x ∈ traceOf (fun _ => []) (freshStore .user) timeCmds, ∀ a, evTime x.1 = some a → exCtx.now ≤ a) ∧
    afterLoss none (freshDisk .user sync5 timeCmds)
      [(exCtx, .get, [str "GET", str "a"]), (exCtx, .get, [str "GET", str "b"]), (exCtx, .get, [str "GET", str "c"])] =
      some [.bulk (str "one"), .bulk (str "two"), .nil] :=
  ⟨timeCmds_run, by simp [traceOf, timeCmds, NoDel], by decide +kernel,
   by simp [Clock, traceOf, timeCmds, evTime, later], by simp [traceOf, timeCmds, evTime, later], rfl⟩

/-- A key stored, then the files changed. -/
def leaveCmds : List (Ctx × DsCmd × List Bytes) :=
  [(later 1, .set, [str "SET", str "a", str "one"]),
   (later 2, .nsjump, [str "NSJUMP"]),
   (later 3600, .set, [str "SET", str "b", str "two"])]

set_option maxRecDepth 100000 in
/-- C64 is false when the files change: the file left is never synced.  The SET of `b`, an hour after the one of
    `a`, is kept, and the one of `a` is lost. -/
theorem C64_jump_refuted :
    SyncRun none sync5 7 exCtx.now (traceOf (fun _ => []) (freshStore .user) leaveCmds)
      (runCmds (fun _ => []) (freshStore .user) leaveCmds).1 (runCmds (fun _ => []) (freshStore .user) leaveCmds).2.1
      (freshDisk .user sync5 leaveCmds) ∧
    (runCmds (fun _ => []) (freshStore .user) leaveCmds).2.2 = [.bulk (str "a"), .ok, .bulk (str "b")] ∧
    PowerLoss (freshDisk .user sync5 leaveCmds) ((freshDisk .user sync5 leaveCmds).i.map fun f => f.safe.getD [])
      ((freshDisk .user sync5 leaveCmds).d.map fun f => f.safe.getD []) ∧
    afterLoss none (freshDisk .user sync5 leaveCmds)
      [(exCtx, .get, [str "GET", str "a"]), (exCtx, .get, [str "GET", str "b"])] =
      some [.nil, .bulk (str "two")] := by
  refine ⟨sync5_run leaveCmds ?_ ?_ (by decide), rfl, powerLoss_safe _, rfl⟩
  · intro x hx
    simp only [leaveCmds, List.mem_cons, List.not_mem_nil, or_false] at hx
    rcases hx with rfl | rfl | rfl
    all_goals exact ⟨_, rfl⟩
  · intro x hx
    simp only [leaveCmds, List.mem_cons, List.not_mem_nil, or_false] at hx
    rcases hx with rfl | rfl | rfl
    all_goals exact ⟨⟨_, _, rfl, by decide⟩, by decide⟩

/-- Two keys stored, then deleted an hour apart. -/
def dropCmds : List (Ctx × DsCmd × List Bytes) :=
  [(later 1, .set, [str "SET", str "a", str "one"]),
   (later 10, .set, [str "SET", str "b", str "two"]),
   (later 11, .del, [str "DEL", str "a"]),
   (later 3600, .del, [str "DEL", str "b"])]

set_option maxRecDepth 100000 in
/-- C64 is false for deletions: both DELs, an hour apart, are lost. -/
theorem C64_del_refuted :
    SyncRun none sync5 7 exCtx.now (traceOf (fun _ => []) (freshStore .user) dropCmds)
      (runCmds (fun _ => []) (freshStore .user) dropCmds).1 (runCmds (fun _ => []) (freshStore .user) dropCmds).2.1
      (freshDisk .user sync5 dropCmds) ∧
    (runCmds (fun _ => []) (freshStore .user) dropCmds).2.2 = [.bulk (str "a"), .bulk (str "b"), .ok, .ok] ∧
    PowerLoss (freshDisk .user sync5 dropCmds) ((freshDisk .user sync5 dropCmds).i.map fun f => f.safe.getD [])
      ((freshDisk .user sync5 dropCmds).d.map fun f => f.safe.getD []) ∧
    afterLoss none (freshDisk .user sync5 dropCmds)
      [(exCtx, .get, [str "GET", str "a"]), (exCtx, .get, [str "GET", str "b"])] =
      some [.bulk (str "one"), .bulk (str "two")] := by
  refine ⟨sync5_run dropCmds ?_ ?_ (by decide), rfl, powerLoss_safe _, rfl⟩
  · intro x hx
    simp only [dropCmds, List.mem_cons, List.not_mem_nil, or_false] at hx
    rcases hx with rfl | rfl | rfl | rfl
    all_goals exact ⟨_, rfl⟩
  · intro x hx
    simp only [dropCmds, List.mem_cons, List.not_mem_nil, or_false] at hx
    rcases hx with rfl | rfl | rfl | rfl
    all_goals exact ⟨⟨_, _, rfl, by decide⟩, by decide⟩

/-- The first `n` bytes of the oldest pending write reached the disk, and nothing else. -/
def DFile.torn (n : Nat) (f : DFile) : Bytes :=
  match f.pend with
  | [] => f.safe.getD []
  | w :: _ => ((byteWrites w).take n).foldl (fun b x => pwrite b x.1 [x.2]) (f.safe.getD [])

theorem torn_partly (n : Nat) (f : DFile) : Partly (f.safe.getD []) f.pend (f.torn n) := by
  unfold DFile.torn
  split
  · rename_i h; rw [h]; exact .nil _
  · rename_i w ws h
    rw [h]
    exact .cons _ (List.take_sublist _ _) (partly_none _ _)

/-- Two keys stored and synced, then a third. -/
def thirdCmds : List (Ctx × DsCmd × List Bytes) :=
  [(later 1, .set, [str "SET", str "a", str "one"]),
   (later 3000, .set, [str "SET", str "b", str "two"]),
   (later 3001, .set, [str "SET", str "c", str "three"])]

set_option maxRecDepth 100000 in
/-- C64 is false when a part of a write not yet synced reached the disk: with the first 10 bytes of the index item
    of `c`, the index is refused and nothing can be read, not even `a`, stored and synced long before. -/
theorem C64_torn_refuted :
    SyncRun none sync5 7 exCtx.now (traceOf (fun _ => []) (freshStore .user) thirdCmds)
      (runCmds (fun _ => []) (freshStore .user) thirdCmds).1 (runCmds (fun _ => []) (freshStore .user) thirdCmds).2.1
      (freshDisk .user sync5 thirdCmds) ∧
    PowerLoss (freshDisk .user sync5 thirdCmds) ((freshDisk .user sync5 thirdCmds).i.map (DFile.torn 10))
      ((freshDisk .user sync5 thirdCmds).d.map fun f => f.safe.getD []) ∧
    ∀ br s, loadNs none (fun _ => []) 7 ((freshDisk .user sync5 thirdCmds).i.map (DFile.torn 10))
      ((freshDisk .user sync5 thirdCmds).d.map fun f => f.safe.getD []) ≠ .ok br s := by
  refine ⟨sync5_run thirdCmds ?_ ?_ (by decide), ⟨by simp, by simp, ?_, ?_⟩, ?_⟩
  · intro x hx
    simp only [thirdCmds, List.mem_cons, List.not_mem_nil, or_false] at hx
    rcases hx with rfl | rfl | rfl
    all_goals exact ⟨_, rfl⟩
  · intro x hx
    simp only [thirdCmds, List.mem_cons, List.not_mem_nil, or_false] at hx
    rcases hx with rfl | rfl | rfl
    all_goals exact ⟨⟨_, _, rfl, by decide⟩, by decide⟩
  · intro n f h
    rw [List.getElem?_map, h]
    exact .kept (torn_partly _ _)
  · intro n f h
    rw [List.getElem?_map, h]
    exact .kept (partly_none _ _)
  · intro br s h
    have : (match loadNs none (fun _ => []) 7 ((freshDisk .user sync5 thirdCmds).i.map (DFile.torn 10))
      ((freshDisk .user sync5 thirdCmds).d.map fun f => f.safe.getD []) with
      | .ok _ _ => true
      | _ => false) = false := by decide +kernel
    rw [h] at this
    cases this

/-- Two keys stored, each with an acknowledgement. -/
def twoCmds : List (Ctx × DsCmd × List Bytes) :=
  [(exCtx, .set, [str "SET", str "a", str "one"]),
   (exCtx, .set, [str "SET", str "b", str "two"])]

/-- The disk in the middle of a third SET: its record is written and synced, its index item is written, the `fsync` that
    follows is not yet called. -/
def midSet : Disk :=
  runOps syncOn exCtx.now (freshDisk .user syncOn twoCmds)
    ((dsOps exCtx (runCmds (fun _ => []) (freshStore .user) twoCmds).1 (runCmds (fun _ => []) (freshStore .user) twoCmds).2.1
      .set [str "SET", str "c", str "three"]).take 4)

set_option maxRecDepth 100000 in
/-- C63 is false for a power loss in the middle of a command: under `--sync`, `a` and `b` are acknowledged, and the power is lost
    while `c` is stored.  If 10 bytes of its index item reached the disk, the index is refused at the next start and
    no key can be read.  The item before was synced, and this is the only write pending on the index. -/
theorem C63_torn_refuted :
    SyncRun none syncOn 7 exCtx.now (traceOf (fun _ => []) (freshStore .user) twoCmds)
      (runCmds (fun _ => []) (freshStore .user) twoCmds).1 (runCmds (fun _ => []) (freshStore .user) twoCmds).2.1
      (freshDisk .user syncOn twoCmds) ∧
    (runCmds (fun _ => []) (freshStore .user) twoCmds).2.2 = [.bulk (str "a"), .bulk (str "b")] ∧
    midSet.i.map (fun f => f.pend.length) = [1] ∧ midSet.d.map (fun f => f.pend.length) = [0] ∧
    PowerLoss midSet (midSet.i.map (DFile.torn 10)) (midSet.d.map fun f => f.safe.getD []) ∧
    ∀ br s, loadNs none (fun _ => []) 7 (midSet.i.map (DFile.torn 10)) (midSet.d.map fun f => f.safe.getD []) ≠ .ok br s := by
  refine ⟨syncRun_of_cmds syncOn twoCmds (by decide) ?_ (by decide), rfl, by decide +kernel, by decide +kernel,
    ⟨by simp, by simp, ?_, ?_⟩, ?_⟩
  · intro x hx
    simp only [twoCmds, List.mem_cons, List.not_mem_nil, or_false] at hx
    rcases hx with rfl | rfl
    all_goals exact ⟨exCtx_ok, ⟨⟨_, _, rfl, by decide⟩, by decide⟩, rfl, rfl, rfl, rfl, rfl⟩
  · intro n f h
    rw [List.getElem?_map, h]
    exact .kept (torn_partly _ _)
  · intro n f h
    rw [List.getElem?_map, h]
    exact .kept (partly_none _ _)
  · intro br s h
    have : (match loadNs none (fun _ => []) 7 (midSet.i.map (DFile.torn 10)) (midSet.d.map fun f => f.safe.getD []) with
      | .ok _ _ => true
      | _ => false) = false := by decide +kernel
    rw [h] at this
    cases this

end Zdb
