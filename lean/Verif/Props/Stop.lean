/-
Power losses after the server was stopped (C77).
-/
import Verif.Lemmas.Stop
import Verif.Props.Sync
import Verif.Lemmas.ReplyEq
namespace Zdb

/-- C77, user-key mode, files synced when they are left (`--secure`), whatever `--sync` and `--synctime` say.  The server is stopped
    after any execution, restarts included, and the power is lost afterwards, whatever part of the writes not followed by an
    `fsync` reached the disk.  The files left are loaded without error, and each key has the payload of its last acknowledged
    SET if it was not deleted since; a deleted key reads nothing or the payload it had before its deletion.  From there
    every execution, with failing writes or not, goes on from that value.
    Missing: deletions (`C77_del_refuted`), executions without `--secure` (`C77_leave_refuted`; `C77_one_partial` for those that have
    not left the first files), sequential mode with several files (`C77_seq_partial`), a signal in the middle of a command, failing writes. -/
theorem C77_partial {cfg : Option Mode} {cf : SyncConf} (hcf : cf.secure = true) {u t : Nat}
    {tr : List (NsEvent × Reply)} {br : Branches} {s : Store} {D : Disk} (h : SyncRun cfg cf u t tr br s D)
    {fi fd : List Bytes} (hp : PowerLoss (D.stopped s) fi fd) {br0 : Branches} {v : Nat}
    (hbr : ∀ h, (br0 h).filter (fun e => e.ns == v) = []) :
    ∃ br1 s1, loadNs cfg br0 v fi fd = .ok br1 s1 ∧ ∀ k, ∃ w, MayKeep k tr w ∧
      ∀ tr' br' s', NsRun cfg v br1 s1 tr' br' s' → (∀ x ∈ tr', FaultOK x.1) →
        tr.length + tr'.length < maxEvents → Spared k w tr' →
        ∀ (c : Ctx) (name : Bytes), c.u = v → name ≠ [] → k ≠ [] → k.length ≤ 255 → c.conf.lock ≠ .frozen →
          cmdGet c br' s' [name, k] = getReply (tr'.foldl (fun a x => (writeOf k x).getD a) w) ∧
          cmdExists c br' s' [name, k] = existsReply (tr'.foldl (fun a x => (writeOf k x).getD a) w) ∧
          cmdLength c br' s' [name, k] = lengthReply (tr'.foldl (fun a x => (writeOf k x).getD a) w) ∧
          cmdCheck c br' s' [name, k] = checkReply (tr'.foldl (fun a x => (writeOf k x).getD a) w) := by
  obtain ⟨b0, b, s0, h0, h1, h2⟩ := h.run
  have hm : cfg.getD .user = .user := by rcases h.hcfg with rfl | rfl <;> rfl
  rw [freshNs_eq, hm] at h1
  injection h1 with h1 h1'
  subst h1; subst h1'
  have hlen := h.len
  obtain ⟨G, i1, i2, i3, i4⟩ := DInv.run_stop h.hcfg hcf h2 (freshStore_uinv b0 u h0) (DInv.fresh_stop cf _ _ _) h.ev
    (freshStore_room _ (by omega))
  obtain ⟨br1, s1, j1, j2, j3, j4, j5⟩ := i2.loaded h.hcfg i1 h.len
    (by
      have := i1.irep.length
      simp only [freshStore, List.length_cons, List.length_nil] at i3
      omega)
    (by
      intro k
      rw [(i4 k).1]
      simp [lastWrite, liveGet, live, locs, locsFrom, locsIn])
    (by
      intro k
      rw [(i4 k).2]
      simp only [lastSet, locs, locsFrom, locsIn, lastOf, List.append_nil, List.filter_nil, List.getLast?_nil, Option.map_none]
      rfl) hp hbr
  refine ⟨br1, s1, j1, fun k => ?_⟩
  obtain ⟨w, hw, hv⟩ := j5 k
  refine ⟨w, hw, ?_⟩
  intro tr' br' s' hr hev hlen hsp c name hu hn hk hl hf
  subst hu
  unfold maxEvents at hlen
  obtain ⟨j1, -, -, j2⟩ := faultRun_val hr hev j2 j3 (by omega) hv hsp
  exact j2.reads j1 name hn hk hl hf

/-- Without a deletion since its last SET, a key keeps its payload. -/
theorem C77_set_partial {cfg : Option Mode} {cf : SyncConf} (hcf : cf.secure = true) {u t : Nat}
    {tr : List (NsEvent × Reply)} {br : Branches} {s : Store} {D : Disk} (h : SyncRun cfg cf u t tr br s D)
    {fi fd : List Bytes} (hp : PowerLoss (D.stopped s) fi fd) {br0 : Branches} {v : Nat}
    (hbr : ∀ h, (br0 h).filter (fun e => e.ns == v) = []) {k p : Bytes} (hkp : lastWrite k tr = some p)
    (hk : k ≠ []) (hl : k.length ≤ 255) (c : Ctx) (name : Bytes) (hu : c.u = v) (hn : name ≠ [])
    (hf : c.conf.lock ≠ .frozen) :
    ∃ br1 s1, loadNs cfg br0 v fi fd = .ok br1 s1 ∧ cmdGet c br1 s1 [name, k] = .bulk p := by
  obtain ⟨br1, s1, h1, h2⟩ := C77_partial hcf h hp hbr
  obtain ⟨w, hw, h3⟩ := h2 k
  refine ⟨br1, s1, h1, ?_⟩
  have hlen := h.len
  have := (h3 [] br1 s1 (.nil _ _) (by simp) (by simpa using hlen) trivial c name hu hn hk hl hf).1
  rw [this]
  rcases hw with rfl | ⟨h4, -⟩
  · rw [hkp]; rfl
  · rw [h4] at hkp; cases hkp

/-- C77 with a single pair of files: in any mode, whatever the options, whatever writes fail, the files found after a stop and a
    power loss are those that a server would find that was started again without the power loss.
    Missing: several files (`C77_leave_refuted`), restarts before the stop. -/
theorem C77_one_partial {cfg : Option Mode} {cf : SyncConf} {u t : Nat} {tr : List (NsEvent × Reply)} {br0 br br' : Branches} {s s' : Store}
    {D' : Disk} (h0 : freshNs cfg br0 u = .ok br s) (h : DiskRun cfg cf u br s (Disk.fresh cf t (cfg.getD .user)) tr br' s' D')
    (hev : ∀ x ∈ tr, x.1 ≠ .reload) (hlen : tr.length < maxEvents) (h1 : s'.ifiles.length = 1)
    {fi fd : List Bytes} (hp : PowerLoss (D'.stopped s') fi fd) : fi = s'.ifiles ∧ fd = s'.dfiles := by
  rw [freshNs_eq] at h0
  injection h0 with e1 e2
  subst e2
  have hs := (freshStore_files (cfg.getD .user)).1
  obtain ⟨k1, k2⟩ := h.view hs (fresh_view cf t _) hev (by
    have : (freshStore (cfg.getD .user)).indexid = 0 := rfl
    unfold maxEvents at hlen
    omega)
  exact hp.one k2 k1 h1

/-! ### witnesses -/

/-- The option `--secure` alone. -/
def secureOn : SyncConf := { sync := false, synctime := 0, secure := true }

/-- No option. -/
def syncOff : SyncConf := { sync := false, synctime := 0, secure := false }

theorem secureRun_of (cf : SyncConf) (l : List (Ctx × DsCmd × List Bytes)) (h : ∀ x ∈ l, ∃ n, x.1 = later n)
    (ha : ∀ x ∈ l, ArgsOK x.2.2) (hl : l.length < maxEvents) :
    SyncRun none cf 7 exCtx.now (traceOf (fun _ => []) (freshStore .user) l)
      (runCmds (fun _ => []) (freshStore .user) l).1 (runCmds (fun _ => []) (freshStore .user) l).2.1
      (freshDisk .user cf l) := by
  refine syncRun_of_cmds cf l ?_ ?_ hl
  · intro x hx
    obtain ⟨n, e⟩ := h x hx
    rw [e]; rfl
  · intro x hx
    obtain ⟨n, e⟩ := h x hx
    refine ⟨by rw [e]; exact later_ok n, ha x hx, ?_⟩
    rw [e]; exact ⟨rfl, rfl, rfl, rfl, rfl⟩

/-- The disk after some commands and a stop. -/
def stoppedDisk (m : Mode) (cf : SyncConf) (l : List (Ctx × DsCmd × List Bytes)) : Disk :=
  (freshDisk m cf l).stopped (runCmds (fun _ => []) (freshStore m) l).2.1

theorem leaveCmds_run (cf : SyncConf) : SyncRun none cf 7 exCtx.now (traceOf (fun _ => []) (freshStore .user) leaveCmds)
    (runCmds (fun _ => []) (freshStore .user) leaveCmds).1 (runCmds (fun _ => []) (freshStore .user) leaveCmds).2.1
    (freshDisk .user cf leaveCmds) := by
  refine secureRun_of cf leaveCmds ?_ ?_ (by decide)
  · intro x hx
    simp only [leaveCmds, List.mem_cons, List.not_mem_nil, or_false] at hx
    rcases hx with rfl | rfl | rfl
    all_goals exact ⟨_, rfl⟩
  · intro x hx
    simp only [leaveCmds, List.mem_cons, List.not_mem_nil, or_false] at hx
    rcases hx with rfl | rfl | rfl
    all_goals exact ⟨⟨_, _, rfl, by decide⟩, by decide⟩

set_option maxRecDepth 100000 in
/-- A case meeting the hypotheses of `C77_partial`: two files, nothing synced before the stop but the file that was left.  Both
    keys are read after the power loss. -/
theorem C77_example :
    SyncRun none secureOn 7 exCtx.now (traceOf (fun _ => []) (freshStore .user) leaveCmds)
      (runCmds (fun _ => []) (freshStore .user) leaveCmds).1 (runCmds (fun _ => []) (freshStore .user) leaveCmds).2.1
      (freshDisk .user secureOn leaveCmds) ∧
    (freshDisk .user secureOn leaveCmds).i.map (fun f => f.safe.isSome) = [true, false] ∧
    PowerLoss (stoppedDisk .user secureOn leaveCmds) ((stoppedDisk .user secureOn leaveCmds).i.map fun f => f.safe.getD [])
      ((stoppedDisk .user secureOn leaveCmds).d.map fun f => f.safe.getD []) ∧
    afterLoss none (stoppedDisk .user secureOn leaveCmds)
      [(exCtx, .get, [str "GET", str "a"]), (exCtx, .get, [str "GET", str "b"])] =
      some [.bulk (str "one"), .bulk (str "two")] :=
  ⟨leaveCmds_run _, by decide +kernel, powerLoss_safe _, by decide +kernel⟩

set_option maxRecDepth 100000 in
/-- A case meeting the hypotheses of `C77_one_partial`: no option, sequential mode, an overwrite and a deletion, which are kept
    here and lost without the stop. -/
theorem C77_one_example :
    DiskRun (some .seq) syncOff 7 (fun _ => []) (freshStore .seq) (Disk.fresh syncOff exCtx.now .seq)
      (traceOf (fun _ => []) (freshStore .seq) overCmds) (runCmds (fun _ => []) (freshStore .seq) overCmds).1
      (runCmds (fun _ => []) (freshStore .seq) overCmds).2.1 (freshDisk .seq syncOff overCmds) ∧
    (runCmds (fun _ => []) (freshStore .seq) overCmds).2.1.ifiles.length = 1 ∧
    PowerLoss (stoppedDisk .seq syncOff overCmds) ((stoppedDisk .seq syncOff overCmds).i.map fun f => f.safe.getD [])
      ((stoppedDisk .seq syncOff overCmds).d.map fun f => f.safe.getD []) ∧
    afterLoss (some .seq) (stoppedDisk .seq syncOff overCmds)
      [(exCtx, .get, [str "GET", sid 0]), (exCtx, .get, [str "GET", sid 1])] = some [.bulk (str "uno"), .nil] :=
  ⟨diskCmds_run _ _ _ _ (by decide) _ _ _, by decide +kernel, powerLoss_safe _, by decide +kernel⟩

set_option maxRecDepth 100000 in
/-- C77 is false without `--secure`: `--synctime 5`, an hour between the file change and the stop; the file left is not synced by the
    stop.  The acknowledged `a` is lost. -/
theorem C77_leave_refuted :
    SyncRun none sync5 7 exCtx.now (traceOf (fun _ => []) (freshStore .user) leaveCmds)
      (runCmds (fun _ => []) (freshStore .user) leaveCmds).1 (runCmds (fun _ => []) (freshStore .user) leaveCmds).2.1
      (freshDisk .user sync5 leaveCmds) ∧
    lastWrite (str "a") (traceOf (fun _ => []) (freshStore .user) leaveCmds) = some (str "one") ∧
    PowerLoss (stoppedDisk .user sync5 leaveCmds) ((stoppedDisk .user sync5 leaveCmds).i.map fun f => f.safe.getD [])
      ((stoppedDisk .user sync5 leaveCmds).d.map fun f => f.safe.getD []) ∧
    afterLoss none (stoppedDisk .user sync5 leaveCmds)
      [(exCtx, .get, [str "GET", str "a"]), (exCtx, .get, [str "GET", str "b"])] = some [.nil, .bulk (str "two")] :=
  ⟨leaveCmds_run _, by decide +kernel, powerLoss_safe _, by decide +kernel⟩

set_option maxRecDepth 100000 in
/-- Without any option nothing of the file left is on the disk.  It is found empty, and both keys are lost, although the file of
    `b` was synced by the stop. -/
theorem C77_default_refuted :
    SyncRun none syncOff 7 exCtx.now (traceOf (fun _ => []) (freshStore .user) leaveCmds)
      (runCmds (fun _ => []) (freshStore .user) leaveCmds).1 (runCmds (fun _ => []) (freshStore .user) leaveCmds).2.1
      (freshDisk .user syncOff leaveCmds) ∧
    lastWrite (str "b") (traceOf (fun _ => []) (freshStore .user) leaveCmds) = some (str "two") ∧
    PowerLoss (stoppedDisk .user syncOff leaveCmds) ((stoppedDisk .user syncOff leaveCmds).i.map fun f => f.safe.getD [])
      ((stoppedDisk .user syncOff leaveCmds).d.map fun f => f.safe.getD []) ∧
    afterLoss none (stoppedDisk .user syncOff leaveCmds)
      [(exCtx, .get, [str "GET", str "a"]), (exCtx, .get, [str "GET", str "b"])] = some [.nil, .nil] :=
  ⟨leaveCmds_run _, by decide +kernel, powerLoss_safe _, by decide +kernel⟩

/-- A key stored, the files changed, the key deleted. -/
def goneCmds : List (Ctx × DsCmd × List Bytes) :=
  [(later 1, .set, [str "SET", str "a", str "one"]),
   (later 2, .nsjump, [str "NSJUMP"]),
   (later 3600, .del, [str "DEL", str "a"])]

set_option maxRecDepth 100000 in
/-- C77 is false for deletions even with `--secure`, in a file that was left: the DEL was acknowledged, and after the stop and the
    power loss GET answers the payload. -/
theorem C77_del_refuted :
    SyncRun none secureOn 7 exCtx.now (traceOf (fun _ => []) (freshStore .user) goneCmds)
      (runCmds (fun _ => []) (freshStore .user) goneCmds).1 (runCmds (fun _ => []) (freshStore .user) goneCmds).2.1
      (freshDisk .user secureOn goneCmds) ∧
    (runCmds (fun _ => []) (freshStore .user) goneCmds).2.2 = [.bulk (str "a"), .ok, .ok] ∧
    PowerLoss (stoppedDisk .user secureOn goneCmds) ((stoppedDisk .user secureOn goneCmds).i.map fun f => f.safe.getD [])
      ((stoppedDisk .user secureOn goneCmds).d.map fun f => f.safe.getD []) ∧
    afterLoss none (stoppedDisk .user secureOn goneCmds) [(exCtx, .get, [str "GET", str "a"])] = some [.bulk (str "one")] := by
  refine ⟨secureRun_of secureOn goneCmds ?_ ?_ (by decide), by decide +kernel, powerLoss_safe _, by decide +kernel⟩
  · intro x hx
    simp only [goneCmds, List.mem_cons, List.not_mem_nil, or_false] at hx
    rcases hx with rfl | rfl | rfl
    all_goals exact ⟨_, rfl⟩
  · intro x hx
    simp only [goneCmds, List.mem_cons, List.not_mem_nil, or_false] at hx
    rcases hx with rfl | rfl | rfl
    all_goals exact ⟨⟨_, _, rfl, by decide⟩, by decide⟩

end Zdb
