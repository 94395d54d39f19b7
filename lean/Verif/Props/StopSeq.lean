/-
Power losses after the server was stopped, sequential mode (C77).
-/
import Verif.Lemmas.StopSeq
import Verif.Props.SyncSeq
import Verif.Props.Stop
namespace Zdb

/-- C77 in sequential mode, files synced when they are left (`--secure`), whatever `--sync` and `--synctime` say.  The server is
    stopped after any execution in which ids are only added, restarts included, and the power is lost afterwards, whatever
    part of the writes not followed by an `fsync` reached the disk.  The files are loaded without error, and the replies of
    every execution that goes on from there, overwrites, deletions and restarts included, are those of the same list of numbered
    slots: nothing happened.
    Missing: executions that overwrite or delete (`C77_seq_refuted`; `C77_one_partial` for those that have not left the first files), executions
    without `--secure`, a signal in the middle of a command, failing writes, what `SeqRun` excludes; the current index file must have items
    or be the only one, as for a clean restart (`C05_refuted`). -/
theorem C77_seq_partial {cf : SyncConf} (hcf : cf.secure = true) {u t : Nat} {tr : List (NsEvent × Reply)} {br : Branches}
    {s : Store} {D : Disk} (h : SeqSyncRun cf u t tr br s D) (hlast : s.indexid = 0 ∨ 29 < fileLen s.ifiles s.indexid)
    {fi fd : List Bytes} (hp : PowerLoss (D.stopped s) fi fd) (br0 : Branches) (v : Nat) :
    ∃ br1 s1, loadNs (some .seq) br0 v fi fd = .ok br1 s1 ∧
      ∀ tr' br' s', CleanRun (some .seq) v br1 s1 tr' br' s' → (∀ x ∈ tr', EvOK x.1) →
        NearRun [] ((tr ++ tr').map (·.1)) → tr.length + tr'.length < maxEvents → SeqAgrees [] (tr ++ tr') := by
  obtain ⟨h1, h2, h3, G, h4, h5, h6⟩ := h.olds hcf (n := 0) h.len
  obtain ⟨rfl, rfl⟩ := h1.loss h4 h2 hp
  have hid := h4.iid
  have hfl := h4.fileLen
  have hlen := h4.irep.length
  obtain ⟨s1, k1, k2, k3, k4, -⟩ := h4.reload br0 v (some .seq) (Or.inr rfl) (by have := h3.1; omega) (by omega)
  refine ⟨br0, s1, ?_, ?_⟩
  · have : reloadNs (some .seq) br0 v s = loadNs (some .seq) br0 v s.ifiles s.dfiles := by
      simp only [reloadNs, h4.mode]
    rw [← this]; exact k1
  intro tr' br' s' hr hev hnear hl
  obtain ⟨-, -, h3, -⟩ := h.olds hcf (n := tr'.length) hl
  rw [List.map_append, nearRun_append] at hnear
  obtain ⟨-, -, -, j⟩ := SInv.run (Or.inr rfl) hr k2 hev (by rw [h5]; exact hnear.2)
    (by rw [k3, totalData, k4]; exact h3)
  rw [seqAgrees_append]
  exact ⟨h6, by rw [← h5]; exact j⟩

/-! ### witnesses -/

theorem addCmds_secure : SeqSyncRun secureOn 7 exCtx.now (traceOf (fun _ => []) (freshStore .seq) addCmds)
    (runCmds (fun _ => []) (freshStore .seq) addCmds).1 (runCmds (fun _ => []) (freshStore .seq) addCmds).2.1
    (freshDisk .seq secureOn addCmds) where
  run := ⟨fun _ => [], fun _ => [], freshStore .seq, freshNs_eq (some .seq) _ 7,
    cleanDisk_run (by decide) (by decide +kernel)⟩
  ev := addCmds_run.ev
  near := addCmds_run.near
  len := addCmds_run.len

set_option maxRecDepth 100000 in
/-- A case that meets the hypotheses: two files, three ids, of which nothing but the files that were left was synced before the
    stop. -/
theorem C77_seq_example :
    SeqSyncRun secureOn 7 exCtx.now (traceOf (fun _ => []) (freshStore .seq) addCmds)
      (runCmds (fun _ => []) (freshStore .seq) addCmds).1 (runCmds (fun _ => []) (freshStore .seq) addCmds).2.1
      (freshDisk .seq secureOn addCmds) ∧
    (freshDisk .seq secureOn addCmds).i.map (fun f => f.safe.isSome) = [true, false] ∧
    (runCmds (fun _ => []) (freshStore .seq) addCmds).2.1.indexid = 1 ∧
    29 < fileLen (runCmds (fun _ => []) (freshStore .seq) addCmds).2.1.ifiles 1 ∧
    PowerLoss (stoppedDisk .seq secureOn addCmds) ((stoppedDisk .seq secureOn addCmds).i.map fun f => f.safe.getD [])
      ((stoppedDisk .seq secureOn addCmds).d.map fun f => f.safe.getD []) ∧
    afterLoss (some .seq) (stoppedDisk .seq secureOn addCmds)
      [(exCtx, .get, [str "GET", sid 0]), (exCtx, .get, [str "GET", sid 2]), (exCtx, .set, [str "SET", [], str "four"])] =
      some [.bulk (str "one"), .bulk (str "three"), .bulk (sid 3)] :=
  ⟨addCmds_secure, by decide +kernel, by decide +kernel, by decide +kernel, powerLoss_safe _, by decide +kernel⟩

/-- An id overwritten after its file was left, and another deleted. -/
def leftCmds : List (Ctx × DsCmd × List Bytes) :=
  addCmds ++ [(exCtx, .set, [str "SET", sid 0, str "uno"]), (exCtx, .del, [str "DEL", sid 1])]

set_option maxRecDepth 100000 in
/-- C77 is false in sequential mode even with `--secure`: an overwrite and a deletion of ids whose index file was left, both
    acknowledged before the stop, are lost. -/
theorem C77_seq_refuted :
    DiskRun (some .seq) secureOn 7 (fun _ => []) (freshStore .seq) (Disk.fresh secureOn exCtx.now .seq)
      (traceOf (fun _ => []) (freshStore .seq) leftCmds) (runCmds (fun _ => []) (freshStore .seq) leftCmds).1
      (runCmds (fun _ => []) (freshStore .seq) leftCmds).2.1 (freshDisk .seq secureOn leftCmds) ∧
    (runCmds (fun _ => []) (freshStore .seq) leftCmds).2.2.drop 4 = [.bulk (sid 0), .ok] ∧
    PowerLoss (stoppedDisk .seq secureOn leftCmds) ((stoppedDisk .seq secureOn leftCmds).i.map fun f => f.safe.getD [])
      ((stoppedDisk .seq secureOn leftCmds).d.map fun f => f.safe.getD []) ∧
    afterLoss (some .seq) (stoppedDisk .seq secureOn leftCmds)
      [(exCtx, .get, [str "GET", sid 0]), (exCtx, .get, [str "GET", sid 1])] =
      some [.bulk (str "one"), .bulk (str "two")] :=
  ⟨diskCmds_run _ _ _ _ (by decide) _ _ _, by decide +kernel, powerLoss_safe _, by decide +kernel⟩

end Zdb
