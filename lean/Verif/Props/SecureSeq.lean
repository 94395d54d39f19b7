/-
Power losses under `--synctime` with `--secure` in sequential mode (C64).
-/
import Verif.Lemmas.SecureSeq
import Verif.Props.SyncSeq
import Verif.Props.SyncSecure
namespace Zdb

/-- C64 in sequential mode, with `--secure` or in the first files.  Under `--synctime T` the power is lost after any execution
    in which ids are only added, and what is found is each file as it was when it was last synced, if it ever was.  The
    execution is cut in two: the SETs acknowledged in the second part are all within `T` seconds of the time `L`, and if the
    last index file found has items or is the only one, it is loaded without error and the replies of every execution
    that goes on from there are those that follow the first part.
    Missing: pending writes of which a part reached the disk, overwrites and deletions (`C64_seq_refuted`), restarts before the
    loss (`C64_reload_refuted`), a namespace switched to sequential mode, what `SeqRun` excludes. -/
theorem C64_seq_partial {cf : SyncConf} (hcf : cf.sync = false) (hT : 0 < cf.synctime) {u t : Nat}
    {tr : List (NsEvent × Reply)} {br : Branches} {s : Store} {D : Disk} (h : SeqSyncRun cf u t tr br s D)
    (hsec : cf.secure = true ∨ s.ifiles.length = 1)
    (hnr : ∀ x ∈ tr, NoReload x.1) (hclock : Clock tr) (ht : cf.synctime < t)
    (hlater : ∀ x ∈ tr, ∀ a, evTime x.1 = some a → t ≤ a) (n : Nat) (hn : tr.length + n < maxEvents) (br0 : Branches) (v : Nat) :
    PowerLoss D (D.i.filterMap DFile.safe) (D.d.filterMap DFile.safe) ∧
    ∃ L tr1 tr2, tr = tr1 ++ tr2 ∧
      (∀ x ∈ tr2, SeqAcked x → ∃ a, evTime x.1 = some a ∧ L ≤ a ∧ a ≤ L + cf.synctime) ∧
      (((D.i.filterMap DFile.safe).length = 1 ∨ ∃ f, (D.i.filterMap DFile.safe).getLast? = some f ∧ 29 < f.length) →
        ∃ br1 s1, loadNs (some .seq) br0 v (D.i.filterMap DFile.safe) (D.d.filterMap DFile.safe) = .ok br1 s1 ∧
          ∀ tr' br' s', CleanRun (some .seq) v br1 s1 tr' br' s' → (∀ x ∈ tr', EvOK x.1) →
            NearRun [] ((tr1 ++ tr').map (·.1)) → tr'.length ≤ n → SeqAgrees [] (tr1 ++ tr')) := by
  obtain ⟨L, tr1, tr2, e, hS, hA, G, g1, g2, g3⟩ := h.snapQ hcf rfl hT hsec hnr hclock ht hlater hn
  refine ⟨g1.powerLoss g2 g3, L, tr1, tr2, e, hS.recent, ?_⟩
  intro hlast
  obtain ⟨s0, G0, h1, h2, h3, h4⟩ := hS.state
  have e1 : D.i.filterMap DFile.safe = s0.ifiles := congrArg Prod.fst h2
  have e2 : D.d.filterMap DFile.safe = s0.dfiles := congrArg Prod.snd h2
  rw [e1] at hlast
  rw [e1, e2]
  have hid := h1.iid
  have hlen := h1.irep.length
  have hlast' : G0.length = 1 ∨ 29 < logEnd G0 := by
    rcases hlast with hl | ⟨f, hf, hl⟩
    · left; omega
    · right
      rw [← h1.fileLen]
      rw [List.getLast?_eq_getElem?] at hf
      have : s0.indexid = s0.ifiles.length - 1 := by omega
      rw [fileLen, this, hf]
      exact hl
  obtain ⟨s1, k1, k2, k3, k4, -⟩ := h1.reload br0 v (some .seq) (Or.inr rfl) (by have := h4.1; omega) hlast'
  refine ⟨br0, s1, ?_, ?_⟩
  · have : reloadNs (some .seq) br0 v s0 = loadNs (some .seq) br0 v s0.ifiles s0.dfiles := by
      simp only [reloadNs, h1.mode]
    rw [← this]; exact k1
  intro tr' br' s' hr hev hnear hl
  rw [List.map_append, nearRun_append] at hnear
  obtain ⟨-, -, -, j⟩ := SInv.run (Or.inr rfl) hr k2 hev (by rw [h3]; exact hnear.2)
    (by rw [k3, totalData, k4]; exact h4.mono hl)
  rw [seqAgrees_append]
  rw [e, seqAgrees_append] at hA
  exact ⟨hA.1, by rw [← h3]; exact j⟩

/-! ### a concrete case -/

/-- Two ids, the files changed, three ids in the new ones, the last one not yet synced. -/
def addLater : List (Ctx × DsCmd × List Bytes) :=
  [(later 1, .set, [str "SET", [], str "one"]),
   (later 2, .set, [str "SET", [], str "two"]),
   (later 3, .nsjump, [str "NSJUMP"]),
   (later 4, .set, [str "SET", [], str "three"]),
   (later 20, .set, [str "SET", [], str "four"]),
   (later 25, .set, [str "SET", [], str "five"])]

theorem addLater_run : SeqSyncRun secure5 7 exCtx.now (traceOf (fun _ => []) (freshStore .seq) addLater)
    (runCmds (fun _ => []) (freshStore .seq) addLater).1 (runCmds (fun _ => []) (freshStore .seq) addLater).2.1
    (freshDisk .seq secure5 addLater) where
  run := ⟨fun _ => [], fun _ => [], freshStore .seq, freshNs_eq (some .seq) _ 7,
    cleanDisk_run (by decide) (by decide +kernel)⟩
  ev := by
    intro x hx
    obtain ⟨y, hy, he⟩ := mem_traceOf hx
    rw [he]
    simp only [addLater, List.mem_cons, List.not_mem_nil, or_false] at hy
    rcases hy with rfl | rfl | rfl | rfl | rfl | rfl
    all_goals exact ⟨⟨later_ok _, ⟨_, _, rfl, by decide⟩, by decide⟩, ⟨rfl, rfl, rfl, rfl, rfl⟩, by decide, by
      intro _ k hk; revert hk; first | (intro hk; cases hk; rfl) | (intro hk; cases hk)⟩
  near := nearCmds_run _ _ (by decide +kernel)
  len := by rw [traceOf_length]; decide

set_option maxRecDepth 100000 in
/-- A case that meets the hypotheses of `C64_seq_partial`: the ids 0 to 3 are kept, in two files; the SET of the second 25, which
    gave the id 4, is lost, and the next SET gives this id again. -/
theorem C64_seq_example :
    SeqSyncRun secure5 7 exCtx.now (traceOf (fun _ => []) (freshStore .seq) addLater)
      (runCmds (fun _ => []) (freshStore .seq) addLater).1 (runCmds (fun _ => []) (freshStore .seq) addLater).2.1
      (freshDisk .seq secure5 addLater) ∧
    (traceOf (fun _ => []) (freshStore .seq) addLater).map (fun x => x.2) =
      [.bulk (sid 0), .bulk (sid 1), .ok, .bulk (sid 2), .bulk (sid 3), .bulk (sid 4)] ∧
    ((freshDisk .seq secure5 addLater).i.filterMap DFile.safe).map List.length = [29 + 2 * 42, 29 + 2 * 42] ∧
    afterLoss (some .seq) (freshDisk .seq secure5 addLater)
      [(exCtx, .get, [str "GET", sid 0]), (exCtx, .get, [str "GET", sid 3]), (exCtx, .get, [str "GET", sid 4]),
       (exCtx, .set, [str "SET", [], str "six"])] =
      some [.bulk (str "one"), .bulk (str "four"), .nil, .bulk (sid 4)] :=
  ⟨addLater_run, rfl, by decide +kernel, rfl⟩

/-- An id stored, the files changed, the id overwritten three times. -/
def overLater : List (Ctx × DsCmd × List Bytes) :=
  [(later 10, .set, [str "SET", [], str "one"]),
   (later 11, .nsjump, [str "NSJUMP"]),
   (later 20, .set, [str "SET", sid 0, str "two"]),
   (later 200, .set, [str "SET", sid 0, str "three"]),
   (later 400, .set, [str "SET", sid 0, str "four"])]

set_option maxRecDepth 100000 in
/-- C64 is false for overwrites in sequential mode, even with `--secure`: the item in the file left is written without a look at the
    clock, and that file is never synced again.  SETs acknowledged 380 seconds apart are lost. -/
theorem C64_seq_refuted :
    CleanDisk (some .seq) secure5 7 (fun _ => []) (freshStore .seq) (Disk.fresh secure5 exCtx.now .seq)
      (traceOf (fun _ => []) (freshStore .seq) overLater) (runCmds (fun _ => []) (freshStore .seq) overLater).1
      (runCmds (fun _ => []) (freshStore .seq) overLater).2.1 (freshDisk .seq secure5 overLater) ∧
    (runCmds (fun _ => []) (freshStore .seq) overLater).2.2 = [.bulk (sid 0), .ok, .bulk (sid 0), .bulk (sid 0), .bulk (sid 0)] ∧
    PowerLoss (freshDisk .seq secure5 overLater) ((freshDisk .seq secure5 overLater).i.map fun f => f.safe.getD [])
      ((freshDisk .seq secure5 overLater).d.map fun f => f.safe.getD []) ∧
    afterLoss (some .seq) (freshDisk .seq secure5 overLater) [(exCtx, .get, [str "GET", sid 0])] =
      some [.bulk (str "one")] :=
  ⟨cleanDisk_run (by decide) (by decide +kernel), rfl, powerLoss_safe _, rfl⟩

end Zdb
