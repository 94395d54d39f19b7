/-
Power losses under `--sync` in sequential mode (C63).
-/
import Verif.Lemmas.SyncSeq
import Verif.Lemmas.SeqSpec
import Verif.Props.Sync
import Verif.Props.Seq
namespace Zdb

/-- C63 in sequential mode, as far as it is true.  Under `--sync`, after any execution in which ids are only added
    (no DEL, no SET of an id that exists), whatever part of the writes not followed by an `fsync` reached the disk, the files are
    loaded without error, and the replies of every execution that goes on from there, overwrites, deletions and
    restarts included, are those of the same list of numbered slots: nothing happened.
    Missing: executions that overwrite or delete (`C63_seq_refuted`), a namespace switched to sequential mode, and what `SeqRun`
    excludes; the current index file must have items or be the only one, as for a clean restart (`C05_refuted`). -/
theorem C63_seq_partial {cf : SyncConf} (hcf : cf.sync = true) {u t : Nat} {tr : List (NsEvent × Reply)} {br : Branches}
    {s : Store} {D : Disk} (h : SeqSyncRun cf u t tr br s D) (hlast : s.indexid = 0 ∨ 29 < fileLen s.ifiles s.indexid)
    {fi fd : List Bytes} (hp : PowerLoss D fi fd) (br0 : Branches) (v : Nat) :
    ∃ br1 s1, loadNs (some .seq) br0 v fi fd = .ok br1 s1 ∧
      ∀ tr' br' s', CleanRun (some .seq) v br1 s1 tr' br' s' → (∀ x ∈ tr', EvOK x.1) →
        NearRun [] ((tr ++ tr').map (·.1)) → tr.length + tr'.length < maxEvents → SeqAgrees [] (tr ++ tr') := by
  obtain ⟨h1, h2, h3, G, h4, h5, h6⟩ := h.solid hcf (n := 0) h.len
  obtain ⟨rfl, rfl⟩ := h1.loss h2 hp
  have hid := h4.iid
  have hfl := h4.fileLen
  have hlen := h4.irep.length
  obtain ⟨s1, k1, k2, k3, k4, -⟩ := h4.reload br0 v (some .seq) (Or.inr rfl) (by have := h3.1; omega) (by omega)
  refine ⟨br0, s1, ?_, ?_⟩
  · have : reloadNs (some .seq) br0 v s = loadNs (some .seq) br0 v s.ifiles s.dfiles := by
      simp only [reloadNs, h4.mode]
    rw [← this]; exact k1
  intro tr' br' s' hr hev hnear hl
  obtain ⟨-, -, h3, -⟩ := h.solid hcf (n := tr'.length) hl
  rw [List.map_append, nearRun_append] at hnear
  obtain ⟨-, -, -, j⟩ := SInv.run (Or.inr rfl) hr k2 hev (by rw [h5]; exact hnear.2)
    (by rw [k3, totalData, k4]; exact h3)
  rw [seqAgrees_append]
  exact ⟨h6, by rw [← h5]; exact j⟩

/-- C63 in sequential mode, in terms of requests and replies: after the power loss, a GET of an id answers the payload of the last SET
    acknowledged with this id, before or after it. -/
theorem C63_seq_get_partial {cf : SyncConf} (hcf : cf.sync = true) {u t : Nat} {tr : List (NsEvent × Reply)} {br : Branches}
    {s : Store} {D : Disk} (h : SeqSyncRun cf u t tr br s D) (hlast : s.indexid = 0 ∨ 29 < fileLen s.ifiles s.indexid)
    {fi fd : List Bytes} (hp : PowerLoss D fi fd) (br0 : Branches) (v : Nat) :
    ∃ br1 s1, loadNs (some .seq) br0 v fi fd = .ok br1 s1 ∧
      ∀ tr' br' s' (c : Ctx) (name k : Bytes) (r : Reply),
        CleanRun (some .seq) v br1 s1 (tr' ++ [(NsEvent.cmd c .get [name, k], r)]) br' s' →
        (∀ x ∈ tr' ++ [(NsEvent.cmd c .get [name, k], r)], EvOK x.1) →
        NearRun [] ((tr ++ (tr' ++ [(NsEvent.cmd c .get [name, k], r)])).map (·.1)) → tr.length + tr'.length + 1 < maxEvents →
        k ≠ [] → k.length ≤ 255 → c.conf.lock ≠ .frozen →
        r = match lastSeqWrite k (tr ++ tr') with
          | some p => .bulk p
          | none => .nil := by
  obtain ⟨br1, s1, h1, h2⟩ := C63_seq_partial hcf h hlast hp br0 v
  refine ⟨br1, s1, h1, ?_⟩
  intro tr' br' s' c name k r hr hev hnear hl hk hk2 hz
  have ha := h2 _ _ _ hr hev hnear (by simp; omega)
  rw [← List.append_assoc, seqAgrees_append] at ha
  unfold maxEvents at hl
  have hg := seqAgrees_get [] _ ha.1 k (by simp; omega)
  have hr := ha.2.1 _ rfl
  simp only [specSeqEvent, specSeqCmd, specSeqRead, if_neg hk, if_neg (Nat.not_lt.2 hk2), if_neg hz] at hr
  rw [hr]
  have h0 : Slots.get [] k = none := by unfold Slots.get; cases seqPos k <;> simp
  rw [h0] at hg
  change _ = lastSeqWrite k (tr ++ tr') at hg
  rw [← hg]
  cases (specSeqRun [] ((tr ++ tr').map (·.1))).get k <;> rfl

/-! ### a concrete case -/

/-- Three ids in two files. -/
def addCmds : List (Ctx × DsCmd × List Bytes) :=
  [(exCtx, .set, [str "SET", [], str "one"]),
   (exCtx, .set, [str "SET", [], str "two"]),
   (exCtx, .nsjump, [str "NSJUMP"]),
   (exCtx, .set, [str "SET", [], str "three"])]

theorem cleanDisk_run {cf : SyncConf} {u : Nat} {br : Branches} {s : Store} {D : Disk} {l : List (Ctx × DsCmd × List Bytes)}
    (hu : ∀ x ∈ l, x.1.u = u) (h : cleanCmds br s l = true) :
    CleanDisk (some .seq) cf u br s D (traceOf br s l) (runCmds br s l).1 (runCmds br s l).2.1 (diskCmds cf br s D l) := by
  induction l generalizing br s D with
  | nil => exact .nil _ _ _
  | cons x l ih =>
    obtain ⟨c, d, argv⟩ := x
    simp only [cleanCmds, Bool.and_eq_true, Bool.or_eq_true, decide_eq_true_eq] at h
    exact .cmd c d argv (hu _ (List.mem_cons_self ..)) rfl h.1
      (ih (fun x hx => hu x (List.mem_cons_of_mem _ hx)) h.2)

theorem addCmds_run : SeqSyncRun syncOn 7 exCtx.now (traceOf (fun _ => []) (freshStore .seq) addCmds)
    (runCmds (fun _ => []) (freshStore .seq) addCmds).1 (runCmds (fun _ => []) (freshStore .seq) addCmds).2.1
    (freshDisk .seq syncOn addCmds) where
  run := ⟨fun _ => [], fun _ => [], freshStore .seq, freshNs_eq (some .seq) _ 7,
    cleanDisk_run (by decide) (by decide +kernel)⟩
  ev := by
    intro x hx
    obtain ⟨y, hy, he⟩ := mem_traceOf hx
    rw [he]
    simp only [addCmds, List.mem_cons, List.not_mem_nil, or_false] at hy
    rcases hy with rfl | rfl | rfl | rfl
    all_goals exact ⟨⟨exCtx_ok, ⟨_, _, rfl, by decide⟩, by decide⟩, ⟨rfl, rfl, rfl, rfl, rfl⟩, by decide, by
      intro _ k hk; revert hk; first | (intro hk; cases hk; rfl) | (intro hk; cases hk)⟩
  near := nearCmds_run _ _ (by decide +kernel)
  len := by rw [traceOf_length]; decide

set_option maxRecDepth 100000 in
/-- A case that meets the hypotheses: two files, three ids; after the power loss they are there, and the next one is 3. -/
theorem C63_seq_example :
    SeqSyncRun syncOn 7 exCtx.now (traceOf (fun _ => []) (freshStore .seq) addCmds)
      (runCmds (fun _ => []) (freshStore .seq) addCmds).1 (runCmds (fun _ => []) (freshStore .seq) addCmds).2.1
      (freshDisk .seq syncOn addCmds) ∧
    (runCmds (fun _ => []) (freshStore .seq) addCmds).2.1.indexid = 1 ∧
    29 < fileLen (runCmds (fun _ => []) (freshStore .seq) addCmds).2.1.ifiles 1 ∧
    PowerLoss (freshDisk .seq syncOn addCmds) ((freshDisk .seq syncOn addCmds).i.map fun f => f.safe.getD [])
      ((freshDisk .seq syncOn addCmds).d.map fun f => f.safe.getD []) ∧
    afterLoss (some .seq) (freshDisk .seq syncOn addCmds)
      [(exCtx, .get, [str "GET", sid 0]), (exCtx, .get, [str "GET", sid 2]), (exCtx, .set, [str "SET", [], str "four"])] =
      some [.bulk (str "one"), .bulk (str "three"), .bulk (sid 3)] :=
  ⟨addCmds_run, by decide +kernel, by decide +kernel, powerLoss_safe _, rfl⟩

end Zdb
