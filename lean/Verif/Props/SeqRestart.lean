/-
Power losses under `--synctime` some time after a restart, in sequential mode (C64).
-/
import Verif.Lemmas.SeqRestart
import Verif.Props.SecureSeq
namespace Zdb

/-- C64 after a restart, in sequential mode.  Under `--synctime T` any execution that has not left the first files, with
    restarts, overwrites and deletions in it, is followed by a RELOAD (or a kill and a restart) at time `t'` and by an
    execution in which ids are only added, with `--secure` or in the first files; then the power is lost, and what is found is
    each file as it was when it was last synced, if it ever was.  Nothing from before the RELOAD is lost; the
    execution after it is cut in two: the SETs acknowledged in its second part are all within `T` seconds of the time
    `L`, and if the last index file found has items or is the only one, it is loaded without error and the replies
    of every execution that goes on from there are those that follow the first part.
    Missing: pending writes of which a part reached the disk, overwrites and deletions after the last restart
    (`C64_seq_refuted`), a restart with several files (`C64_reload_refuted`), what `CleanDisk` excludes. -/
theorem C64_seq_restart_partial {cf : SyncConf} (hcf : cf.sync = false) (hT : 0 < cf.synctime) {u t : Nat}
    {tr0 : List (NsEvent × Reply)} {b0 b br : Branches} {s0 s : Store} {D : Disk} (h0 : freshNs (some .seq) b0 u = .ok b s0)
    (h : CleanDisk (some .seq) cf u b s0 (Disk.fresh cf t .seq) tr0 br s D) (hev0 : ∀ x ∈ tr0, EvOK x.1)
    (hone : s.ifiles.length = 1) {t' : Nat} (ht : cf.synctime < t') {br1 br2 : Branches} {s1 s2 : Store} {D2 : Disk}
    (hre : reloadNs (some .seq) br u s = .ok br1 s1) {tr : List (NsEvent × Reply)}
    (hr : CleanDisk (some .seq) cf u br1 s1 (runOps cf t' { D with ilast := 0, dlast := 0 } (loadOps s.ifiles s.dfiles)) tr
      br2 s2 D2)
    (hev : ∀ x ∈ tr, (EvOK x.1 ∧ NoFault x.1 ∧ OnlyNew x.1) ∧ NoReload x.1)
    (hsec : cf.secure = true ∨ s2.ifiles.length = 1) (hnear : NearRun [] ((tr0 ++ (.reload, .ok) :: tr).map (·.1)))
    (hclock : Clock tr) (hlater : ∀ x ∈ tr, ∀ a, evTime x.1 = some a → t' ≤ a)
    (n : Nat) (hlen : tr0.length + tr.length + n < maxEvents) (br0 : Branches) (v : Nat) :
    PowerLoss D2 (D2.i.filterMap DFile.safe) (D2.d.filterMap DFile.safe) ∧
    ∃ L tr1 tr2, tr = tr1 ++ tr2 ∧
      (∀ x ∈ tr2, SeqAcked x → ∃ a, evTime x.1 = some a ∧ L ≤ a ∧ a ≤ L + cf.synctime) ∧
      (((D2.i.filterMap DFile.safe).length = 1 ∨ ∃ f, (D2.i.filterMap DFile.safe).getLast? = some f ∧ 29 < f.length) →
        ∃ br3 s3, loadNs (some .seq) br0 v (D2.i.filterMap DFile.safe) (D2.d.filterMap DFile.safe) = .ok br3 s3 ∧
          ∀ tr' br' s', CleanRun (some .seq) v br3 s3 tr' br' s' → (∀ x ∈ tr', EvOK x.1) →
            NearRun [] ((tr0 ++ (.reload, .ok) :: tr1 ++ tr').map (·.1)) → tr'.length ≤ n →
              SeqAgrees [] (tr0 ++ (.reload, .ok) :: tr1 ++ tr')) := by
  obtain ⟨L, tr1, tr2, e, hS, hA, G, g1, g2, g3⟩ := h.restart_snap hcf hT h0 hev0 ht hre hr hev hlen hone hsec hnear hclock
    hlater
  refine ⟨g1.powerLoss g2 g3, L, tr1, tr2, e, hS.recent, ?_⟩
  intro hlast
  obtain ⟨sd, Gd, h1, h2, h3, h4⟩ := hS.state
  have e1 : D2.i.filterMap DFile.safe = sd.ifiles := congrArg Prod.fst h2
  have e2 : D2.d.filterMap DFile.safe = sd.dfiles := congrArg Prod.snd h2
  rw [e1] at hlast
  rw [e1, e2]
  have hid := h1.iid
  have hlen := h1.irep.length
  have hlast' : Gd.length = 1 ∨ 29 < logEnd Gd := by
    rcases hlast with hl | ⟨f, hf, hl⟩
    · left; omega
    · right
      rw [← h1.fileLen]
      rw [List.getLast?_eq_getElem?] at hf
      have : sd.indexid = sd.ifiles.length - 1 := by omega
      rw [fileLen, this, hf]
      exact hl
  obtain ⟨s3, k1, k2, k3, k4, -⟩ := h1.reload br0 v (some .seq) (Or.inr rfl) (by have := h4.1; omega) hlast'
  refine ⟨br0, s3, ?_, ?_⟩
  · have : reloadNs (some .seq) br0 v sd = loadNs (some .seq) br0 v sd.ifiles sd.dfiles := by
      simp only [reloadNs, h1.mode]
    rw [← this]; exact k1
  intro tr' br' s' hr hev hnear hl
  rw [List.map_append, nearRun_append] at hnear
  obtain ⟨-, -, -, j⟩ := SInv.run (Or.inr rfl) hr k2 hev (by rw [h3]; exact hnear.2)
    (by rw [k3, totalData, k4]; exact h4.mono hl)
  rw [seqAgrees_append]
  have hsplit : tr0 ++ (NsEvent.reload, Reply.ok) :: tr = (tr0 ++ (.reload, .ok) :: tr1) ++ tr2 := by rw [e]; simp
  rw [hsplit, seqAgrees_append] at hA
  exact ⟨hA.1, by rw [← h3]; exact j⟩

/-! ### a concrete case -/

/-- Two ids, one overwritten, the other deleted, all within five seconds. -/
def preAdds : List (Ctx × DsCmd × List Bytes) :=
  [(later 1, .set, [str "SET", [], str "one"]),
   (later 2, .set, [str "SET", [], str "two"]),
   (later 3, .set, [str "SET", sid 0, str "three"]),
   (later 4, .del, [str "DEL", sid 1])]

/-- After the restart at second 100: an id, new files, an id there after the delay, another one at once. -/
def postAdds : List (Ctx × DsCmd × List Bytes) :=
  [(later 101, .set, [str "SET", [], str "four"]),
   (later 102, .nsjump, [str "NSJUMP"]),
   (later 110, .set, [str "SET", [], str "five"]),
   (later 112, .set, [str "SET", [], str "six"])]

def preAddState : LoadRes :=
  reloadNs (some .seq) (runCmds (fun _ => []) (freshStore .seq) preAdds).1 7 (runCmds (fun _ => []) (freshStore .seq) preAdds).2.1

def preAddDisk : Disk :=
  runOps secure5 (exCtx.now + 100) { freshDisk .seq secure5 preAdds with ilast := 0, dlast := 0 }
    (loadOps (runCmds (fun _ => []) (freshStore .seq) preAdds).2.1.ifiles
      (runCmds (fun _ => []) (freshStore .seq) preAdds).2.1.dfiles)

/-- The replies to GET of the ids 0 to 5 from what was synced at the end of the first `n` of the later commands. -/
def postAddReads (n : Nat) : Option (List Reply) :=
  match preAddState with
  | .ok br s =>
    let D := diskCmds secure5 br s preAddDisk (postAdds.take n)
    afterLoss (some .seq) D ((List.range 6).map fun i => (exCtx, .get, [str "GET", sid i]))
  | _ => none

set_option maxRecDepth 100000 in
/-- A case that meets the hypotheses of `C64_seq_restart_partial`: the overwrite and the deletion from before the restart are
    kept, and the ids up to the one of second 110; the last one is lost.  (The id 2 went to the deletion.) -/
theorem C64_seq_restart_example :
    CleanDisk (some .seq) secure5 7 (fun _ => []) (freshStore .seq) (Disk.fresh secure5 exCtx.now .seq)
      (traceOf (fun _ => []) (freshStore .seq) preAdds) (runCmds (fun _ => []) (freshStore .seq) preAdds).1
      (runCmds (fun _ => []) (freshStore .seq) preAdds).2.1 (freshDisk .seq secure5 preAdds) ∧
    (∃ br s, preAddState = .ok br s ∧
      CleanDisk (some .seq) secure5 7 br s preAddDisk (traceOf br s postAdds) (runCmds br s postAdds).1
        (runCmds br s postAdds).2.1 (diskCmds secure5 br s preAddDisk postAdds) ∧
      (∀ x ∈ traceOf br s postAdds, (EvOK x.1 ∧ NoFault x.1 ∧ OnlyNew x.1) ∧ NoReload x.1) ∧
      NearRun [] ((traceOf (fun _ => []) (freshStore .seq) preAdds ++ (.reload, .ok) :: traceOf br s postAdds).map (·.1)) ∧
      Clock (traceOf br s postAdds) ∧
      (∀ x ∈ traceOf br s postAdds, ∀ a, evTime x.1 = some a → exCtx.now + 100 ≤ a)) ∧
    (runCmds (fun _ => []) (freshStore .seq) preAdds).2.1.ifiles.length = 1 ∧
    postAddReads 0 = some [.bulk (str "three"), .nil, .nil, .nil, .nil, .nil] ∧
    postAddReads 2 = some [.bulk (str "three"), .nil, .nil, .bulk (str "four"), .nil, .nil] ∧
    postAddReads 4 = some [.bulk (str "three"), .nil, .nil, .bulk (str "four"), .bulk (str "five"), .nil] := by
  refine ⟨cleanDisk_run (by decide) (by decide +kernel), ?_, rfl, rfl, rfl, rfl⟩
  have hk : ∃ br s, preAddState = .ok br s ∧ cleanCmds br s postAdds = true := ⟨_, _, rfl, by decide +kernel⟩
  obtain ⟨br, s, hk, hcl⟩ := hk
  refine ⟨br, s, hk, cleanDisk_run (by decide) hcl, ?_, ?_, ?_, ?_⟩
  · intro x hx
    obtain ⟨y, hy, he⟩ := mem_traceOf hx
    rw [he]
    simp only [postAdds, List.mem_cons, List.not_mem_nil, or_false] at hy
    rcases hy with rfl | rfl | rfl | rfl
    all_goals exact ⟨⟨⟨later_ok _, ⟨_, _, rfl, by decide⟩, by decide⟩, ⟨rfl, rfl, rfl, rfl, rfl⟩, by decide, by
      intro _ k hk; revert hk; first | (intro hk; cases hk; rfl) | (intro hk; cases hk)⟩, trivial⟩
  · rw [List.map_append, nearRun_append]
    refine ⟨nearCmds_run _ _ (by decide +kernel), trivial, nearCmds_run _ _ (by decide +kernel)⟩
  · simp [Clock, traceOf, postAdds, evTime, later]
  · simp [traceOf, postAdds, evTime, later]

end Zdb
