/-
C41 and C59 in sequential mode: the index rebuilt from the data files.
-/
import Verif.Lemmas.SeqRebuild
import Verif.Props.RebuildTime
import Verif.Props.SeqCrash
namespace Zdb

theorem SeqRun.slots_lt {cfg : Option Mode} {u : Nat} {tr : List (NsEvent × Reply)} {br : Branches} {s : Store}
    (h : SeqRun cfg u tr br s) {G : Log} (hG : SInv s G) : (absSlots G).length < 2 ^ 64 := by
  obtain ⟨G', hi, hG', ha⟩ := h.inv
  have h1 := specSeqRun_length [] tr ha
  have h2 := ackedSets_le tr
  have h3 := h.len
  have h4 := hG.next
  have h5 := hi.next
  rw [← hG', absSlots_length] at h1
  unfold maxEvents at h3
  rw [absSlots_length]
  simp only [List.length_nil] at h1
  omega

/-- C41, sequential mode, executions in which every write to the data files is complete (and the conditions of `SeqRun`): the
    tool ends, it leaves the data files as they are, a process loads the namespace from the index files it made, and every
    read command on every id (existing, deleted or never given out) is answered as with the original index.  If the current
    index file has items or is the only one, further executions follow the slots of the original one.  Missing: payloads
    written in part (see `C41_torn_refuted`), and executions excluded by `SeqRun`; after a jump that nothing was written after,
    see `C59_seq_refuted`. -/
theorem C41_seq_partial {cfg : Option Mode} {u : Nat} {tr : List (NsEvent × Reply)} {br : Branches} {s : Store}
    (h : SeqRun cfg u tr br s) (hw : ∀ x ∈ tr, WholeData x.1) (v : Nat) :
    ∃ br1 s1, rebuild .seq 0 v s.dfiles = .done br1 s1 ∧ s1.dfiles = s.dfiles ∧
      ∀ br0, ∃ s2, loadNs cfg br0 u s1.ifiles s.dfiles = .ok br0 s2 ∧ s2.ifiles = s1.ifiles ∧ s2.dfiles = s.dfiles ∧
        (∀ (c : Ctx) (d : DsCmd) (name k : Bytes), d.readsKey = true → name ≠ [] → NearStore s (.cmd c d [name, k]) →
          (dsCommand c br0 s2 d [name, k]).2.2 = (dsCommand c br s d [name, k]).2.2) ∧
        (s.indexid = 0 ∨ 29 < fileLen s.ifiles s.indexid →
          ∀ tr' br3 s3, CleanRun cfg u br0 s2 tr' br3 s3 → (∀ x ∈ tr', EvOK x.1) →
            NearRun (specSeqRun [] (tr.map (·.1))) (tr'.map (·.1)) → tr.length + tr'.length ≤ maxEvents →
            SeqAgrees (specSeqRun [] (tr.map (·.1))) tr') := by
  obtain ⟨G, D, k1, hD, hrep, k3, k4⟩ := h.slots hw
  have hil := k1.irep.length
  have hdl := k1.dlen
  have hDl := hD.log.length
  have hne := k1.G0
  obtain ⟨D0, a, rfl⟩ : ∃ D0 a, D = D0 ++ [a] := by
    have : D ≠ [] := List.length_pos_iff.1 (by omega)
    exact ⟨D.dropLast, D.getLast this, (List.dropLast_concat_getLast this).symm⟩
  obtain ⟨br1, s1, G1, r1, r2, r3, r4⟩ := rebuild_back (u := v) 0 (E := []) (c := []) k1 hD hrep (h.slots_lt k1)
    (s2 := s) (by simpa using hD) (by have := k3.1; simp at hDl ⊢; omega)
    (fun g _ => cutAt_zero g) (by rw [List.append_nil]; exact cutAt_zero a) (fun g hg => by simp at hg)
  refine ⟨br1, s1, r1, r2, ?_⟩
  intro br0
  obtain ⟨s2, l1, l2, l3, l4, l5, l6⟩ := r4 cfg br0 u h.hcfg
  refine ⟨s2, l1, l2, l3, ?_, ?_⟩
  · intro c d name k hd hn hnear
    exact seqRead_congr k1 l4 (Nat.le_of_eq (by rw [r3])) d hd name k hn hnear (by rw [r3])
  · intro hlast tr' br3 s3 hr hev hnear hlen
    obtain ⟨-, -, -, ha⟩ := SInv.run h.hcfg hr (l6 rfl hlast) hev (by rw [r3, k4]; exact hnear) (by
      rw [l5, totalData, l3, hdl, ← hil]
      exact k3.mono (by omega))
    rw [r3, k4] at ha
    exact ha

theorem cutAt_le {T : Nat} {a b : List DRec} (ha : ∀ r ∈ a, r.time ≤ T) : cutAt T (a ++ b) = a ++ cutAt T b := by
  induction a with
  | nil => rfl
  | cons r a ih =>
    have h1 := ha r (by simp)
    rw [List.cons_append, cutAt, if_neg (by omega), ih (fun x hx => ha x (by simp [hx]))]
    rfl

theorem cutAt_gt {T : Nat} (hT : 0 < T) {b : List DRec} (hb : ∀ r ∈ b, T < r.time) : cutAt T b = [] := by
  cases b with
  | nil => rfl
  | cons r b => rw [cutAt, if_pos ⟨hT, hb r (by simp)⟩]

/-- C59, sequential mode, executions in which every write to the data files is complete (and the conditions of `SeqRun`), and
    in which the writes acknowledged before some moment have a time up to `T`, and those after it a later one: with
    `--time T` the tool ends and leaves the data files as they are, a process loads the namespace from the index files it
    made, and every read command on every id is answered as at that moment.  If no new file was started after that moment, and
    the index file then current has items or is the only one, further executions follow the slots of that moment.  Missing:
    `C59_seq_refuted`, and what is missing in `C59_partial`. -/
theorem C59_seq_partial {cfg : Option Mode} {u : Nat} {tr1 tr2 : List (NsEvent × Reply)} {br1 br2 : Branches} {s1 s2 : Store}
    (h : SeqRun cfg u tr1 br1 s1) (hr : CleanRun cfg u br1 s1 tr2 br2 s2) (hev : ∀ x ∈ tr2, EvOK x.1)
    (hnear2 : NearRun (specSeqRun [] (tr1.map (·.1))) (tr2.map (·.1)))
    (hlen : (tr1 ++ tr2).length ≤ maxEvents) (hw : ∀ x ∈ tr1 ++ tr2, WholeData x.1) {T : Nat} (hT : 0 < T)
    (before : ∀ x ∈ tr1, ∀ w ∈ acked x, w.time ≤ T) (after : ∀ x ∈ tr2, ∀ w ∈ acked x, T < w.time) (v : Nat) :
    ∃ br3 s3, rebuild .seq T v s2.dfiles = .done br3 s3 ∧ s3.dfiles = s2.dfiles ∧
      ∀ br0, ∃ s4, loadNs cfg br0 u s3.ifiles s2.dfiles = .ok br0 s4 ∧ s4.ifiles = s3.ifiles ∧ s4.dfiles = s2.dfiles ∧
        (∀ (c : Ctx) (d : DsCmd) (name k : Bytes), d.readsKey = true → name ≠ [] → NearStore s1 (.cmd c d [name, k]) →
          (dsCommand c br0 s4 d [name, k]).2.2 = (dsCommand c br1 s1 d [name, k]).2.2) ∧
        (s2.indexid = s1.indexid → s1.indexid = 0 ∨ 29 < fileLen s1.ifiles s1.indexid →
          ∀ tr' br5 s5, CleanRun cfg u br0 s4 tr' br5 s5 → (∀ x ∈ tr', EvOK x.1) →
            NearRun (specSeqRun [] (tr1.map (·.1))) (tr'.map (·.1)) → (tr1 ++ tr2).length + tr'.length ≤ maxEvents →
            SeqAgrees (specSeqRun [] (tr1.map (·.1))) tr') := by
  have hlen' : tr1.length + tr2.length ≤ maxEvents := by simpa using hlen
  have h2 : SeqRun cfg u (tr1 ++ tr2) br2 s2 := h.append hlen' hev hnear2 hr
  obtain ⟨G1, D1, a1, a2, a3, -, a4⟩ := h.slots (fun x hx => hw x (List.mem_append_left _ hx))
  obtain ⟨G, D, k1, hD, k2, k3, -⟩ := h2.slots hw
  have hil := k1.irep.length
  have hdl := k1.dlen
  have hDl := hD.log.length
  have hne := a1.G0
  have hdl1 := a1.dlen
  have hDl1 := a2.log.length
  obtain ⟨D0, a, rfl⟩ : ∃ D0 a, D1 = D0 ++ [a] := by
    have : D1 ≠ [] := List.length_pos_iff.1 (by omega)
    exact ⟨D1.dropLast, D1.getLast this, (List.dropLast_concat_getLast this).symm⟩
  have hext := C17_seq_data_files_append_only h hr hev hnear2 hlen'
  obtain ⟨c, E, rfl⟩ := files_prefix (D1 := D0) (a := a) (D := D) a2.log.wf hD.log.wf (by
    rw [← a2.log.files, ← hD.log.files]
    intro i f hf
    obtain ⟨x, hx1, hx2⟩ := hext i f hf
    exact ⟨x, hx1, fun hi => hx2 (by omega)⟩)
  -- the times of the records
  have hw1 := a2.log.writes
  have hw2 := hD.log.writes
  have hfl : (D0 ++ (a ++ c) :: E).flatten = (D0 ++ [a]).flatten ++ (c ++ E.flatten) := by simp
  rw [hfl, List.map_append, hw1, List.flatMap_append] at hw2
  have hw3 := List.append_cancel_left hw2
  have hbt : ∀ r ∈ (D0 ++ [a]).flatten, r.time ≤ T := by
    intro r hr
    have : r.what ∈ tr1.flatMap acked := by rw [← hw1]; exact List.mem_map_of_mem hr
    obtain ⟨x, hx, hw⟩ := List.mem_flatMap.1 this
    exact before x hx _ hw
  have hat : ∀ r ∈ c ++ E.flatten, T < r.time := by
    intro r hr
    have : r.what ∈ tr2.flatMap acked := by rw [← hw3]; exact List.mem_map_of_mem hr
    obtain ⟨x, hx, hw⟩ := List.mem_flatMap.1 this
    exact after x hx _ hw
  have hcut0 : ∀ g ∈ D0, cutAt T g = g := by
    intro g hg
    have := cutAt_le (T := T) (a := g) (b := []) (fun r hr => hbt r (List.mem_flatten.2 ⟨g, by simp [hg], hr⟩))
    simpa [cutAt] using this
  obtain ⟨br3, s3, G3, r1, r2, r3, r4⟩ := rebuild_back (u := v) T a1 a2 a3 (h.slots_lt a1) hD (by have := k3.1; omega) hcut0
    (by
      rw [cutAt_le (fun r hr => hbt r (by simp [hr])), cutAt_gt hT (fun r hr => hat r (by simp [hr])), List.append_nil])
    (fun g hg => cutAt_gt hT (fun r hr => hat r (List.mem_append_right _ (List.mem_flatten.2 ⟨g, hg, hr⟩))))
  refine ⟨br3, s3, r1, r2, ?_⟩
  intro br0
  obtain ⟨s4, l1, l2, l3, l4, l5, l6⟩ := r4 cfg br0 u h.hcfg
  refine ⟨s4, l1, l2, l3, ?_, ?_⟩
  · intro c d name k hd hn hnear
    exact seqRead_congr a1 l4 (Nat.le_of_eq (by rw [r3])) d hd name k hn hnear (by rw [r3])
  · intro hsame hlast tr' br5 s5 hr hev hnear hlen
    have hE : E = [] := by
      have e1 := a1.iid
      have e2 := k1.iid
      simp only [List.length_append, List.length_cons, List.length_nil] at hDl hDl1
      exact List.eq_nil_of_length_eq_zero (by omega)
    obtain ⟨-, -, -, ha⟩ := SInv.run h.hcfg hr (l6 hE hlast) hev (by rw [r3, a4]; exact hnear) (by
      rw [l5, totalData, l3, hdl, ← hil]
      exact k3.mono (by omega))
    rw [r3, a4] at ha
    exact ha

/-- What is answered to some commands with the index rebuilt up to `T`. -/
def afterRebuiltSeq (T : Nat) (dfiles : List Bytes) (l : List (Ctx × DsCmd × List Bytes)) : Option (List Reply) :=
  match rebuild .seq T 7 dfiles with
  | .done _ s =>
    match loadNs (some .seq) (fun _ => []) 7 s.ifiles dfiles with
    | .ok br s => some (runCmds br s l).2.2
    | _ => none
  | _ => none

theorem exSeqCmds_whole : ∀ x ∈ traceOf (fun _ => []) (freshStore .seq) exSeqCmds, WholeData x.1 := by
  intro x hx
  obtain ⟨y, hy, he⟩ := mem_traceOf hx
  rw [he]
  simp only [exSeqCmds, List.mem_cons, List.not_mem_nil, or_false] at hy
  rcases hy with rfl | rfl | rfl | rfl | rfl | rfl | rfl | rfl | rfl | rfl | rfl <;> exact ⟨rfl, rfl⟩

set_option maxRecDepth 100000 in
/-- The concrete execution of the other files (`exSeqRun`): two payloads, a jump, a third one, an overwrite of id 0 and the
    deletion of id 1, whose index items are in the first file; a fourth payload.  What is answered with the rebuilt index. -/
theorem C41_seq_example :
    let s := (runCmds (fun _ => []) (freshStore .seq) exSeqCmds).2.1
    s.dfiles.length = 2 ∧ 29 < fileLen s.ifiles s.indexid ∧
    afterRebuiltSeq 0 s.dfiles [(exCtx, .get, [str "GET", sid 0]), (exCtx, .get, [str "GET", sid 1]), (exCtx, .get, [str "GET", sid 2]),
      (exCtx, .dbsize, [str "DBSIZE"]), (exCtx, .set, [str "SET", [], str "five"]), (exCtx, .get, [str "GET", sid 5])] =
      some [.bulk (str "uno"), .nil, .bulk (str "three"), .int 3, .bulk (sid 5), .bulk (str "five")] :=
  ⟨rfl, by decide +kernel, rfl⟩

/-- Two payloads, then later an overwrite, a jump and a new payload. -/
def exSeqBefore : List (Ctx × DsCmd × List Bytes) :=
  [at_ 100 .set [str "SET", [], str "one"], at_ 200 .set [str "SET", [], str "two"]]

def exSeqAfterwards : List (Ctx × DsCmd × List Bytes) :=
  [at_ 300 .set [str "SET", sid 0, str "uno"], at_ 400 .nsjump [str "NSJUMP"], at_ 400 .set [str "SET", [], str "three"]]

theorem exSeqBefore_run : SeqRun (some .seq) 7 (traceOf (fun _ => []) (freshStore .seq) exSeqBefore)
    (runCmds (fun _ => []) (freshStore .seq) exSeqBefore).1 (runCmds (fun _ => []) (freshStore .seq) exSeqBefore).2.1 := by
  have hall : exSeqBefore.all okCmd = true := by decide
  have hok := fun x hx => okCmd_ok (List.all_eq_true.1 hall x hx)
  exact seqRun_of_cmds exSeqBefore (fun x hx => (hok x hx).1) (fun x hx => (hok x hx).2.1) (fun x hx => (hok x hx).2.2) (by decide)
    (by decide +kernel) (by decide +kernel)

/-- The state of that execution at time 250. -/
def exSeqMidBr : Branches := (runCmds (fun _ => []) (freshStore .seq) exSeqBefore).1
def exSeqMid : Store := (runCmds (fun _ => []) (freshStore .seq) exSeqBefore).2.1

set_option maxRecDepth 100000 in
/-- The hypotheses of `C59_seq_partial` are met by it, with `T = 250`. -/
theorem C59_seq_hyps :
    CleanRun (some .seq) 7 exSeqMidBr exSeqMid (traceOf exSeqMidBr exSeqMid exSeqAfterwards)
      (runCmds exSeqMidBr exSeqMid exSeqAfterwards).1 (runCmds exSeqMidBr exSeqMid exSeqAfterwards).2.1 ∧
    NearRun (specSeqRun [] ((traceOf (fun _ => []) (freshStore .seq) exSeqBefore).map (·.1)))
      ((traceOf exSeqMidBr exSeqMid exSeqAfterwards).map (·.1)) ∧
    (∀ x ∈ traceOf exSeqMidBr exSeqMid exSeqAfterwards, EvOK x.1) ∧
    (traceOf (fun _ => []) (freshStore .seq) exSeqBefore).flatMap acked =
      [⟨sid 0, some (str "one"), 100⟩, ⟨sid 1, some (str "two"), 200⟩] ∧
    (traceOf exSeqMidBr exSeqMid exSeqAfterwards).flatMap acked =
      [⟨sid 0, some (str "uno"), 300⟩, ⟨sid 3, some (str "three"), 400⟩] := by
  have hall : exSeqAfterwards.all okCmd = true := by decide
  have hok := fun x hx => okCmd_ok (List.all_eq_true.1 hall x hx)
  refine ⟨cleanCmds_run (fun x hx => (hok x hx).1) (by decide +kernel), ?_, ?_, rfl, rfl⟩
  · refine nearCmds_run _ _ ?_
    decide +kernel
  · intro x hx
    obtain ⟨y, hy, he⟩ := mem_traceOf hx
    rw [he]
    exact ⟨(hok y hy).2.1, (hok y hy).2.2⟩

set_option maxRecDepth 100000 in
/-- Going back to times 250 and 350 in that execution. -/
theorem C59_seq_example :
    let s := (runCmds (fun _ => []) (freshStore .seq) (exSeqBefore ++ exSeqAfterwards)).2.1
    let reads := [(exCtx, DsCmd.get, [str "GET", sid 0]), (exCtx, .get, [str "GET", sid 1]), (exCtx, .get, [str "GET", sid 3])]
    afterRebuiltSeq 250 s.dfiles reads = some [.bulk (str "one"), .bulk (str "two"), .nil] ∧
    afterRebuiltSeq 350 s.dfiles reads = some [.bulk (str "uno"), .bulk (str "two"), .nil] ∧
    afterRebuiltSeq 400 s.dfiles reads = some [.bulk (str "uno"), .bulk (str "two"), .bulk (str "three")] :=
  ⟨rfl, rfl, rfl⟩

set_option maxRecDepth 100000 in
/-- C59 is false in sequential mode for what is done next: the tool makes an index file without items for every data file
    after the limit, for which the loader puts nothing in the map from ids to files.  A SET on the namespace taken back to
    time 250 is acknowledged with id 2, and GET of id 2 finds nothing. -/
theorem C59_seq_refuted :
    let s := (runCmds (fun _ => []) (freshStore .seq) (exSeqBefore ++ exSeqAfterwards)).2.1
    let l := [(exCtx, DsCmd.set, [str "SET", [], str "new"]), (exCtx, .get, [str "GET", sid 2])]
    (runCmds exSeqMidBr exSeqMid l).2.2 = [.bulk (sid 2), .bulk (str "new")] ∧
    afterRebuiltSeq 250 s.dfiles l = some [.bulk (sid 2), .nil] :=
  ⟨rfl, rfl⟩

end Zdb
