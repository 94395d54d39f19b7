/-
C59: the index rebuilt up to a time.
-/
import Verif.Props.Rebuild
namespace Zdb

theorem NsRun.append {cfg : Option Mode} {u : Nat} {br br1 br2 : Branches} {s s1 s2 : Store}
    {a b : List (NsEvent × Reply)} (h1 : NsRun cfg u br s a br1 s1) (h2 : NsRun cfg u br1 s1 b br2 s2) :
    NsRun cfg u br s (a ++ b) br2 s2 := by
  induction h1 with
  | nil => exact h2
  | cmd c d argv hu h _ ih => exact .cmd c d argv hu h (ih h2)
  | foreign h _ ih => exact .foreign h (ih h2)
  | reload h _ ih => exact .reload h (ih h2)

theorem DRec.step_what {x y : DRec} (h : x.what = y.what) (m : KV) : x.step m = y.step m := by
  obtain ⟨i1, p1, q1, d1, t1⟩ := x
  obtain ⟨i2, p2, q2, d2, t2⟩ := y
  simp only [DRec.what, Write.mk.injEq] at h
  obtain ⟨rfl, h2, rfl⟩ := h
  cases d1 <;> cases d2 <;> simp_all [DRec.step]

/-- The replay depends on what the records say. -/
theorem replayKV_what {a b : List DRec} (h : a.map DRec.what = b.map DRec.what) (m : KV) : replayKV m a = replayKV m b := by
  induction a generalizing b m with
  | nil =>
    cases b with
    | nil => rfl
    | cons y b => cases h
  | cons x a ih =>
    cases b with
    | nil => cases h
    | cons y b =>
      simp only [List.map_cons, List.cons.injEq] at h
      simp only [replayKV, DRec.step_what h.1, ih h.2]

/-- If no record is followed by an older one across `T`, the tool processes the records up to `T`. -/
theorem cutAt_filter {T : Nat} (hT : 0 < T) {g : List DRec} (h : g.Pairwise (fun x y => T < x.time → T < y.time)) :
    cutAt T g = g.filter (fun r => r.time ≤ T) := by
  induction g with
  | nil => rfl
  | cons r g ih =>
    rw [List.pairwise_cons] at h
    by_cases hr : T < r.time
    · rw [cutAt, if_pos ⟨hT, hr⟩, List.filter_cons_of_neg (by simpa using hr), List.filter_eq_nil_iff.2]
      intro x hx
      simpa using h.1 x hx hr
    · rw [cutAt, if_neg (fun hc => hr hc.2), ih h.2, List.filter_cons_of_pos (by simpa using hr)]

theorem flatMap_filter_flatten (D : List (List DRec)) (p : DRec → Bool) : D.flatMap (fun g => g.filter p) = D.flatten.filter p := by
  induction D with
  | nil => rfl
  | cons g D ih => simp [ih]

theorem flatMap_cutAt {T : Nat} (hT : 0 < T) {D : List (List DRec)} {a b : List DRec} (h : D.flatten = a ++ b)
    (ha : ∀ r ∈ a, r.time ≤ T) (hb : ∀ r ∈ b, T < r.time) : D.flatMap (cutAt T) = a := by
  have hp : (a ++ b).Pairwise (fun x y : DRec => T < x.time → T < y.time) := by
    rw [List.pairwise_append]
    refine ⟨?_, ?_, ?_⟩
    · exact List.pairwise_of_forall_mem_list (fun x hx y _ hlt => absurd hlt (by have := ha x hx; omega))
    · exact List.pairwise_of_forall_mem_list (fun x _ y hy _ => hb y hy)
    · exact fun x hx y _ hlt => absurd hlt (by have := ha x hx; omega)
  have hg : ∀ g ∈ D, cutAt T g = g.filter (fun r => r.time ≤ T) := by
    intro g hg
    refine cutAt_filter hT (List.Pairwise.sublist ?_ hp)
    rw [← h]
    exact List.sublist_flatten_of_mem hg
  have e : D.flatMap (cutAt T) = D.flatMap (fun g => g.filter (fun r => r.time ≤ T)) := by
    rw [List.flatMap_def, List.flatMap_def, List.map_congr_left hg]
  rw [e, flatMap_filter_flatten, h, List.filter_append, List.filter_eq_self.2 (by simpa using ha),
    List.filter_eq_nil_iff.2 (by simpa using hb), List.append_nil]

/-- C59, executions in which every write to the data files is complete (and the conditions of `EvOK`), and in which the
    writes acknowledged before some moment have a time up to `T`, and those after it a later one: with `--time T` the tool
    ends and leaves the data files as they are, a process loads the namespace from the index files it made, and every read
    command on every key is answered as at that moment.  Further executions of the namespace follow the map of that moment.
    Missing: `C59_order_refuted`, `C59_null_refuted`.  Sequential mode: `C59_seq_partial`. -/
theorem C59_partial {cfg : Option Mode} {u : Nat} {tr1 tr2 : List (NsEvent × Reply)} {br1 br2 : Branches} {s1 s2 : Store}
    (h : UserRun cfg u tr1 br1 s1) (hr : NsRun cfg u br1 s1 tr2 br2 s2) (hev : ∀ x ∈ tr2, EvOK x.1)
    (hlen : (tr1 ++ tr2).length ≤ maxEvents) (hw : ∀ x ∈ tr1 ++ tr2, WholeData x.1) {T : Nat} (hT : 0 < T)
    (before : ∀ x ∈ tr1, ∀ w ∈ acked x, w.time ≤ T) (after : ∀ x ∈ tr2, ∀ w ∈ acked x, T < w.time) (v : Nat) :
    ∃ br3 s3, rebuild .user T v s2.dfiles = .done br3 s3 ∧ s3.dfiles = s2.dfiles ∧
      ∀ br0, (∀ b, nsBranch br0 u b = []) →
        ∃ br4 s4, loadNs cfg br0 u s3.ifiles s2.dfiles = .ok br4 s4 ∧ s4.ifiles = s3.ifiles ∧ s4.dfiles = s2.dfiles ∧
          (∀ (c : Ctx) (d : DsCmd) (name k : Bytes), c.u = u → d.readsKey = true → name ≠ [] →
            (dsCommand c br4 s4 d [name, k]).2.2 = (dsCommand c br1 s1 d [name, k]).2.2) ∧
          (∀ tr' br5 s5, NsRun cfg u br4 s4 tr' br5 s5 → (∀ x ∈ tr', EvOK x.1) →
            (tr1 ++ tr2).length + tr'.length ≤ maxEvents → Agrees (specRun [] (tr1.map (·.1))) tr') := by
  obtain ⟨br0, br, s, e0, e1, e2⟩ := h.run
  have h2 : UserRun cfg u (tr1 ++ tr2) br2 s2 :=
    ⟨h.hcfg, ⟨br0, br, s, e0, e1, e2.append hr⟩, by
      intro x hx
      rcases List.mem_append.1 hx with hx | hx
      · exact h.ev x hx
      · exact hev x hx, hlen⟩
  obtain ⟨G1, D1, a1, a2, a3, -⟩ := h.data (fun x hx => hw x (List.mem_append_left _ hx))
  obtain ⟨G, D, k1, hD, k2, k3⟩ := h2.data hw
  have hw1 := a2.log.writes
  have hw2 := hD.log.writes
  rw [List.flatMap_append] at hw2
  obtain ⟨a, b, hab, ha, hb⟩ := List.map_eq_append_iff.1 hw2
  have hat : ∀ r ∈ a, r.time ≤ T := by
    intro r hr
    have : r.what ∈ tr1.flatMap acked := by rw [← ha]; exact List.mem_map_of_mem hr
    obtain ⟨x, hx, hw⟩ := List.mem_flatMap.1 this
    exact before x hx _ hw
  have hbt : ∀ r ∈ b, T < r.time := by
    intro r hr
    have : r.what ∈ tr2.flatMap acked := by rw [← hb]; exact List.mem_map_of_mem hr
    obtain ⟨x, hx, hw⟩ := List.mem_flatMap.1 this
    exact after x hx _ hw
  have hcut : replayKV [] (D.flatMap (cutAt T)) = some (absKV G1) := by
    rw [flatMap_cutAt hT hab hat hbt, replayKV_what (ha.trans hw1.symm)]
    exact a2.rep.replay
  have hil := k1.irep.length
  have hdl := k1.dlen
  have hG : G.length < 2 ^ 32 := by have := k3.1; omega
  have hne : 0 < G.length := List.length_pos_iff.2 k1.ne
  obtain ⟨br3, s3, G3, j1, j2, j3, j4⟩ := rebuild_limit (u := v) T hD.rep hcut (by omega) (by omega)
  refine ⟨br3, s3, j1, j2, ?_⟩
  intro br0 hbr
  have hil1 := j3.irep.length
  have hdl1 := j3.dlen
  simp only [j2] at hdl1
  obtain ⟨br4, s4, l1, l2, l3, l4, -⟩ := j3.load' (br0 := br0) (u := u) cfg h.hcfg (by omega) hbr
  simp only [j2] at l1 l4
  refine ⟨br4, s4, l1, l3, l4, ?_, ?_⟩
  · intro c d name k hc hd hn
    exact read_congr (by rw [hc]; exact a1) (by rw [hc]; exact l2) d hd name k hn (by rw [j4])
  · intro tr' br5 s5 hr hev hlen
    obtain ⟨-, -, -, ha⟩ := UInv.run h.hcfg hr l2 hev (by
      rw [l3, totalData, l4]
      have e : s3.ifiles.length = s2.ifiles.length := by rw [hil, ← hdl, hdl1]; exact hil1
      rw [e]
      exact k3.mono (by omega))
    rw [j4, a3] at ha
    exact ha

/-- The same with a time given. -/
def at_ (t : Nat) (d : DsCmd) (argv : List Bytes) : Ctx × DsCmd × List Bytes := ({ exCtx with now := t }, d, argv)

/-- What is read with the index rebuilt up to `T`. -/
def readRebuiltAt (T : Nat) (c : Ctx) (dfiles : List Bytes) (d : DsCmd) (argv : List Bytes) : Option Reply :=
  match rebuild .user T c.u dfiles with
  | .done _ s => readAfter c s.ifiles dfiles d argv
  | _ => none

/-- Two keys, then later a jump, an overwrite, a deletion and a new key. -/
def exBefore : List (Ctx × DsCmd × List Bytes) :=
  [at_ 100 .set [str "SET", str "a", str "one"], at_ 200 .set [str "SET", str "b", str "two"]]

def exAfterwards : List (Ctx × DsCmd × List Bytes) :=
  [at_ 300 .nsjump [str "NSJUMP"], at_ 300 .set [str "SET", str "a", str "three"], at_ 400 .del [str "DEL", str "b"],
   at_ 500 .set [str "SET", str "c", str "four"]]

theorem exBefore_run : UserRun none 7 (traceOf (fun _ => []) (freshStore .user) exBefore)
    (runCmds (fun _ => []) (freshStore .user) exBefore).1 (runCmds (fun _ => []) (freshStore .user) exBefore).2.1 :=
  userRun_ok exBefore (by decide) (by decide)

/-- The state of that execution at time 250. -/
def exMidBr : Branches := (runCmds (fun _ => []) (freshStore .user) exBefore).1
def exMid : Store := (runCmds (fun _ => []) (freshStore .user) exBefore).2.1

set_option maxRecDepth 100000 in
/-- The hypotheses of `C59_partial` are met by it. -/
theorem C59_hyps :
    NsRun none 7 exMidBr exMid (traceOf exMidBr exMid exAfterwards) (runCmds exMidBr exMid exAfterwards).1
      (runCmds exMidBr exMid exAfterwards).2.1 ∧
    (∀ x ∈ traceOf exMidBr exMid exAfterwards, EvOK x.1) ∧
    (∀ x ∈ traceOf (fun _ => []) (freshStore .user) exBefore, ∀ w ∈ acked x, w.time ≤ 250) ∧
    (∀ x ∈ traceOf exMidBr exMid exAfterwards, ∀ w ∈ acked x, 250 < w.time) ∧
    (traceOf exMidBr exMid exAfterwards).flatMap acked =
      [⟨str "a", some (str "three"), 300⟩, ⟨str "b", none, 400⟩, ⟨str "c", some (str "four"), 500⟩] := by
  have e1 : (traceOf (fun _ => []) (freshStore .user) exBefore).flatMap acked =
      [⟨str "a", some (str "one"), 100⟩, ⟨str "b", some (str "two"), 200⟩] := rfl
  have e2 : (traceOf exMidBr exMid exAfterwards).flatMap acked =
      [⟨str "a", some (str "three"), 300⟩, ⟨str "b", none, 400⟩, ⟨str "c", some (str "four"), 500⟩] := rfl
  refine ⟨?_, ?_, ?_, ?_, e2⟩
  · refine runCmds_run none 7 _ ?_ _ _
    have : exAfterwards.all (fun x => x.1.u == 7) = true := by decide
    intro x hx
    simpa using List.all_eq_true.1 this x hx
  · intro x hx
    obtain ⟨y, hy, he⟩ := mem_traceOf hx
    have : exAfterwards.all okCmd = true := by decide
    have := okCmd_ok (List.all_eq_true.1 this y hy)
    rw [he]
    exact ⟨this.2.1, this.2.2⟩
  · intro x hx w hw
    have : w ∈ (traceOf (fun _ => []) (freshStore .user) exBefore).flatMap acked := List.mem_flatMap.2 ⟨x, hx, hw⟩
    rw [e1] at this
    simp only [List.mem_cons, List.not_mem_nil, or_false] at this
    rcases this with rfl | rfl <;> decide
  · intro x hx w hw
    have : w ∈ (traceOf exMidBr exMid exAfterwards).flatMap acked := List.mem_flatMap.2 ⟨x, hx, hw⟩
    rw [e2] at this
    simp only [List.mem_cons, List.not_mem_nil, or_false] at this
    rcases this with rfl | rfl | rfl <;> decide

set_option maxRecDepth 100000 in
/-- Going back to time 250 in that execution. -/
theorem C59_example :
    let s := (runCmds (fun _ => []) (freshStore .user) (exBefore ++ exAfterwards)).2.1
    readRebuiltAt 250 exCtx s.dfiles .get [str "GET", str "a"] = some (.bulk (str "one")) ∧
    readRebuiltAt 250 exCtx s.dfiles .get [str "GET", str "b"] = some (.bulk (str "two")) ∧
    readRebuiltAt 250 exCtx s.dfiles .get [str "GET", str "c"] = some .nil ∧
    readRebuiltAt 450 exCtx s.dfiles .get [str "GET", str "b"] = some .nil :=
  ⟨rfl, rfl, rfl, rfl⟩

/-- A clock that goes backwards (or the administrator gives the times, as a mirror does). -/
def exBack : List (Ctx × DsCmd × List Bytes) :=
  [at_ 100 .set [str "SET", str "a", str "one"], at_ 50 .set [str "SET", str "b", str "two"]]

theorem exBack_run : UserRun none 7 (traceOf (fun _ => []) (freshStore .user) exBack)
    (runCmds (fun _ => []) (freshStore .user) exBack).1 (runCmds (fun _ => []) (freshStore .user) exBack).2.1 :=
  userRun_ok exBack (by decide) (by decide)

set_option maxRecDepth 100000 in
/-- C59 is false if a time is smaller than one before it: a write acknowledged at time 50 is not in the index rebuilt up
    to time 60, because the tool leaves the file at the record before it. -/
theorem C59_order_refuted :
    let x := runCmds (fun _ => []) (freshStore .user) exBack
    x.2.2 = [.bulk (str "a"), .bulk (str "b")] ∧
    readRebuiltAt 60 exCtx x.2.1.dfiles .get [str "GET", str "b"] = some .nil :=
  ⟨rfl, rfl⟩

/-- A key written at time 100, a jump, and the deletion of the key at time 50. -/
def exBackDel : List (Ctx × DsCmd × List Bytes) :=
  [at_ 100 .set [str "SET", str "a", str "one"], at_ 100 .nsjump [str "NSJUMP"], at_ 50 .del [str "DEL", str "a"]]

theorem exBackDel_run : UserRun none 7 (traceOf (fun _ => []) (freshStore .user) exBackDel)
    (runCmds (fun _ => []) (freshStore .user) exBackDel).1 (runCmds (fun _ => []) (freshStore .user) exBackDel).2.1 :=
  userRun_ok exBackDel (by decide) (by decide)

set_option maxRecDepth 100000 in
/-- C59 is false then in another way: the limit ends a file, not the work of the tool; the deletion in the next file is of
    a key that is not in the index, and the tool calls `index_entry_delete` with NULL. -/
theorem C59_null_refuted :
    let x := runCmds (fun _ => []) (freshStore .user) exBackDel
    x.2.2 = [.bulk (str "a"), .ok, .ok] ∧ (rebuild .user 60 7 x.2.1.dfiles).isNull = true :=
  ⟨rfl, rfl⟩

end Zdb
