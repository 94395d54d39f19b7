/-
C41: the index rebuilt from the data files.
-/
import Verif.Lemmas.RebuildPass
import Verif.Props.Crash
namespace Zdb

/-- C41, executions in which every write to the data files is complete (and the conditions of `EvOK`): the tool ends, it
    leaves the data files as they are, a process loads the namespace from the index files it made, and every read command
    on every key (existing, deleted or never written) is answered as with the original index.  Further executions of the
    namespace follow the map of the original one.  Missing: `C41_torn_refuted`, `C41_twice_refuted`.  Sequential mode: `C41_seq_partial`. -/
theorem C41_partial {cfg : Option Mode} {u : Nat} {tr : List (NsEvent × Reply)} {br : Branches} {s : Store}
    (h : UserRun cfg u tr br s) (hw : ∀ x ∈ tr, WholeData x.1) (v : Nat) :
    ∃ br1 s1, rebuild .user 0 v s.dfiles = .done br1 s1 ∧ s1.dfiles = s.dfiles ∧
      ∀ br0, (∀ b, nsBranch br0 u b = []) →
        ∃ br2 s2, loadNs cfg br0 u s1.ifiles s.dfiles = .ok br2 s2 ∧ s2.ifiles = s1.ifiles ∧ s2.dfiles = s.dfiles ∧
          (∀ (c : Ctx) (d : DsCmd) (name k : Bytes), c.u = u → d.readsKey = true → name ≠ [] →
            (dsCommand c br2 s2 d [name, k]).2.2 = (dsCommand c br s d [name, k]).2.2) ∧
          (∀ tr' br3 s3, NsRun cfg u br2 s2 tr' br3 s3 → (∀ x ∈ tr', EvOK x.1) → tr.length + tr'.length ≤ maxEvents →
            Agrees (specRun [] (tr.map (·.1))) tr') := by
  obtain ⟨G, D, k1, hD, k2, k3⟩ := h.data hw
  have hil := k1.irep.length
  have hdl := k1.dlen
  have hG : G.length < 2 ^ 32 := by have := k3.1; omega
  have hne : 0 < G.length := List.length_pos_iff.2 k1.ne
  obtain ⟨br1, s1, G1, j1, j2, j3, j4⟩ := rebuild_spec (u := v) hD.rep (by omega) (by omega)
  refine ⟨br1, s1, j1, j2, ?_⟩
  intro br0 hbr
  have hil1 := j3.irep.length
  have hdl1 := j3.dlen
  simp only [j2] at hdl1
  obtain ⟨br2, s2, l1, l2, l3, l4, -⟩ := j3.load' (br0 := br0) (u := u) cfg h.hcfg (by omega) hbr
  simp only [j2] at l1 l4
  refine ⟨br2, s2, l1, l3, l4, ?_, ?_⟩
  · intro c d name k hc hd hn
    exact read_congr (by rw [hc]; exact k1) (by rw [hc]; exact l2) d hd name k hn (by rw [j4])
  · intro tr' br3 s3 hr hev hlen
    obtain ⟨-, -, -, ha⟩ := UInv.run h.hcfg hr l2 hev (by
      rw [l3, totalData, l4]
      have e : s1.ifiles.length = s.ifiles.length := by rw [hil, ← hdl, hdl1]; exact hil1
      rw [e]
      exact k3.mono (by omega))
    rw [j4, k2] at ha
    exact ha

/-- The concrete execution of the other files: two keys, an overwrite, a jump, a deletion. -/
theorem exCmds_whole : ∀ x ∈ traceOf (fun _ => []) (freshStore .user) exCmds, WholeData x.1 := by
  intro x hx
  obtain ⟨y, hy, he⟩ := mem_traceOf hx
  rw [he]
  simp only [exCmds, List.mem_cons, List.not_mem_nil, or_false] at hy
  rcases hy with rfl | rfl | rfl | rfl | rfl | rfl | rfl | rfl <;> exact ⟨rfl, rfl⟩

set_option maxRecDepth 100000 in
/-- What is read with the rebuilt index in that execution (`exRun`). -/
theorem C41_example :
    let s := (runCmds (fun _ => []) (freshStore .user) exCmds).2.1
    s.dfiles.length = 2 ∧
    readRebuilt exCtx s.dfiles .get [str "GET", str "a"] = some (.bulk (str "three")) ∧
    readRebuilt exCtx s.dfiles .get [str "GET", str "b"] = some .nil ∧
    readRebuilt exCtx s.dfiles .keytime [str "KEYTIME", str "a"] = some (.int 1700000000) :=
  ⟨rfl, rfl, rfl, rfl⟩

/-- A SET of which the header but not the payload of 22 bytes reaches the data file, then a complete one. -/
def exTorn : List (Ctx × DsCmd × List Bytes) :=
  [({ exCtx with io := { Io.good with dpay := some 0 } }, .set, [str "SET", str "a", str "0123456789012345678901"]),
   (exCtx, .set, [str "SET", str "b", str "two"]),
   (exCtx, .get, [str "GET", str "a"]),
   (exCtx, .get, [str "GET", str "b"])]

theorem exTorn_run : UserRun none 7 (traceOf (fun _ => []) (freshStore .user) exTorn)
    (runCmds (fun _ => []) (freshStore .user) exTorn).1 (runCmds (fun _ => []) (freshStore .user) exTorn).2.1 :=
  userRun_ok exTorn (by decide) (by decide)

/-- The bytes of the record of the second SET. -/
def exTornRec : Bytes := DRec.enc ⟨str "b", str "two", 0, false, 1700000000⟩

set_option maxRecDepth 100000 in
/-- C41 is false if the write of a payload fails: the server answers the SET with an error and goes on, but the tool takes
    the next record for the payload.  The key of the next SET, which was acknowledged, is gone, and the key of the refused
    SET exists; its value is the record of the other key. -/
theorem C41_torn_refuted :
    let x := runCmds (fun _ => []) (freshStore .user) exTorn
    x.2.2 = [.err "Cannot write data right now", .bulk (str "b"), .nil, .bulk (str "two")] ∧
    readRebuilt exCtx x.2.1.dfiles .get [str "GET", str "b"] = some .nil ∧
    readRebuilt exCtx x.2.1.dfiles .get [str "GET", str "a"] = some (.bulk exTornRec) :=
  ⟨rfl, rfl, rfl⟩

/-- A SET, then a DEL during which the process is killed after the write to the data file; a new process loads the
    namespace, in which the key is still there, and deletes it again. -/
def exTwice : Option (List Reply × List Bytes) :=
  let x := runCmds (fun _ => []) (freshStore .user) [(exCtx, .set, [str "SET", str "a", str "one"])]
  let f := deathFiles exCtx x.1 x.2.1 .del [str "DEL", str "a"] (.itemFlag 0)
  match loadNs none (fun _ => []) 7 f.1 f.2 with
  | .ok br s =>
    let y := runCmds br s [(exCtx, .del, [str "DEL", str "a"]), (exCtx, .set, [str "SET", str "b", str "two"])]
    some (y.2.2, y.2.1.dfiles)
  | _ => none

set_option maxRecDepth 100000 in
/-- C41 is false after the process was killed during a DEL: the data file has two deletions of the same key, and the tool
    calls `index_entry_delete` with NULL at the second one. -/
theorem C41_twice_refuted :
    ∃ dfiles, exTwice = some ([.ok, .bulk (str "b")], dfiles) ∧ (rebuild .user 0 7 dfiles).isNull = true :=
  ⟨_, rfl, rfl⟩

end Zdb
