/-
C55: the data files are a log of the acknowledged writes.  C56: the log as read with DATA RAW.
-/
import Verif.Props.Rebuild
import Verif.Lemmas.DataRaw
import Verif.Lemmas.SeqData
import Verif.Props.Seq
namespace Zdb

/-- C55, executions in which every write to the data files is complete (and the conditions of `EvOK`): the data files
    are their headers followed by records; the records, file after file, are the acknowledged SETs and DELs, with their times, in the
    order of the requests; every record but the first of a file gives the place of the record before it.
    Missing: `C55_torn_refuted`. -/
theorem C55_partial {cfg : Option Mode} {u : Nat} {tr : List (NsEvent × Reply)} {br : Branches} {s : Store}
    (h : UserRun cfg u tr br s) (hw : ∀ x ∈ tr, WholeData x.1) :
    ∃ D : List (List DRec), s.dfiles = D.mapIdx encDFile ∧ (∀ g ∈ D, ∀ r ∈ g, r.WF) ∧
      D.flatten.map DRec.what = tr.flatMap acked ∧ ∀ g ∈ D, Chained g := by
  obtain ⟨G, D, -, hD, -, -⟩ := h.data hw
  exact ⟨D, hD.rep.files, hD.rep.wf, hD.log.writes, hD.log.chain⟩

set_option maxRecDepth 100000 in
/-- The log of the concrete execution of the other files (`exRun`): the second SET of `a` is in the second file, with the
    deletion of `b` behind it. -/
theorem C55_example :
    (traceOf (fun _ => []) (freshStore .user) exCmds).flatMap acked =
      [⟨str "a", some (str "one"), 1700000000⟩, ⟨str "b", some (str "two"), 1700000000⟩, ⟨str "a", some (str "three"), 1700000000⟩,
        ⟨str "b", none, 1700000000⟩] := rfl

/-- C55 for a sequential namespace, executions within the conditions of `SeqRun` in which every write to the data files
    is complete.  The id of a record is the one in the reply to the SET. -/
theorem C55_seq_partial {cfg : Option Mode} {u : Nat} {tr : List (NsEvent × Reply)} {br : Branches} {s : Store}
    (h : SeqRun cfg u tr br s) (hw : ∀ x ∈ tr, WholeData x.1) :
    ∃ D : List (List DRec), s.dfiles = D.mapIdx encDFile ∧ (∀ g ∈ D, ∀ r ∈ g, r.WF) ∧
      D.flatten.map DRec.what = tr.flatMap acked ∧ ∀ g ∈ D, Chained g := by
  obtain ⟨G, D, -, hD, -⟩ := h.data hw
  exact ⟨D, hD.files, hD.wf, hD.writes, hD.chain⟩

set_option maxRecDepth 100000 in
/-- The log of the concrete execution `exSeqRun`: slot 0 is overwritten and slot 1 deleted after the jump. -/
theorem C55_seq_example :
    (traceOf (fun _ => []) (freshStore .seq) exSeqCmds).flatMap acked =
      [⟨sid 0, some (str "one"), 1700000000⟩, ⟨sid 1, some (str "two"), 1700000000⟩, ⟨sid 2, some (str "three"), 1700000000⟩,
        ⟨sid 0, some (str "uno"), 1700000000⟩, ⟨sid 1, none, 1700000000⟩, ⟨sid 4, some (str "four"), 1700000000⟩] := rfl

/-- C55 is false if the write of a payload fails: in the execution `exTorn` no list of records with the acknowledged
    writes makes the bytes of the data files. -/
theorem C55_torn_refuted :
    ¬ ∃ D : List (List DRec), (runCmds (fun _ => []) (freshStore .user) exTorn).2.1.dfiles = D.mapIdx encDFile ∧
      D.flatten.map DRec.what = (traceOf (fun _ => []) (freshStore .user) exTorn).flatMap acked := by
  rintro ⟨D, h1, h2⟩
  have hw : (traceOf (fun _ => []) (freshStore .user) exTorn).flatMap acked = [⟨str "b", some (str "two"), 1700000000⟩] := rfl
  have hl : (runCmds (fun _ => []) (freshStore .user) exTorn).2.1.dfiles.map List.length = [69] := by decide +kernel
  rw [hw] at h2
  rw [h1] at hl
  match D, h2, hl with
  | [], h2, hl => simp at hl
  | [g], h2, hl =>
    simp only [List.flatten_singleton] at h2
    match g, h2 with
    | [], h2 => simp at h2
    | [r], h2 =>
      simp only [List.map_cons, List.map_nil, List.cons.injEq, and_true, DRec.what, Write.mk.injEq] at h2
      obtain ⟨e1, e2, -⟩ := h2
      have hp : r.payload = str "two" := by
        by_cases hd : r.del = true
        · rw [if_pos hd] at e2; cases e2
        · rw [if_neg hd] at e2; injection e2
      simp only [List.mapIdx_cons, List.mapIdx_nil, List.map_cons, List.map_nil, encDFile_length, dsize, List.sum_cons,
        List.sum_nil, DRec.enc_length, e1, hp] at hl
      exact absurd hl (by decide)
    | _ :: _ :: _, h2 => simp at h2
  | _ :: _ :: _, h2, hl => simp at hl

/-- What DATA RAW answers at the places of the records of a log. -/
theorem DLog.raw {s : Store} {D : List (List DRec)} {W : List Write} (hD : DLog s D W)
    (hf : D.length ≤ 2 ^ 32) (ht : totalData s < 2 ^ 63) (br : Branches) (c : Ctx) (name : Bytes) (i : Nat) (g : List DRec)
    (had : c.admin = true) (hn : name ≠ []) (hg : D[i]? = some g) :
    (dsCommand c br s .data (rawArgs name i (28 + dsize g))).2.2 = .err "EOF" ∧
      ∀ a r b, g = a ++ r :: b → r.del = false → r.payload ≠ [] →
        (dsCommand c br s .data (rawArgs name i (28 + dsize a))).2.2 = r.reply := by
  have hiD : i < D.length := (List.getElem?_eq_some_iff.1 hg).1
  have hi : i < 2 ^ 32 := by omega
  have hsz : 28 + dsize g < 2 ^ 63 := by
    have hd := dfile_of hD.files hg
    have := sum_le_of_mem (List.mem_map_of_mem (f := List.length) (List.mem_of_getElem? hd))
    rw [encDFile_length] at this
    unfold totalData at ht
    omega
  refine ⟨?_, ?_⟩
  · simp only [dsCommand]
    rw [cmdData_raw had s hn hi hsz, dataRaw_end hD.files hg]
  · intro a r b hab hdel hp
    subst hab
    have hmem := List.mem_of_getElem? hg
    have hoff : 28 + dsize a < 2 ^ 63 := by
      have : dsize a ≤ dsize (a ++ r :: b) := by simp [dsize]
      omega
    simp only [dsCommand]
    rw [cmdData_raw had s hn hi hoff,
      dataRaw_record hD.files hg (hD.wf _ hmem r (by simp)) (hD.small _ hmem r (by simp)), hdel]
    simp only [Bool.false_eq_true, if_false]
    have h0 : r.hdr.datalength ≠ 0 := fun e => hp (List.length_eq_zero_iff.1 e)
    rw [if_neg h0]
    simp [DRec.reply, DRec.hdr, hdel, hex8_eq (crc32_lt _)]

/-- C56, same conditions: an administrator that asks with DATA RAW for the place of a SET of at least one byte is given
    the record of that SET; from its lengths the place of the next record follows, and behind the last record of a file
    the answer is `EOF`.  Missing: `C56_del_refuted`, `C56_empty_refuted`. -/
theorem C56_partial {cfg : Option Mode} {u : Nat} {tr : List (NsEvent × Reply)} {br : Branches} {s : Store}
    (h : UserRun cfg u tr br s) (hw : ∀ x ∈ tr, WholeData x.1) :
    ∃ D : List (List DRec), D.flatten.map DRec.what = tr.flatMap acked ∧
      ∀ (c : Ctx) (name : Bytes) (i : Nat) (g : List DRec), c.admin = true → name ≠ [] → D[i]? = some g →
        (dsCommand c br s .data (rawArgs name i (28 + dsize g))).2.2 = .err "EOF" ∧
        ∀ a r b, g = a ++ r :: b → r.del = false → r.payload ≠ [] →
          (dsCommand c br s .data (rawArgs name i (28 + dsize a))).2.2 = r.reply := by
  obtain ⟨G, D, hU, hD, -, hroom⟩ := h.data hw
  have hlen := hD.log.length
  have hf : D.length ≤ 2 ^ 32 := by have := hU.files; have := hU.dlen; omega
  exact ⟨D, hD.log.writes, hD.log.raw hf (by have := hroom.2; omega) br⟩

/-- C56 for a sequential namespace, same conditions as `C55_seq_partial`. -/
theorem C56_seq_partial {cfg : Option Mode} {u : Nat} {tr : List (NsEvent × Reply)} {br : Branches} {s : Store}
    (h : SeqRun cfg u tr br s) (hw : ∀ x ∈ tr, WholeData x.1) :
    ∃ D : List (List DRec), D.flatten.map DRec.what = tr.flatMap acked ∧
      ∀ (c : Ctx) (name : Bytes) (i : Nat) (g : List DRec), c.admin = true → name ≠ [] → D[i]? = some g →
        (dsCommand c br s .data (rawArgs name i (28 + dsize g))).2.2 = .err "EOF" ∧
        ∀ a r b, g = a ++ r :: b → r.del = false → r.payload ≠ [] →
          (dsCommand c br s .data (rawArgs name i (28 + dsize a))).2.2 = r.reply := by
  obtain ⟨G, D, hS, hD, hroom⟩ := h.data hw
  have hlen := hD.length
  exact ⟨D, hD.writes, hD.raw (by have := hroom.1; have := hS.dlen; have := hS.irep.length; omega) (by have := hroom.2; omega) br⟩

set_option maxRecDepth 100000 in
/-- The record of the SET of `three` in the second file of the execution `exCmds`, as given by DATA RAW. -/
theorem C56_example :
    let s := (runCmds (fun _ => []) (freshStore .user) exCmds).2.1
    (dsCommand exCtx (fun _ => []) s .data (rawArgs (str "DATA") 1 28)).2.2 =
      .arr [.bulk (str "a"), .int 50, .bulk (hex8 (crc32 (str "three"))), .int 0, .int 1700000000, .bulk (str "three")] := by
  intro s
  have h : dataRaw s 1 (28 : Nat) = .found (DRec.hdr ⟨str "a", str "three", 50, false, 1700000000⟩) (str "a") (str "three") := rfl
  simp only [dsCommand]
  rw [cmdData_raw rfl s (by decide) (by decide) (by decide), h]
  rfl

set_option maxRecDepth 100000 in
/-- C56 is false for deletions: the DEL of `b` in the execution `exCmds` is acknowledged and its record is at offset 52 of
    the second file (the record before it takes the bytes 28 to 51), but DATA RAW answers with an error. -/
theorem C56_del_refuted :
    let s := (runCmds (fun _ => []) (freshStore .user) exCmds).2.1
    ⟨str "b", none, 1700000000⟩ ∈ (traceOf (fun _ => []) (freshStore .user) exCmds).flatMap acked ∧
    s.dfiles[1]? = some (encDFile 1 [⟨str "a", str "three", 50, false, 1700000000⟩, ⟨str "b", [], 28, true, 1700000000⟩]) ∧
    (dsCommand exCtx (fun _ => []) s .data (rawArgs (str "DATA") 1 52)).2.2 = .err "Unexpected Internal Error" := by
  intro s
  have hf : s.dfiles[1]? = some (encDFile 1 [⟨str "a", str "three", 50, false, 1700000000⟩, ⟨str "b", [], 28, true, 1700000000⟩]) := rfl
  have h : dataRaw s 1 (52 : Nat) = .unexpected := rfl
  refine ⟨?_, hf, ?_⟩
  · rw [C55_example]; simp
  · simp only [dsCommand]
    rw [cmdData_raw rfl s (by decide) (by decide) (by decide), h]

/-- A SET of no bytes. -/
def exEmpty : List (Ctx × DsCmd × List Bytes) := [(exCtx, .set, [str "SET", str "a", []])]

theorem exEmpty_run : UserRun none 7 (traceOf (fun _ => []) (freshStore .user) exEmpty)
    (runCmds (fun _ => []) (freshStore .user) exEmpty).1 (runCmds (fun _ => []) (freshStore .user) exEmpty).2.1 :=
  userRun_ok exEmpty (by decide) (by decide)

set_option maxRecDepth 100000 in
/-- C56 is false for a SET of no bytes: it is acknowledged and GET answers with it, but DATA RAW says that there is
    nothing valid at its place. -/
theorem C56_empty_refuted :
    let x := runCmds (fun _ => []) (freshStore .user) exEmpty
    x.2.2 = [.bulk (str "a")] ∧ (dsCommand exCtx x.1 x.2.1 .get [str "GET", str "a"]).2.2 = .bulk [] ∧
    x.2.1.dfiles = [encDFile 0 [⟨str "a", [], 0, false, 1700000000⟩]] ∧
    (dsCommand exCtx x.1 x.2.1 .data (rawArgs (str "DATA") 0 28)).2.2 = .err "Invalid Request" := by
  intro x
  have h : dataRaw x.2.1 0 (28 : Nat) = .found (DRec.hdr ⟨str "a", [], 0, false, 1700000000⟩) (str "a") [] := rfl
  refine ⟨rfl, rfl, rfl, ?_⟩
  simp only [dsCommand]
  rw [cmdData_raw rfl x.2.1 (by decide) (by decide) (by decide), h]
  rfl

end Zdb
