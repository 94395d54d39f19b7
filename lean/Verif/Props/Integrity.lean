/-
C58: the integrity-check tool.
-/
import Verif.Lemmas.Integrity
import Verif.Props.DataLog
namespace Zdb

/-- C58, general part: called with the old name of data file `i`, the tool checks the data file `d<i>` of the directory, and
    its status is the number of records whose payload does not have the checksum stored with it, modulo 256.  This is so
    for any records, however they got there.  Missing: `C58_names_refuted`, `C58_status_refuted`. -/
theorem C58_partial {dir : FileDir} {i : Nat} (hi : i < 2 ^ 32) {x h : Bytes} {g : List SRec} (hx : dir.lookup (oldName i) = some x)
    (hf : dir.lookup (100 :: Resp.digits i) = some (encSFile h g)) (hh : GoodHeader h) (hw : ∀ r ∈ g, r.WF) :
    integrityMain dir (oldName i) = badCount g % 256 := by
  rw [integrityMain_old hi hx, hf, dataIntegrity_count hh hw]

/-- C58, a file that ends inside a record: the status is 1. -/
theorem C58_cut {dir : FileDir} {i : Nat} (hi : i < 2 ^ 32) {x h : Bytes} {g : List SRec} {r : SRec} {t u : Bytes}
    (hx : dir.lookup (oldName i) = some x) (hf : dir.lookup (100 :: Resp.digits i) = some (encSFile h g ++ t)) (hh : GoodHeader h)
    (hw : ∀ r ∈ g, r.WF) (hr : r.WF) (ht : r.enc = t ++ u) (ht0 : t ≠ []) (hu0 : u ≠ []) :
    integrityMain dir (oldName i) = 1 := by
  rw [integrityMain_old hi hx, hf, dataIntegrity_cut hh hw hr ht ht0 hu0]

/-- A record as the server writes it, with the checksum that it gets. -/
def DRec.stored (r : DRec) : SRec :=
  ⟨r.id, r.payload, r.prev, if r.del then 0 else crc32 r.payload, if r.del then 1 else 0, r.time⟩

theorem DRec.stored_enc (r : DRec) : r.stored.enc = r.enc := rfl

theorem DRec.stored_wf {r : DRec} (h : r.WF) : r.stored.WF := by
  refine ⟨h.id1, h.len, h.prev, ?_, ?_, h.time⟩
  · simp only [DRec.stored]; split
    · decide
    · exact crc32_lt _
  · simp only [DRec.stored]; split <;> decide

theorem DRec.stored_good {r : DRec} (h : r.WF) : ¬ r.stored.Bad := by
  rintro ⟨h1, h2⟩
  simp only [DRec.stored] at h1 h2
  cases hd : r.del with
  | true => exact h1 (h.gone hd)
  | false => rw [hd, ← crc32_spec] at h2; exact h2 rfl

theorem encDFile_stored (i : Nat) (g : List DRec) :
    encDFile i g = encSFile (encDFHeader (freshDFHeader i)) (g.map DRec.stored) := by
  rw [encDFile, encSFile, List.flatMap_map]; rfl

theorem freshHeader_good (i : Nat) : GoodHeader (encDFHeader (freshDFHeader i)) :=
  ⟨by simp [encDFHeader, freshDFHeader, datMagic], rfl, rfl⟩

theorem badCount_stored {g : List DRec} (hw : ∀ r ∈ g, r.WF) : badCount (g.map DRec.stored) = 0 := by
  rw [badCount, List.countP_eq_zero]
  intro x hx
  obtain ⟨r, hr, rfl⟩ := List.mem_map.1 hx
  simpa using DRec.stored_good (hw r hr)

theorem DLog.integrity {s : Store} {D : List (List DRec)} {W : List Write} (h : DLog s D W) {dir : FileDir} {i : Nat}
    (hi : i < 2 ^ 32) {f x : Bytes} (hs : s.dfiles[i]? = some f) (hf : dir.lookup (100 :: Resp.digits i) = some f)
    (hx : dir.lookup (oldName i) = some x) : integrityMain dir (oldName i) = 0 := by
  rw [h.files] at hs
  obtain ⟨g, hg, rfl⟩ : ∃ g, D[i]? = some g ∧ f = encDFile i g := by
    rw [List.getElem?_mapIdx] at hs
    obtain ⟨g, hg, he⟩ := Option.map_eq_some_iff.1 hs
    exact ⟨g, hg, he.symm⟩
  have hw : ∀ r ∈ g, r.WF := h.wf g (List.mem_of_getElem? hg)
  rw [encDFile_stored] at hf
  rw [C58_partial hi hx hf (freshHeader_good i), badCount_stored hw]
  intro r hr
  obtain ⟨r, hr', rfl⟩ := List.mem_map.1 hr
  exact DRec.stored_wf (hw r hr')

/-- C58, no false alarm: for every data file of a user-key namespace after an execution in which every write to the data files
    is complete, the tool (called with the old name) has status 0. -/
theorem C58_clean_user {cfg : Option Mode} {u : Nat} {tr : List (NsEvent × Reply)} {br : Branches} {s : Store}
    (h : UserRun cfg u tr br s) (hw : ∀ x ∈ tr, WholeData x.1) {dir : FileDir} {i : Nat} (hi : i < 2 ^ 32) {f x : Bytes}
    (hs : s.dfiles[i]? = some f) (hf : dir.lookup (100 :: Resp.digits i) = some f) (hx : dir.lookup (oldName i) = some x) :
    integrityMain dir (oldName i) = 0 := by
  obtain ⟨G, D, -, hD, -, -⟩ := h.data hw
  exact hD.log.integrity hi hs hf hx

/-- C58, no false alarm: the same for a sequential namespace. -/
theorem C58_clean_seq {cfg : Option Mode} {u : Nat} {tr : List (NsEvent × Reply)} {br : Branches} {s : Store}
    (h : SeqRun cfg u tr br s) (hw : ∀ x ∈ tr, WholeData x.1) {dir : FileDir} {i : Nat} (hi : i < 2 ^ 32) {f x : Bytes}
    (hs : s.dfiles[i]? = some f) (hf : dir.lookup (100 :: Resp.digits i) = some f) (hx : dir.lookup (oldName i) = some x) :
    integrityMain dir (oldName i) = 0 := by
  obtain ⟨G, D, -, hD, -⟩ := h.data hw
  exact hD.integrity hi hs hf hx

/-- The two files of the execution `exRun` pass, those of `exSeqRun` too. -/
theorem C58_example :
    let s := (runCmds (fun _ => []) (freshStore .user) exCmds).2.1
    let t := (runCmds (fun _ => []) (freshStore .seq) exSeqCmds).2.1
    s.dfiles.length = 2 ∧ t.dfiles.length = 2 ∧
    ∀ fs ∈ [s.dfiles, t.dfiles], ∀ i ∈ [0, 1],
      integrityMain [(oldName i, []), (100 :: Resp.digits i, (fs[i]?).getD [])] (oldName i) = 0 := by
  decide +kernel

theorem bufferBits_length (p : Bytes) : (bufferBits p).length = 8 * p.length := by
  induction p with
  | nil => rfl
  | cons x p ih =>
    have : bufferBits (x :: p) = (List.range 8).map (fun i => x.toNat.testBit i) ++ bufferBits p := rfl
    rw [this, List.length_append, ih]
    simp; omega

/-- C58, damage: the payload of one record of a file is replaced by one that differs from it within 32 consecutive bits.
    The status is 1. -/
theorem C58_damage {dir : FileDir} {i : Nat} (hi : i < 2 ^ 32) {x q : Bytes} {a b : List DRec} {r : DRec}
    (hx : dir.lookup (oldName i) = some x) (hw : ∀ y ∈ a ++ r :: b, y.WF) (hq : BurstDiff (bufferBits r.payload) (bufferBits q))
    (hf : dir.lookup (100 :: Resp.digits i) =
      some (encDFile i a ++ (r.enc.take (18 + r.id.length) ++ (q ++ b.flatMap DRec.enc)))) :
    integrityMain dir (oldName i) = 1 := by
  have hlen : q.length = r.payload.length := by
    obtain ⟨p, y, z, o, h1, h2, h3, -, -⟩ := hq
    have e1 := congrArg List.length h1
    have e2 := congrArg List.length h2
    rw [bufferBits_length] at e1 e2
    simp only [List.length_append] at e1 e2
    omega
  have hne : r.payload ≠ [] := by
    intro h0
    obtain ⟨p, y, z, o, h1, h2, h3, -, h4⟩ := hq
    rw [h0] at h1
    have h1 : [] = p ++ y ++ o := h1
    have hy : y = [] := by
      have := congrArg List.length h1; simp at this
      exact List.eq_nil_of_length_eq_zero (by omega)
    have hz : z = [] := by rw [hy] at h3; exact List.eq_nil_of_length_eq_zero h3.symm
    exact h4 (by rw [hy, hz])
  have hr := hw r (by simp)
  have hdel : r.del = false := by
    cases hd : r.del with
    | false => rfl
    | true => exact absurd (hr.gone hd) hne
  let r' : SRec := { r.stored with payload := q }
  have hr' : r'.WF := by
    have := DRec.stored_wf hr
    exact ⟨this.id, by show q.length < _; rw [hlen]; exact this.len, this.prev, this.crc, this.flags, this.time⟩
  have henc : r.enc.take (18 + r.id.length) ++ q = r'.enc := by
    have e1 : r.enc = (encDHdr r.stored.hdr ++ r.id) ++ r.payload := by
      rw [← DRec.stored_enc, SRec.enc_eq]; simp [DRec.stored]
    have e2 : r'.enc = (encDHdr r.stored.hdr ++ r.id) ++ q := by
      have : r'.hdr = r.stored.hdr := by
        show SRec.hdr _ = SRec.hdr _
        simp only [SRec.hdr, r', DRec.stored, hlen]
      rw [SRec.enc_eq, this]; simp [r', DRec.stored]
    rw [e1, e2, List.take_append_of_le_length (by simp), List.take_of_length_le (by simp)]
  have hbad : r'.Bad := by
    refine ⟨?_, ?_⟩
    · intro h0
      have : q = [] := h0
      rw [this] at hlen
      exact hne (List.eq_nil_of_length_eq_zero hlen.symm)
    · show castagnoli (bufferBits q) ≠ r.stored.crc
      rw [← crc32_spec]
      simp only [DRec.stored, hdel]
      exact (C25_burst_detected _ _ hq).symm
  have hfile : encDFile i a ++ (r.enc.take (18 + r.id.length) ++ (q ++ b.flatMap DRec.enc)) =
      encSFile (encDFHeader (freshDFHeader i)) (a.map DRec.stored ++ r' :: b.map DRec.stored) := by
    rw [encDFile_stored, ← List.append_assoc (r.enc.take _), henc, encSFile, encSFile]
    simp only [List.flatMap_append, List.flatMap_cons, List.flatMap_map, List.append_assoc]
    rfl
  rw [hfile] at hf
  rw [C58_partial hi hx hf (freshHeader_good i)]
  · have ha := badCount_stored (g := a) (fun y hy => hw y (by simp [hy]))
    have hb := badCount_stored (g := b) (fun y hy => hw y (by simp [hy]))
    rw [badCount] at ha hb ⊢
    rw [List.countP_append, List.countP_cons, ha, hb]
    simp [hbad]
  · intro y hy
    rw [List.mem_append, List.mem_cons] at hy
    rcases hy with hy | rfl | hy
    · obtain ⟨z, hz, rfl⟩ := List.mem_map.1 hy; exact DRec.stored_wf (hw z (by simp [hz]))
    · exact hr'
    · obtain ⟨z, hz, rfl⟩ := List.mem_map.1 hy; exact DRec.stored_wf (hw z (by simp [hz]))

/-- The first data file of `exRun` with one bit of the first payload changed, and the same file cut by one byte. -/
theorem C58_damage_example :
    let f := ((runCmds (fun _ => []) (freshStore .user) exCmds).2.1.dfiles[0]?).getD []
    f[47]? = some 111 ∧
    integrityMain [(str "zdb-data-0", []), (str "d0", f)] (str "zdb-data-0") = 0 ∧
    integrityMain [(str "zdb-data-0", []), (str "d0", f.set 47 110)] (str "zdb-data-0") = 1 ∧
    integrityMain [(str "zdb-data-0", []), (str "d0", f.dropLast)] (str "zdb-data-0") = 1 := by
  decide +kernel

/-- C58 is false for the files as the server names them: the tool refuses them all, whatever they contain. -/
theorem C58_names_refuted (dir : FileDir) (i : Nat) : integrityMain dir (100 :: Resp.digits i) = 1 := by
  unfold integrityMain
  split
  · rfl
  · rw [if_pos]
    simp [oldPrefix]

/-- A record with a wrong checksum. -/
def badRec : SRec := ⟨str "k", str "x", 0, 0, 0, 0⟩

/-- C58 is false for the status: with 256 records, each of which has a wrong checksum, the status is 0. -/
theorem C58_status_refuted :
    badRec.Bad ∧ integrityMain [(oldName 0, []), (100 :: Resp.digits 0, encSFile (encDFHeader (freshDFHeader 0)) (List.replicate 256 badRec))]
      (oldName 0) = 0 := by
  have hb : badRec.Bad := by decide +kernel
  refine ⟨hb, ?_⟩
  have hl : ∀ f : Bytes, List.lookup (100 :: Resp.digits 0) [(oldName 0, []), (100 :: Resp.digits 0, f)] = some f := by
    intro f
    rw [List.lookup_cons, show (100 :: Resp.digits 0 == oldName 0) = false from by decide +kernel, List.lookup_cons, BEq.rfl]
  have hx : ∀ f : Bytes, List.lookup (oldName 0) [(oldName 0, []), (100 :: Resp.digits 0, f)] = some [] := by
    intro f
    rw [List.lookup_cons, BEq.rfl]
  generalize hn : 256 = n
  rw [C58_partial (by decide) (hx _) (hl _) (freshHeader_good 0)]
  · rw [badCount, List.countP_replicate, if_pos (by simpa using hb), ← hn]
  · intro r hr
    rw [List.eq_of_mem_replicate hr]
    exact ⟨by decide +kernel, by decide +kernel, by decide, by decide, by decide, by decide⟩

end Zdb
