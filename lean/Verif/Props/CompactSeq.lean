/-
C79 in sequential mode: what the compaction tool makes of a sequential namespace.
-/
import Verif.Props.Compact
import Verif.Props.SeqRebuild
namespace Zdb.Compact

theorem seqLoop {s : Store} {G : Log} (h : SInv s G) :
    (AllHere 0 G → compact s.ifiles s.dfiles = some (layout 1 0 0 (G.map (·.map ofRec)))) ∧
    (¬ AllHere 0 G → compact s.ifiles s.dfiles = none) := by
  have := loop_spec h.toCore (fun _ _ h => h) G.length 0 0 (by simp)
  simp only [List.drop_zero] at this
  exact this

theorem seqAll {s : Store} {G : Log} (h : SInv s G) {out : List (Bytes × Bytes)} (ho : compact s.ifiles s.dfiles = some out) :
    AllHere 0 G ∧ out = layout 1 0 0 (G.map (·.map ofRec)) := by
  have hs := seqLoop h
  have hall : AllHere 0 G := by
    apply Classical.byContradiction
    intro hn
    rw [hs.2 hn] at ho
    simp at ho
  rw [hs.1 hall, Option.some.injEq] at ho
  exact ⟨hall, ho.symm⟩

/-- **C79**, sequential mode: what is written, as `C79_files_partial`.  The payload of an entry is in the data file that its item
    names. -/
theorem C79_seq_files_partial {cfg : Option Mode} {u : Nat} {tr : List (NsEvent × Reply)} {br : Branches} {s : Store}
    (h : SeqRun cfg u tr br s) :
    ∃ Gs : List (List Entry),
      s.ifiles = Gs.mapIdx (fun i g => encIHeader (freshIHeader i 1) ++ g.flatMap (fun x => encItem x.1)) ∧
      (∀ g ∈ Gs, ∀ x ∈ g, dataGet s x.1.offset x.1.length x.1.dataid x.1.id.length = some x.2) ∧
      ((∀ (i : Nat) (g : List Entry), Gs[i]? = some g → ∀ x ∈ g, x.1.dataid = i) → compact s.ifiles s.dfiles = some (layout 1 0 0 Gs)) ∧
      ((∃ (i : Nat) (g : List Entry), Gs[i]? = some g ∧ ∃ x ∈ g, x.1.dataid ≠ i) → compact s.ifiles s.dfiles = none) := by
  obtain ⟨G, hG, -, -⟩ := h.inv
  have hl := seqLoop hG
  refine ⟨G.map (·.map ofRec), ?_, ?_, ?_, ?_⟩
  · rw [hG.irep]
    apply List.ext_getElem?
    intro i
    simp only [List.getElem?_mapIdx, List.getElem?_map, Option.map_map]
    congr 1
    funext g
    simp [encFile, ofRec, List.flatMap_map]
  · intro g hg x hx
    obtain ⟨g0, hg0, rfl⟩ := List.mem_map.1 hg
    obtain ⟨r, hr, rfl⟩ := List.mem_map.1 hx
    obtain ⟨j, hj⟩ := List.mem_iff_getElem?.1 hg0
    obtain ⟨l, hl, rfl, -⟩ := mem_locsFrom (i := 0) hj hr
    exact (hG.recs l hl).dataGet
  · intro ha
    apply hl.1
    intro j g hg r hr
    rw [Nat.zero_add]
    exact ha j _ (by rw [List.getElem?_map, hg]; rfl) (ofRec r) (List.mem_map_of_mem hr)
  · rintro ⟨i, g, hg, x, hx, hn⟩
    apply hl.2
    intro ha
    simp only [List.getElem?_map, Option.map_eq_some_iff] at hg
    obtain ⟨g0, hg0, rfl⟩ := hg
    obtain ⟨r, hr, rfl⟩ := List.mem_map.1 hx
    have := ha i g0 hg0 r hr
    rw [Nat.zero_add] at this
    exact hn this

/-- **C79**, sequential mode: for every id of the dataset the data files written hold a record with the id, its payload, the checksum
    of it and the time of the id, if the tool ends normally. -/
theorem C79_seq_kept_partial {cfg : Option Mode} {u : Nat} {tr : List (NsEvent × Reply)} {br : Branches} {s : Store}
    (h : SeqRun cfg u tr br s) {out : List (Bytes × Bytes)} (ho : compact s.ifiles s.dfiles = some out)
    {k : Nat} {v : Val} (hk : (specSeqRun [] (tr.map (·.1)))[k]? = some (some v)) :
    ∃ (i : Nat) (f pre post : Bytes) (prev flags : Nat),
      out[i]? = some (f, pre ++ (encDHdr ⟨8, v.payload.length, prev, crc32 v.payload, flags, v.time⟩ ++ (toLE 8 k ++ v.payload)) ++ post) := by
  obtain ⟨G, hG, habs, -⟩ := h.inv
  obtain ⟨-, rfl⟩ := seqAll hG ho
  rw [← habs, absSlots, List.getElem?_map, Option.map_eq_some_iff] at hk
  obtain ⟨l, hl, hv⟩ := hk
  unfold Loc.slot at hv
  split at hv
  case isFalse => simp at hv
  case isTrue hlive =>
  rw [Option.some.injEq] at hv
  subst hv
  have hown := hG.own k l hl hlive
  have hloc : l ∈ locs G := List.mem_of_getElem? hl
  obtain ⟨j, g, -, hg, hr⟩ := mem_locsFrom_get hloc
  obtain ⟨f, p, hlay⟩ := mem_layout (Gs := G.map (·.map ofRec)) (m := 1) (i := 0) (prev := 0) (j := j) (g := g.map ofRec)
    (by rw [List.getElem?_map, hg]; rfl)
  obtain ⟨q, a, b, e⟩ := mem_records (prev := p) (pos := dfhdrLen) (List.mem_map_of_mem (f := ofRec) hr)
  have hkept : kept (ofRec l.r) = l.r.payload := by
    have : isDeleted l.r.item.flags = false := by simpa [Loc.live] using hlive
    simp [kept, ofRec, this]
  refine ⟨j, f, encDFHeader (freshDFHeader (0 + j)) ++ a, b, q, if l.r.payload = [] then 2 else 0, ?_⟩
  rw [hlay, e, record, hkept]
  have hcrc : (if l.r.payload = [] then 0 else crc32 l.r.payload) = crc32 l.r.payload := by
    split
    · rename_i h0; rw [h0]; rfl
    · rfl
  have h8 : (ofRec l.r).1.id.length = 8 := hG.ids8 l hloc
  have hid : (ofRec l.r).1.id = toLE 8 k := hown
  rw [hcrc, h8, hid]
  simp only [ofRec, Loc.val, List.append_assoc]

/-- **C79**, sequential mode: the data files written are not larger than the index files and the size of the dataset together. -/
theorem C79_seq_size_partial {cfg : Option Mode} {u : Nat} {tr : List (NsEvent × Reply)} {br : Branches} {s : Store}
    (h : SeqRun cfg u tr br s) {out : List (Bytes × Bytes)} (ho : compact s.ifiles s.dfiles = some out) :
    (out.map (fun x => x.2.length)).sum ≤ (s.ifiles.map List.length).sum + s.datasize := by
  obtain ⟨G, hG, -, -⟩ := h.inv
  obtain ⟨-, rfl⟩ := seqAll hG ho
  have hsz := layout_size (G := G) (m := 1) (i := 0) (prev := 0) (by
    intro g hg r hr
    obtain ⟨j, hj⟩ := List.mem_iff_getElem?.1 hg
    obtain ⟨l, hl, rfl, -⟩ := mem_locsFrom (i := 0) hj hr
    exact (hG.recs l hl).len)
  have hI : s.ifiles.map List.length = G.map (fun g => 29 + isize g) := by
    rw [hG.irep]
    apply List.ext_getElem?
    intro i
    simp only [List.getElem?_map, List.getElem?_mapIdx, Option.map_map]
    congr 1
    funext g
    exact encFile_length ..
  rw [hI, hG.size]
  exact hsz

/-- **C79**, sequential mode, one file: the tool ends normally. -/
theorem C79_seq_one_file_partial {cfg : Option Mode} {u : Nat} {tr : List (NsEvent × Reply)} {br : Branches} {s : Store}
    (h : SeqRun cfg u tr br s) (h0 : s.ifiles.length = 1) : ∃ f d, compact s.ifiles s.dfiles = some [(f, d)] := by
  obtain ⟨G, hG, -, -⟩ := h.inv
  have hlen : G.length = 1 := by rw [← hG.irep.length]; exact h0
  have hd := hG.dlen
  rw [(seqLoop hG).1 ?_]
  · obtain ⟨g, rfl⟩ := List.length_eq_one_iff.1 hlen
    exact ⟨_, _, rfl⟩
  · intro j g hg r hr
    obtain ⟨l, hl, rfl, -⟩ := mem_locsFrom (i := 0) hg hr
    have hj : j < G.length := (List.getElem?_eq_some_iff.1 hg).1
    obtain ⟨p, hp, pre, post, e, -⟩ := (hG.recs l hl).data
    have := (List.getElem?_eq_some_iff.1 e).1
    omega

/-- **C79** is false in sequential mode too, for every execution: a server started on what the tool has written exits at once. -/
theorem C79_seq_names_refuted {cfg : Option Mode} {u : Nat} {tr : List (NsEvent × Reply)} {br : Branches} {s : Store}
    (h : SeqRun cfg u tr br s) {out : List (Bytes × Bytes)} (ho : compact s.ifiles s.dfiles = some out) (descriptor : Bytes) :
    startOn (indexDir descriptor out) = none := by
  obtain ⟨G, hG, -, -⟩ := h.inv
  obtain ⟨-, rfl⟩ := seqAll hG ho
  obtain ⟨g, G', rfl⟩ : ∃ g G', G = g :: G' := by
    cases G with
    | nil => exact absurd rfl hG.ne
    | cons g G' => exact ⟨g, G', rfl⟩
  have hn : Wire.chars "zdb-index-" ++ dec5 0 = Wire.chars "zdb-index-00000" := by decide +kernel
  simp [startOn, indexDir, layout, hn]

/-! ### examples -/

/-- The files written for an execution of commands on a new sequential namespace. -/
def exSeqOut (l : List (Ctx × DsCmd × List Bytes)) : Option (List (Bytes × Bytes)) :=
  let s := (runCmds (fun _ => []) (freshStore .seq) l).2.1
  compact s.ifiles s.dfiles

/-- What a server reads if the files are given the names it knows. -/
def readSeqRenamed (l : List (Ctx × DsCmd × List Bytes)) (d : DsCmd) (argv : List Bytes) : Option Reply :=
  match exSeqOut l with
  | none => none
  | some fs =>
    match loadNs (some .seq) (fun _ => []) 7 (fs.map (·.1)) (fs.map (·.2)) with
    | .ok br s => some (dsCommand exCtx br s d argv).2.2
    | _ => none

/-- Four ids, one overwritten and one deleted, then a second file. -/
def exSeqKeys : List (Ctx × DsCmd × List Bytes) :=
  [(exCtx, .set, [str "SET", [], str "zero"]),
   (exCtx, .set, [str "SET", [], str "one"]),
   (exCtx, .set, [str "SET", toLE 8 1, str "uno"]),
   (exCtx, .del, [str "DEL", toLE 8 0]),
   (exCtx, .nsjump, [str "NSJUMP"]),
   (exCtx, .set, [str "SET", [], str "two"]),
   (exCtx, .set, [str "SET", [], str "six"])]

theorem seqRun_ofOk {l : List (Ctx × DsCmd × List Bytes)} (hall : l.all okCmd = true) (hlen : l.length ≤ 100)
    (hcl : cleanCmds (fun _ => []) (freshStore .seq) l = true) (hn : nearCmds [] l = true) :
    SeqRun (some .seq) 7 (traceOf (fun _ => []) (freshStore .seq) l)
      (runCmds (fun _ => []) (freshStore .seq) l).1 (runCmds (fun _ => []) (freshStore .seq) l).2.1 := by
  have hok := fun x hx => okCmd_ok (List.all_eq_true.1 hall x hx)
  exact seqRun_of_cmds l (fun x hx => (hok x hx).1) (fun x hx => (hok x hx).2.1) (fun x hx => (hok x hx).2.2) (by unfold maxEvents; omega) hcl hn

theorem exSeqKeys_run : SeqRun (some .seq) 7 (traceOf (fun _ => []) (freshStore .seq) exSeqKeys)
    (runCmds (fun _ => []) (freshStore .seq) exSeqKeys).1 (runCmds (fun _ => []) (freshStore .seq) exSeqKeys).2.1 :=
  seqRun_ofOk (by decide) (by decide) (by decide +kernel) (by decide +kernel)

/-- The hypotheses of the theorems hold for it: the tool ends with two files, and ids 1, 3 and 4 are in the dataset. -/
theorem C79_seq_example :
    (exSeqOut exSeqKeys).map (·.map (fun x => (x.1.length, x.2.length))) =
      some [(29 + 3 * 42, 28 + 3 * 26 + 3), (29 + 2 * 42, 28 + 2 * 26 + 6)] ∧
    (specSeqRun [] ((traceOf (fun _ => []) (freshStore .seq) exSeqKeys).map (·.1))).map (·.map (·.payload)) =
      [none, some (str "uno"), none, some (str "two"), some (str "six")] := by
  decide +kernel

/-- **C79** is false in sequential mode even if the files are given the names the server knows: ids read the payload of another one
    or bytes of headers, and CHECK finds nothing wrong. -/
theorem C79_seq_offset_refuted :
    let x := runCmds (fun _ => []) (freshStore .seq) exSeqKeys
    (dsCommand exCtx x.1 x.2.1 .get [str "GET", toLE 8 1]).2.2 = .bulk (str "uno") ∧
    (dsCommand exCtx x.1 x.2.1 .get [str "GET", toLE 8 4]).2.2 = .bulk (str "six") ∧
    readSeqRenamed exSeqKeys .get [str "GET", toLE 8 1] = some (.bulk [8, 3, 0]) ∧
    readSeqRenamed exSeqKeys .get [str "GET", toLE 8 4] = some (.bulk (str "two")) ∧
    readSeqRenamed exSeqKeys .check [str "CHECK", toLE 8 1] = some (.int 1) ∧
    readSeqRenamed exSeqKeys .check [str "CHECK", toLE 8 4] = some (.int 1) := by
  decide +kernel

/-- An id of the first file is overwritten after a jump. -/
def exSeqOver : List (Ctx × DsCmd × List Bytes) :=
  [(exCtx, .set, [str "SET", [], str "zero"]),
   (exCtx, .nsjump, [str "NSJUMP"]),
   (exCtx, .set, [str "SET", toLE 8 0, str "two"])]

theorem exSeqOver_run : SeqRun (some .seq) 7 (traceOf (fun _ => []) (freshStore .seq) exSeqOver)
    (runCmds (fun _ => []) (freshStore .seq) exSeqOver).1 (runCmds (fun _ => []) (freshStore .seq) exSeqOver).2.1 :=
  seqRun_ofOk (by decide) (by decide) (by decide +kernel) (by decide +kernel)

/-- **C79** is false in sequential mode if an id of an earlier file is overwritten: its item names the later data file, and the tool
    exits. -/
theorem C79_seq_over_refuted : exSeqOut exSeqOver = none := by
  decide +kernel

end Zdb.Compact
