/-
C79: what the compaction tool makes of a user-key namespace.
-/
import Verif.Lemmas.Compact
import Verif.Lemmas.ReplyEq
import Verif.Props.UserMap
import Verif.Spec.Rebuild
namespace Zdb.Compact

/-- **C79**, what is written, for every user-key execution: the items of all index files, with the payloads they refer to, are
    the entries `Gs`.  If every item names the data file with the number of its index file, the tool ends normally; the files
    hold all entries in their order, without the payloads of the deleted ones, and all items but the first one of a file say that
    their record is where the one before is.  If an item names another data file, the tool exits with an error. -/
theorem C79_files_partial {cfg : Option Mode} {u : Nat} {tr : List (NsEvent × Reply)} {br : Branches} {s : Store}
    (h : UserRun cfg u tr br s) :
    ∃ Gs : List (List Entry),
      s.ifiles = Gs.mapIdx (fun i g => encIHeader (freshIHeader i 0) ++ g.flatMap (fun x => encItem x.1)) ∧
      (∀ (i : Nat) (g : List Entry), Gs[i]? = some g → ∀ x ∈ g, dataGet s x.1.offset x.1.length i x.1.id.length = some x.2) ∧
      ((∀ (i : Nat) (g : List Entry), Gs[i]? = some g → ∀ x ∈ g, x.1.dataid = i) → compact s.ifiles s.dfiles = some (layout 0 0 0 Gs)) ∧
      ((∃ (i : Nat) (g : List Entry), Gs[i]? = some g ∧ ∃ x ∈ g, x.1.dataid ≠ i) → compact s.ifiles s.dfiles = none) := by
  obtain ⟨G, hG, -, -⟩ := h.inv
  have hl := loop_spec hG.toCore (fun _ _ _ => rfl) G.length 0 0 (by simp)
  simp only [List.drop_zero] at hl
  refine ⟨G.map (·.map ofRec), ?_, ?_, ?_, ?_⟩
  · rw [hG.irep]
    apply List.ext_getElem?
    intro i
    simp only [List.getElem?_mapIdx, List.getElem?_map, Option.map_map]
    congr 1
    funext g
    simp [encFile, ofRec, List.flatMap_map]
  · intro i g hg x hx
    simp only [List.getElem?_map, Option.map_eq_some_iff] at hg
    obtain ⟨g0, hg0, rfl⟩ := hg
    obtain ⟨r, hr, rfl⟩ := List.mem_map.1 hx
    obtain ⟨l, hl, rfl, hf⟩ := mem_locsFrom (i := 0) hg0 hr
    have ok := hG.recs l hl
    rw [hf, Nat.zero_add] at ok
    exact ok.dataGet
  · intro ha
    apply hl.1
    intro j g hg r hr
    rw [Nat.zero_add]
    exact ha j _ (by rw [List.getElem?_map, hg]; rfl) (ofRec r) (List.mem_map_of_mem hr)
  · rintro ⟨i, g, hg, x, hx, hn⟩
    apply hl.2
    intro ha
    simp only [List.getElem?_map, Option.map_eq_some_iff] at hg
    obtain ⟨g0, hg0, rfl⟩ := hg
    obtain ⟨r, hr, rfl⟩ := List.mem_map.1 hx
    have := ha i g0 hg0 r hr
    rw [Nat.zero_add] at this
    exact hn this

theorem mem_layout {Gs : List (List Entry)} : ∀ {m i prev j : Nat} {g : List Entry}, Gs[j]? = some g →
    ∃ f p, (layout m i prev Gs)[j]? = some (f, encDFHeader (freshDFHeader (i + j)) ++ records p dfhdrLen g) := by
  induction Gs with
  | nil => intro m i prev j g h; simp at h
  | cons g0 Gs ih =>
    intro m i prev j g h
    cases j with
    | zero =>
      simp only [List.getElem?_cons_zero, Option.some.injEq] at h
      subst h
      exact ⟨_, prev, rfl⟩
    | succ j =>
      obtain ⟨f, p, e⟩ := ih (m := m) (i := i + 1) (prev := lastPos prev dfhdrLen g0) (j := j) (g := g) (by simpa using h)
      refine ⟨f, p, ?_⟩
      rw [layout, List.getElem?_cons_succ, e, show i + 1 + j = i + (j + 1) by omega]

theorem mem_records {x : Entry} : ∀ {g : List Entry} {prev pos : Nat}, x ∈ g →
    ∃ p a b, records prev pos g = a ++ (record p x ++ b)
  | y :: g, prev, pos, h => by
    rcases List.mem_cons.1 h with rfl | h
    · exact ⟨prev, [], _, rfl⟩
    · obtain ⟨p, a, b, e⟩ := mem_records (prev := pos % 2 ^ 32) (pos := pos + (record prev y).length) h
      exact ⟨p, record prev y ++ a, b, by rw [records, e]; simp⟩

theorem mem_locsFrom_get {G : Log} {l : Loc} : ∀ {i : Nat}, l ∈ locsFrom i G → ∃ j g, l.file = i + j ∧ G[j]? = some g ∧ l.r ∈ g := by
  induction G with
  | nil => intro i h; simp [locsFrom] at h
  | cons g G ih =>
    intro i h
    rcases List.mem_append.1 h with h | h
    · exact ⟨0, g, (mem_locsIn_file h).1, rfl, (mem_locsIn_file h).2.2⟩
    · obtain ⟨j, g', h1, h2, h3⟩ := ih h
      exact ⟨j + 1, g', by omega, by simpa using h2, h3⟩

/-- **C79**, what is kept, for every user-key execution after which the tool ends normally: for every key of the dataset the data
    files written hold a record with the key, its payload, the checksum of it and the time of the key. -/
theorem C79_kept_partial {cfg : Option Mode} {u : Nat} {tr : List (NsEvent × Reply)} {br : Branches} {s : Store}
    (h : UserRun cfg u tr br s) {out : List (Bytes × Bytes)} (ho : compact s.ifiles s.dfiles = some out)
    {k : Bytes} {v : Val} (hk : (specRun [] (tr.map (·.1))).get k = some v) :
    ∃ (i : Nat) (f pre post : Bytes) (prev flags : Nat),
      out[i]? = some (f, pre ++ (encDHdr ⟨k.length, v.payload.length, prev, crc32 v.payload, flags, v.time⟩ ++ (k ++ v.payload)) ++ post) := by
  obtain ⟨G, hG, habs, -⟩ := h.inv
  rw [← habs, absKV_get, Option.map_eq_some_iff] at hk
  obtain ⟨l, hl, rfl⟩ := hk
  obtain ⟨hlv, rfl⟩ := liveGet_some hl
  obtain ⟨hloc, hlive⟩ := List.mem_filter.1 hlv
  obtain ⟨j, g, -, hg, hr⟩ := mem_locsFrom_get hloc
  have hs := loop_spec hG.toCore (fun _ _ _ => rfl) G.length 0 0 (by simp)
  simp only [List.drop_zero] at hs
  have hall : AllHere 0 G := by
    apply Classical.byContradiction
    intro hn
    rw [compact, hs.2 hn] at ho
    simp at ho
  rw [compact, hs.1 hall, Option.some.injEq] at ho
  subst ho
  obtain ⟨f, p, hlay⟩ := mem_layout (Gs := G.map (·.map ofRec)) (i := 0) (prev := 0) (j := j) (g := g.map ofRec)
    (by rw [List.getElem?_map, hg]; rfl)
  obtain ⟨q, a, b, e⟩ := mem_records (prev := p) (pos := dfhdrLen) (List.mem_map_of_mem (f := ofRec) hr)
  have hkept : kept (ofRec l.r) = l.r.payload := by
    have : isDeleted l.r.item.flags = false := by simpa [Loc.live] using hlive
    simp [kept, ofRec, this]
  refine ⟨j, f, encDFHeader (freshDFHeader (0 + j)) ++ a, b, q, if l.r.payload = [] then 2 else 0, ?_⟩
  rw [hlay, e, record, hkept]
  have hcrc : (if l.r.payload = [] then 0 else crc32 l.r.payload) = crc32 l.r.payload := by
    split
    · rename_i h0; rw [h0]; rfl
    · rfl
  rw [hcrc]
  simp only [ofRec, Loc.id, Loc.val, List.append_assoc]

theorem records_size {i off : Nat} : ∀ {g : List Rec} {prev pos : Nat}, (∀ r ∈ g, r.item.length = r.payload.length) →
    (records prev pos (g.map ofRec)).length ≤ isize g + (((locsIn i off g).filter Loc.live).map (fun l => l.r.item.length)).sum
  | [], _, _, _ => by simp [records]
  | r :: g, prev, pos, h => by
    have ih := records_size (i := i) (off := off + (34 + r.item.id.length)) (g := g) (prev := pos % 2 ^ 32)
      (pos := pos + (record prev (ofRec r)).length) (fun r hr => h r (List.mem_cons_of_mem _ hr))
    have hr := h r (List.mem_cons_self ..)
    simp only [record_length, dhdrLen] at ih
    simp only [List.map_cons, records, List.length_append, record_length, isize, locsIn, List.filter_cons, dhdrLen]
    have e1 : (ofRec r).1.id.length = r.item.id.length := rfl
    by_cases hx : isDeleted r.item.flags = true
    · have e2 : (kept (ofRec r)).length = 0 := by simp [kept, ofRec, hx]
      have e3 : Loc.live ⟨i, off, r⟩ = false := by simp [Loc.live, hx]
      simp only [e3, Bool.false_eq_true, if_false]
      omega
    · have e2 : (kept (ofRec r)).length = r.item.length := by simp [kept, ofRec, hx, hr]
      have e3 : Loc.live ⟨i, off, r⟩ = true := by simp [Loc.live, hx]
      simp only [e3, if_true, List.map_cons, List.sum_cons]
      omega

theorem layout_size : ∀ {G : Log} {m i prev : Nat}, (∀ g ∈ G, ∀ r ∈ g, r.item.length = r.payload.length) →
    ((layout m i prev (G.map (·.map ofRec))).map (fun x => x.2.length)).sum ≤
      (G.map (fun g => 29 + isize g)).sum + (((locsFrom i G).filter Loc.live).map (fun l => l.r.item.length)).sum
  | [], _, _, _, _ => by simp [layout]
  | g :: G, m, i, prev, h => by
    have ih := layout_size (G := G) (m := m) (i := i + 1) (prev := lastPos prev dfhdrLen (g.map ofRec))
      (fun g hg => h g (List.mem_cons_of_mem _ hg))
    have hr := records_size (i := i) (off := 29) (g := g) (prev := prev) (pos := dfhdrLen) (h g (List.mem_cons_self ..))
    have hd : (encDFHeader (freshDFHeader i)).length = 28 := by simp [encDFHeader, freshDFHeader, datMagic]
    simp only [List.map_cons, layout, List.sum_cons, List.length_append, locsFrom, List.filter_append, List.map_append,
      List.sum_append, hd]
    omega

/-- **C79**, what is left out: the data files written are not larger than the index files and the size of the dataset
    (`data_size_bytes` of NSINFO) together, however large the payloads of deleted and replaced entries are. -/
theorem C79_size_partial {cfg : Option Mode} {u : Nat} {tr : List (NsEvent × Reply)} {br : Branches} {s : Store}
    (h : UserRun cfg u tr br s) {out : List (Bytes × Bytes)} (ho : compact s.ifiles s.dfiles = some out) :
    (out.map (fun x => x.2.length)).sum ≤ (s.ifiles.map List.length).sum + s.datasize := by
  obtain ⟨G, hG, -, -⟩ := h.inv
  have hs := loop_spec hG.toCore (fun _ _ _ => rfl) G.length 0 0 (by simp)
  simp only [List.drop_zero] at hs
  have hall : AllHere 0 G := by
    apply Classical.byContradiction
    intro hn
    rw [compact, hs.2 hn] at ho
    simp at ho
  rw [compact, hs.1 hall, Option.some.injEq] at ho
  subst ho
  have hsz := layout_size (G := G) (m := 0) (i := 0) (prev := 0) (by
    intro g hg r hr
    obtain ⟨j, hj⟩ := List.mem_iff_getElem?.1 hg
    obtain ⟨l, hl, rfl, -⟩ := mem_locsFrom (i := 0) hj hr
    exact (hG.recs l hl).len)
  have hI : s.ifiles.map List.length = G.map (fun g => 29 + isize g) := by
    rw [hG.irep]
    apply List.ext_getElem?
    intro i
    simp only [List.getElem?_map, List.getElem?_mapIdx, Option.map_map]
    congr 1
    funext g
    exact encFile_length ..
  rw [hI, hG.size]
  exact hsz

/-- **C79**, one file: as long as the namespace has started no second file, the tool ends normally. -/
theorem C79_one_file_partial {cfg : Option Mode} {u : Nat} {tr : List (NsEvent × Reply)} {br : Branches} {s : Store}
    (h : UserRun cfg u tr br s) (h0 : s.ifiles.length = 1) : ∃ f d, compact s.ifiles s.dfiles = some [(f, d)] := by
  obtain ⟨G, hG, -, -⟩ := h.inv
  have hs := loop_spec hG.toCore (fun _ _ _ => rfl) G.length 0 0 (by simp)
  simp only [List.drop_zero] at hs
  have hlen : G.length = 1 := by rw [← hG.irep.length]; exact h0
  obtain ⟨g, rfl⟩ := List.length_eq_one_iff.1 hlen
  rw [compact, hs.1 ?_]
  · exact ⟨_, _, rfl⟩
  · intro j g' hg r hr
    obtain ⟨l, hl, rfl, hf⟩ := mem_locsFrom (i := 0) hg hr
    have hj : j = 0 := by have := (List.getElem?_eq_some_iff.1 hg).1; simp at this; omega
    rcases hG.diskid l hl with e | ⟨e, -⟩
    · rw [e]; exact hf
    · rw [e, hj]

/-- **C79** is false for every execution: a server started on what the tool has written exits at once, since the tool still uses
    the file names of the old format, which the server refuses. -/
theorem C79_names_refuted {cfg : Option Mode} {u : Nat} {tr : List (NsEvent × Reply)} {br : Branches} {s : Store}
    (h : UserRun cfg u tr br s) {out : List (Bytes × Bytes)} (ho : compact s.ifiles s.dfiles = some out) (descriptor : Bytes) :
    startOn (indexDir descriptor out) = none := by
  obtain ⟨G, hG, -, -⟩ := h.inv
  have hs := loop_spec hG.toCore (fun _ _ _ => rfl) G.length 0 0 (by simp)
  simp only [List.drop_zero] at hs
  have hall : AllHere 0 G := by
    apply Classical.byContradiction
    intro hn
    rw [compact, hs.2 hn] at ho
    simp at ho
  rw [compact, hs.1 hall, Option.some.injEq] at ho
  subst ho
  obtain ⟨g, G', rfl⟩ : ∃ g G', G = g :: G' := by
    cases G with
    | nil => exact absurd rfl hG.ne
    | cons g G' => exact ⟨g, G', rfl⟩
  have hn : Wire.chars "zdb-index-" ++ dec5 0 = Wire.chars "zdb-index-00000" := by decide +kernel
  simp [startOn, indexDir, layout, hn]

/-! ### examples -/

/-- The files written for an execution of commands on a new namespace. -/
def exOut (l : List (Ctx × DsCmd × List Bytes)) : Option (List (Bytes × Bytes)) :=
  let s := (runCmds (fun _ => []) (freshStore .user) l).2.1
  compact s.ifiles s.dfiles

/-- What a server reads if the files are given the names it knows. -/
def readRenamed (l : List (Ctx × DsCmd × List Bytes)) (d : DsCmd) (argv : List Bytes) : Option Reply :=
  match exOut l with
  | none => none
  | some fs => readAfter exCtx (fs.map (·.1)) (fs.map (·.2)) d argv

/-- Three keys, one of them deleted. -/
def exKeys : List (Ctx × DsCmd × List Bytes) :=
  [(exCtx, .set, [str "SET", str "k0", str "zero"]),
   (exCtx, .set, [str "SET", str "k1", str "one"]),
   (exCtx, .del, [str "DEL", str "k0"]),
   (exCtx, .set, [str "SET", str "k2", str "two"])]

theorem exKeys_run : UserRun none 7 (traceOf (fun _ => []) (freshStore .user) exKeys)
    (runCmds (fun _ => []) (freshStore .user) exKeys).1 (runCmds (fun _ => []) (freshStore .user) exKeys).2.1 :=
  userRun_ok exKeys (by decide) (by decide)

/-- The hypotheses of the theorems hold for it: the tool ends with one file, and `k1` is in the dataset.  The same with the two
    files of the execution of `C01`. -/
theorem C79_example :
    ((exOut exKeys).map List.length = some 1 ∧
      (specRun [] ((traceOf (fun _ => []) (freshStore .user) exKeys).map (·.1))).get (str "k1") = some ⟨str "one", 1700000000, []⟩) ∧
    (exOut exCmds).map List.length = some 2 ∧
    (exOut exKeys).map (·.map (fun x => (x.1.length, x.2.length))) = some [(29 + 3 * 36, 28 + 3 * 20 + 6)] := by
  decide +kernel

/-- **C79** is false even if the files are given the names the server knows: the second key of a file is answered with bytes of
    another record, or not at all. -/
theorem C79_offset_refuted :
    let x := runCmds (fun _ => []) (freshStore .user) exKeys
    (dsCommand exCtx x.1 x.2.1 .get [str "GET", str "k1"]).2.2 = .bulk (str "one") ∧
    (dsCommand exCtx x.1 x.2.1 .get [str "GET", str "k2"]).2.2 = .bulk (str "two") ∧
    readRenamed exKeys .get [str "GET", str "k1"] ≠ some (.bulk (str "one")) ∧
    readRenamed exKeys .get [str "GET", str "k2"] = some (.bulk (str "one")) ∧
    readRenamed exKeys .check [str "CHECK", str "k2"] = some (.int 1) := by
  decide +kernel

/-- A new key in the second file. -/
def exSecond : List (Ctx × DsCmd × List Bytes) :=
  [(exCtx, .set, [str "SET", str "a", str "one"]),
   (exCtx, .nsjump, [str "NSJUMP"]),
   (exCtx, .set, [str "SET", str "b", str "two"])]

theorem exSecond_run : UserRun none 7 (traceOf (fun _ => []) (freshStore .user) exSecond)
    (runCmds (fun _ => []) (freshStore .user) exSecond).1 (runCmds (fun _ => []) (freshStore .user) exSecond).2.1 :=
  userRun_ok exSecond (by decide) (by decide)

/-- **C79** is false if a key is first written after the first file: the server stores data file 0 in its item, the tool looks for
    that file under its old name and exits. -/
theorem C79_second_refuted : exOut exSecond = none := by
  decide +kernel

end Zdb.Compact
