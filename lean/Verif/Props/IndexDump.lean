/-
C67: the index-dump tool.
-/
import Verif.Lemmas.IndexDump
import Verif.Props.SeqScan
import Verif.Props.RebuildTime
namespace Zdb

/-- C67, general part: the tool lists all items of all files in their order, each with its number and its place, and has status 0.
    This is so for any items, however they got there. -/
theorem C67_files {ps : List (Bytes × List Item)} (hw : ∀ p ∈ ps, GoodIndex p.1 ∧ ∀ it ∈ p.2, it.WF) (h0 : ps ≠ [])
    (h1 : ps.length < 2 ^ 32) :
    indexDump (ps.map (fun p => encIndex p.1 p.2)) =
      ⟨ps.map (fun p => (decIHeader p.1, itemLines 0 29 p.2)), some (ps.map (fun p => p.2.length)).sum, 0⟩ := by
  have hp : 0 < ps.length := List.length_pos_iff.2 h0
  have hmax : maxFiles (ps.map (fun p => encIndex p.1 p.2)) = ps.length := by unfold maxFiles; rw [List.length_map]; omega
  have := dumpFiles_good ps hw 0 []
  rw [List.append_nil] at this
  rw [indexDump, hmax, if_neg (by omega), List.take_of_length_le (by simp), this]
  simp [dumpFiles]

/-- C67, a file that ends inside an item: what is before is listed, and the status is 1. -/
theorem C67_cut {ps : List (Bytes × List Item)} (hw : ∀ p ∈ ps, GoodIndex p.1 ∧ ∀ it ∈ p.2, it.WF) {h : Bytes} {g : List Item}
    (hh : GoodIndex h) (hg : ∀ it ∈ g, it.WF) {it : Item} (hi : it.WF) {t u : Bytes} (ht : encItem it = t ++ u) (ht0 : t ≠ [])
    (hu0 : u ≠ []) {rest : List Bytes} (hl : ps.length + 1 + rest.length < 2 ^ 32) :
    indexDump (ps.map (fun p => encIndex p.1 p.2) ++ (encIndex h g ++ t) :: rest) =
      ⟨ps.map (fun p => (decIHeader p.1, itemLines 0 29 p.2)) ++ [(decIHeader h, itemLines 0 29 g)], none, 1⟩ := by
  have hmax : maxFiles (ps.map (fun p => encIndex p.1 p.2) ++ (encIndex h g ++ t) :: rest) = ps.length + 1 + rest.length := by
    unfold maxFiles; simp only [List.length_append, List.length_map, List.length_cons]; omega
  rw [indexDump, hmax, if_neg (by omega), List.take_of_length_le (by simp; omega), dumpFiles_good ps hw, dumpFiles_cut hh hg hi ht ht0 hu0]

theorem map_filter_item {β : Type} (L : List DumpLine) (p : Item → Bool) (q : Item → β) :
    (L.filter (fun x => p x.item)).map (fun x => q x.item) = ((L.map (·.item)).filter p).map q := by
  rw [List.filter_map, List.map_map]; rfl

theorem live_flags {l : Loc} (h : l.r.item.flags = 0 ∨ l.r.item.flags = 1) : l.live = (l.r.item.flags == 0) := by
  unfold Loc.live
  rcases h with h | h <;> rw [h] <;> decide

/-- C67, user-key namespaces: the tool succeeds; the entries printed with flags 0 are the keys of the map in the order in which
    they were last written, with length, checksum and date of their payloads; every entry of index file `i` gives the place in data
    file `i` of a record of its key with this length and checksum.  Missing: the file number printed (`C67_fileid_refuted`). -/
theorem C67_partial {cfg : Option Mode} {u : Nat} {tr : List (NsEvent × Reply)} {br : Branches} {s : Store}
    (h : UserRun cfg u tr br s) (hl : tr.length < maxEvents) :
    let d := indexDump s.ifiles
    d.status = 0 ∧ d.files.length = s.dfiles.length ∧ d.total = some d.lines.length ∧
    (d.lines.filter DumpLine.kept).map DumpLine.shows = (specRun [] (tr.map (·.1))).map (fun x => x.2.shows x.1) ∧
    ∀ (i : Nat) (p : IHeader × List DumpLine) (x : DumpLine), d.files[i]? = some p → x ∈ p.2 →
      (x.item.flags = 0 ∨ x.item.flags = 1) ∧ ∃ f, s.dfiles[i]? = some f ∧ x.Leads f := by
  obtain ⟨G, hi, hG, -⟩ := h.inv
  rw [hi.toCore.dump (h.room hi hl)]
  have hitems := logDump_items 0 G
  refine ⟨rfl, ?_, ?_, ?_, ?_⟩
  · simp [logDump, hi.dlen]
  · have := congrArg List.length hitems
    simp only [List.length_map] at this
    rw [this]; rfl
  · have h1 := map_filter_item (logDump 0 G).lines (fun it => it.flags == 0) (fun it => (it.id, it.length, it.crc, it.timestamp))
    rw [hitems] at h1
    rw [← hG]
    refine Eq.trans h1 ?_
    rw [absKV, List.filter_map, List.map_map, List.map_map]
    have h2 : (locs G).filter ((fun it : Item => it.flags == 0) ∘ fun l => l.r.item) = live G := by
      refine List.filter_congr (fun l hl => ?_)
      exact (live_flags (hi.recs l hl).flags).symm
    rw [h2]
    refine List.map_congr_left (fun l hl => ?_)
    have hr := hi.recs l (List.mem_filter.1 hl).1
    simp only [Function.comp, Val.shows, Loc.val, hr.len, hr.crc, Loc.id]
    rw [← C25_software_is_castagnoli]
    rfl
  · intro i p x hp hx
    obtain ⟨l, h1, h2, h3, -⟩ := logDump_loc hp hx
    have hr := hi.recs l h1
    refine ⟨by rw [h3]; exact hr.flags, ?_⟩
    rw [← h2]
    exact hr.leads h3

/-- C67, sequential namespaces: entry number `i` of the listing shows slot `i`: flags 0, the id, length, checksum and date, or the
    deleted flag; every entry gives the data file and the place of a record of its id. -/
theorem C67_seq {cfg : Option Mode} {u : Nat} {tr : List (NsEvent × Reply)} {br : Branches} {s : Store}
    (h : SeqRun cfg u tr br s) (hl : tr.length < maxEvents) :
    let d := indexDump s.ifiles
    d.status = 0 ∧ d.files.length = s.dfiles.length ∧ d.total = some d.lines.length ∧
    d.lines.map (fun x => if x.kept then some x.shows else none) =
      (specSeqRun [] (tr.map (·.1))).mapIdx (fun i v => v.map (Val.shows (toLE 8 i))) ∧
    ∀ x ∈ d.lines, (x.item.flags = 0 ∨ x.item.flags = 1) ∧ ∃ f, s.dfiles[x.item.dataid]? = some f ∧ x.Leads f := by
  obtain ⟨G, hi, hG, -⟩ := h.inv
  rw [hi.toCore.dump (h.room hi hl)]
  have hitems := logDump_items 1 G
  refine ⟨rfl, ?_, ?_, ?_, ?_⟩
  · simp [logDump, hi.dlen]
  · have := congrArg List.length hitems
    simp only [List.length_map] at this
    rw [this]; rfl
  · have h1 : (logDump 1 G).lines.map (fun x => if x.kept then some x.shows else none) =
        ((logDump 1 G).lines.map (·.item)).map (fun it => if it.flags == 0 then some (it.id, it.length, it.crc, it.timestamp) else none) := by
      rw [List.map_map]; rfl
    rw [h1, hitems, ← hG]
    apply List.ext_getElem?
    intro i
    simp only [List.getElem?_map, List.getElem?_mapIdx, absSlots, Option.map_map]
    cases hli : (locs G)[i]? with
    | none => rfl
    | some l =>
      have hr := hi.recs l (List.mem_of_getElem? hli)
      have hf := live_flags hr.flags
      simp only [Option.map_some, Function.comp, Loc.slot, ← hf, Option.some.injEq]
      cases hv : l.live with
      | false => rfl
      | true =>
        have hid : l.r.item.id = toLE 8 i := hi.own i l hli hv
        simp only [if_true, Option.map_some, Val.shows, Loc.val, hr.len, hr.crc, hid]
        rw [← C25_software_is_castagnoli]
        rfl
  · intro x hx
    obtain ⟨p, hp, hx⟩ := List.mem_flatMap.1 hx
    obtain ⟨i, hp⟩ := List.getElem?_of_mem hp
    obtain ⟨l, h1, h2, h3, -⟩ := logDump_loc hp hx
    have hr := hi.recs l h1
    refine ⟨by rw [h3]; exact hr.flags, ?_⟩
    obtain ⟨f, h4, h5⟩ := hr.leads h3
    exact ⟨f, by rw [h3]; exact h4, h5⟩

/-- What the entries of each file show: flags, key, length, checksum, date, file number. -/
def DumpOut.table (d : DumpOut) : List (List (Nat × (Bytes × Nat × Nat × Nat) × Nat)) :=
  d.files.map (fun p => p.2.map (fun x => (x.item.flags, x.shows, x.item.dataid)))

/-- Two keys, a jump, an overwrite, a deletion, a new key. -/
def exDump : List (Ctx × DsCmd × List Bytes) :=
  [at_ 100 .set [str "SET", str "a", str "one"], at_ 200 .set [str "SET", str "b", str "two"], at_ 300 .nsjump [str "NSJUMP"],
   at_ 300 .set [str "SET", str "a", str "three"], at_ 400 .del [str "DEL", str "b"], at_ 500 .set [str "SET", str "c", str "four"]]

theorem exDump_run : UserRun none 7 (traceOf (fun _ => []) (freshStore .user) exDump)
    (runCmds (fun _ => []) (freshStore .user) exDump).1 (runCmds (fun _ => []) (freshStore .user) exDump).2.1 :=
  userRun_ok exDump (by decide) (by decide)

set_option maxRecDepth 100000 in
/-- A concrete case of `C67_partial` (`exDump_run`), with several files, an overwritten and a deleted key. -/
theorem C67_example :
    (indexDump (runCmds (fun _ => []) (freshStore .user) exDump).2.1.ifiles).table =
      [[(1, (str "a", 3, crc32 (str "one"), 100), 0), (1, (str "b", 3, crc32 (str "two"), 200), 0)],
       [(0, (str "a", 5, crc32 (str "three"), 300), 1), (0, (str "c", 4, crc32 (str "four"), 500), 0)]] := by
  rfl

set_option maxRecDepth 100000 in
/-- A concrete case of `C67_seq` (`exSeqRun`): id 0 was overwritten, which took up number 3; id 1 was deleted. -/
theorem C67_seq_example :
    ((indexDump (runCmds (fun _ => []) (freshStore .seq) exSeqCmds).2.1.ifiles).lines.map (fun x => (x.num, x.item.flags, x.item.id, x.item.dataid))) =
      [(1, 0, sid 0, 1), (2, 1, sid 1, 0), (1, 0, sid 2, 1), (2, 1, sid 0, 0), (3, 0, sid 4, 1)] := by
  decide +kernel

theorem DumpLine.Leads.key {x : DumpLine} {f : Bytes} (h : x.Leads f) : pread f (x.item.offset + 18) x.item.id.length = x.item.id := by
  obtain ⟨pre, prev, p, post, rfl, h2, -, -⟩ := h
  refine pread_at (a := pre ++ (toLE 1 x.item.id.length ++ (toLE 4 p.length ++ (toLE 4 prev ++ (toLE 4 (castagnoli (bufferBits p)) ++
      (toLE 1 0 ++ toLE 4 x.item.timestamp)))))) (c := p ++ post) (by simp) ?_ rfl
  simp [h2]

set_option maxRecDepth 100000 in
/-- The file number printed is wrong for a key created after a jump: it is 0, and what is at this place of the first data file is
    a record of another key. -/
theorem C67_fileid_refuted : ∃ (tr : List (NsEvent × Reply)) (br : Branches) (s : Store), UserRun none 7 tr br s ∧
    ∃ x ∈ (indexDump s.ifiles).lines, x.kept = true ∧ ∀ f, s.dfiles[x.item.dataid]? = some f → ¬ x.Leads f := by
  refine ⟨_, _, _, userRun_ok [(exCtx, .set, [str "SET", str "a", str "one"]), (exCtx, .nsjump, [str "NSJUMP"]),
    (exCtx, .set, [str "SET", str "b", str "two"])] (by decide) (by decide), ⟨1, 29, ?_⟩, ?_, ?_, ?_⟩
  · exact ⟨1, 28, 3, 29, 0, 0, 1700000000, crc32 (str "two"), 0, 0, str "b"⟩
  · decide +kernel
  · rfl
  · intro f hf hx
    have h1 := hx.key
    have h2 : (runCmds (fun _ => []) (freshStore .user) [(exCtx, .set, [str "SET", str "a", str "one"]), (exCtx, .nsjump, [str "NSJUMP"]),
      (exCtx, .set, [str "SET", str "b", str "two"])]).2.1.dfiles[0]?.map (fun f => pread f 46 1) = some (str "a") := by decide +kernel
    rw [show _ = some f from hf] at h2
    simp only [Option.map_some, Option.some.injEq] at h2
    exact absurd (h2.symm.trans h1) (by decide)

end Zdb
