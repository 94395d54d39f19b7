/-
Data files only grow, in any mode; index and data files stay in step.
-/
import Verif.Lemmas.Growth
namespace Zdb

/-- As many index as data files, the last ones being current. -/
structure InStep (s : Store) : Prop where
  d : s.dfiles.length = s.dataid + 1
  i : s.ifiles.length = s.indexid + 1
  same : s.dataid = s.indexid

/-- Every data file of `s` is a prefix of the same file of `t`, equal if it was not the current one. -/
def DataExt (s t : Store) : Prop :=
  s.dataid ≤ t.dataid ∧
  ∀ (i : Nat) (f : Bytes), s.dfiles[i]? = some f →
    ∃ x, t.dfiles[i]? = some (f ++ x) ∧ (i < s.dataid → x = [])

theorem DataExt.refl (s : Store) : DataExt s s := ⟨Nat.le_refl _, fun i f h => ⟨[], by simpa using h, fun _ => rfl⟩⟩

theorem DataExt.trans {s t v : Store} (h : DataExt s t) (h' : DataExt t v) : DataExt s v := by
  refine ⟨Nat.le_trans h.1 h'.1, fun i f hf => ?_⟩
  obtain ⟨x, hx, hx0⟩ := h.2 i f hf
  obtain ⟨y, hy, hy0⟩ := h'.2 i _ hx
  refine ⟨x ++ y, by simpa using hy, fun hi => ?_⟩
  rw [hx0 hi, hy0 (by have := h.1; omega)]; rfl

/-- As many files, and no file is emptied. -/
structure Fuller (a b : List Bytes) : Prop where
  len : b.length = a.length
  ne : (∀ f ∈ a, f ≠ []) → ∀ f ∈ b, f ≠ []

theorem Fuller.refl (a : List Bytes) : Fuller a a := ⟨rfl, fun h => h⟩

theorem Fuller.trans {a b c : List Bytes} (h : Fuller a b) (h' : Fuller b c) : Fuller a c :=
  ⟨h'.len.trans h.len, fun h0 => h'.ne (h.ne h0)⟩

theorem Fuller.modify (a : List Bytes) (i : Nat) {g : Bytes → Bytes} (hg : ∀ f, f ≠ [] → g f ≠ []) : Fuller a (a.modify i g) := by
  refine ⟨by simp, fun h f hf => ?_⟩
  obtain ⟨j, hj, rfl⟩ := List.mem_iff_getElem.1 hf
  rw [List.getElem_modify]
  have hm : a[j]'(by simpa using hj) ∈ a := List.getElem_mem _
  split
  · exact hg _ (h _ hm)
  · exact h _ hm

theorem Fuller.append (a : List Bytes) (i : Nat) (b : Bytes) : Fuller a (appendFile a i b) :=
  Fuller.modify a i (fun f hf => by simp [hf])

theorem Fuller.write (a : List Bytes) (i off : Nat) (b : Bytes) : Fuller a (writeFileAt a i off b) := by
  refine Fuller.modify a i (fun f hf => ?_)
  have : 0 < f.length := List.length_pos_iff.2 hf
  intro h0
  have h1 : (pwrite f off b).length = 0 := by rw [h0]; rfl
  unfold pwrite at h1
  simp only [List.length_append, List.length_take, List.length_replicate, List.length_drop] at h1
  omega

/-- Same data files and numbering; index files possibly rewritten. -/
structure SameData (s t : Store) : Prop where
  df : t.dfiles = s.dfiles
  did : t.dataid = s.dataid
  iid : t.indexid = s.indexid
  il : Fuller s.ifiles t.ifiles

theorem SameData.refl (s : Store) : SameData s s := ⟨rfl, rfl, rfl, .refl _⟩

theorem SameData.trans {s t v : Store} (h : SameData s t) (h' : SameData t v) : SameData s v :=
  ⟨h'.df.trans h.df, h'.did.trans h.did, h'.iid.trans h.iid, h.il.trans h'.il⟩

/-- Something appended to the current data file. -/
structure AppData (s t : Store) (b : Bytes) : Prop where
  df : t.dfiles = appendFile s.dfiles s.dataid b
  did : t.dataid = s.dataid
  iid : t.indexid = s.indexid
  il : Fuller s.ifiles t.ifiles

theorem AppData.trans {s t v : Store} {b : Bytes} (h : AppData s t b) (h' : SameData t v) : AppData s v b :=
  ⟨h'.df.trans h.df, h'.did.trans h.did, h'.iid.trans h.iid, h.il.trans h'.il⟩

/-- No index file is empty and every data file starts with its header. -/
structure Headed (s : Store) : Prop where
  i : ∀ f ∈ s.ifiles, f ≠ []
  d : ∀ (i : Nat) (f : Bytes), s.dfiles[i]? = some f → ∃ x, f = encDFHeader (freshDFHeader i) ++ x

/-- Result of a step: still in step, data files extended, at most one more file. -/
structure Ext (s t : Store) : Prop where
  step : InStep t
  ext : DataExt s t
  next : t.indexid ≤ s.indexid + 1
  headed : Headed s → Headed t

theorem Ext.refl {s : Store} (h : InStep s) : Ext s s := ⟨h, DataExt.refl s, by omega, fun h => h⟩

theorem SameData.ext {s t : Store} (h : SameData s t) (hs : InStep s) : Ext s t where
  step := ⟨by rw [h.df, h.did]; exact hs.d, by rw [h.il.len, h.iid]; exact hs.i, by rw [h.did, h.iid]; exact hs.same⟩
  ext := ⟨by rw [h.did]; exact Nat.le_refl _, fun i f hf => ⟨[], by rw [h.df]; simpa using hf, fun _ => rfl⟩⟩
  next := by rw [h.iid]; omega
  headed := fun h0 => ⟨h.il.ne h0.i, by rw [h.df]; exact h0.d⟩

theorem AppData.ext {s t : Store} {b : Bytes} (h : AppData s t b) (hs : InStep s) : Ext s t where
  step := ⟨by rw [h.df, h.did, appendFile, List.length_modify]; exact hs.d, by rw [h.il.len, h.iid]; exact hs.i,
           by rw [h.did, h.iid]; exact hs.same⟩
  ext := by
    refine ⟨by rw [h.did]; exact Nat.le_refl _, fun i f hf => ?_⟩
    rw [h.df, appendFile]
    by_cases hi : s.dataid = i
    · subst hi
      exact ⟨b, by simp [hf], fun hlt => by omega⟩
    · exact ⟨[], by simp [hi, hf], fun _ => rfl⟩
  next := by rw [h.iid]; omega
  headed := by
    refine fun h0 => ⟨h.il.ne h0.i, fun i f hf => ?_⟩
    rw [h.df, appendFile, List.getElem?_modify] at hf
    cases hg : s.dfiles[i]? with
    | none => rw [hg] at hf; simp at hf
    | some g =>
      rw [hg] at hf
      obtain ⟨x, rfl⟩ := h0.d i g hg
      by_cases hi : s.dataid = i
      · simp only [hi, if_true, Option.map_eq_map, Option.map_some, Option.some.injEq] at hf
        exact ⟨x ++ b, by rw [← hf, List.append_assoc]⟩
      · simp only [hi, if_false, Option.map_eq_map, Option.map_some, Option.some.injEq] at hf
        exact ⟨x, hf.symm⟩

theorem Ext.same {s t v : Store} (h : Ext s t) (h' : SameData t v) : Ext s v :=
  let e := h'.ext h.step
  ⟨e.step, h.ext.trans e.ext, by rw [h'.iid]; exact h.next, fun h0 => e.headed (h.headed h0)⟩

theorem Ext.app {s t v : Store} {b : Bytes} (h : Ext s t) (h' : AppData t v b) : Ext s v :=
  let e := h'.ext h.step
  ⟨e.step, h.ext.trans e.ext, by rw [h'.iid]; exact h.next, fun h0 => e.headed (h.headed h0)⟩

theorem jump_ext {s : Store} (hs : InStep s) (hcap : s.indexid + 1 < 2 ^ 32) : Ext s (jump s) := by
  have hid : (s.indexid + 1) % 2 ^ 32 = s.indexid + 1 := Nat.mod_eq_of_lt hcap
  have e1 : (jump s).dfiles = dataInitialize s.dfiles ((s.indexid + 1) % 2 ^ 32) := by
    simp only [jump, dataOpen, indexSetId]
  have e2 : (jump s).ifiles = indexCreate s.ifiles ((s.indexid + 1) % 2 ^ 32) s.mode.byte := by
    simp only [jump, dataOpen, indexSetId]
  have e3 : (jump s).indexid = (s.indexid + 1) % 2 ^ 32 := by simp only [jump, dataOpen, indexSetId]
  have e4 : (jump s).dataid = (s.indexid + 1) % 2 ^ 32 := by simp only [jump, dataOpen, indexSetId]
  rw [hid] at e1 e2 e3 e4
  have hd := hs.d
  have hi := hs.i
  have hsame := hs.same
  rw [dataInitialize, if_neg (by omega)] at e1
  rw [indexCreate, if_neg (by omega)] at e2
  refine ⟨⟨by rw [e1, e4]; simp; omega, by rw [e2, e3]; simp; omega, by rw [e3, e4]⟩, ?_, by rw [e3]; omega, ?_⟩
  · refine ⟨by rw [e4]; omega, fun i f hf => ⟨[], ?_, fun _ => rfl⟩⟩
    rw [e1, List.getElem?_append_left]
    · simpa using hf
    · exact (List.getElem?_eq_some_iff.1 hf).1
  · refine fun h0 => ⟨?_, fun i f hf => ?_⟩
    · rw [e2]
      intro f hf
      rcases List.mem_append.1 hf with hf | hf
      · exact h0.i f hf
      · rw [List.mem_singleton.1 hf]; simp [encIHeader, toLE]
    · rw [e1] at hf
      by_cases hlt : i < s.dfiles.length
      · rw [List.getElem?_append_left hlt] at hf
        exact h0.d i f hf
      · rw [List.getElem?_append_right (by omega)] at hf
        have hi0 : i - s.dfiles.length = 0 := by
          have := (List.getElem?_eq_some_iff.1 hf).1
          simp at this; omega
        rw [hi0] at hf
        simp only [List.getElem?_cons_zero, Option.some.injEq] at hf
        have : i = s.indexid + 1 := by omega
        exact ⟨[], by rw [← hf, this, List.append_nil]⟩

theorem jumpIfFull_ext {s : Store} (hs : InStep s) (hcap : s.indexid + 1 < 2 ^ 32) (limit len : Nat) :
    Ext s (jumpIfFull limit s len) := by
  unfold jumpIfFull
  split
  · exact jump_ext hs hcap
  · exact Ext.refl hs

/-- The bytes `dataInsert` appends when it succeeds. -/
theorem dataInsert_app (s : Store) (io : Io) (id p : Bytes) (fl crc ts : Nat) :
    ∃ b, AppData s (dataInsert s io id p fl crc ts).1 b ∧
      ((dataInsert s io id p fl crc ts).2 ≠ 0 → ∃ h, b = encDHdr h ++ (id ++ p)) := by
  unfold dataInsert
  simp only
  split
  · exact ⟨_, ⟨rfl, rfl, rfl, .refl _⟩, fun h => absurd rfl h⟩
  · split
    · exact ⟨_, ⟨rfl, rfl, rfl, .refl _⟩, fun h => absurd rfl h⟩
    · exact ⟨_, ⟨rfl, rfl, rfl, .refl _⟩, fun _ => ⟨_, List.append_assoc _ _ _⟩⟩

theorem appendEntry_same (s : Store) (io : Io) (e : Entry) : SameData s (appendEntry s io e).1 := by
  unfold appendEntry; simp only
  split <;> exact ⟨rfl, rfl, rfl, .append _ _ _⟩

theorem deleteDisk_same (s : Store) (io : Io) (e : Entry) : SameData s (deleteDisk s io e).1 := by
  unfold deleteDisk; simp only
  split
  · exact SameData.refl _
  · split
    · exact SameData.refl _
    · split <;> exact ⟨rfl, rfl, rfl, .write _ _ _ _⟩

theorem overwriteItem_same (s : Store) (io : Io) (e : Entry) (fid off : Nat) :
    SameData s (overwriteItem s io e fid off) := by
  unfold overwriteItem
  cases s.ifiles[fid]? with
  | none => exact SameData.refl _
  | some f =>
    cases h : readExact f off itemHdr with
    | none => simp only [h]; exact SameData.refl _
    | some b =>
      simp only [h]
      split <;> exact ⟨rfl, rfl, rfl, .write _ _ _ _⟩

theorem seqOverwrite_same (s : Store) (io : Io) (e : Entry) : SameData s (seqOverwrite s io e) := by
  unfold seqOverwrite
  cases s.seqmap with
  | none => exact SameData.refl _
  | some m =>
    simp only
    cases seqSearch m (fromLE e.id) with
    | none => exact SameData.refl _
    | some x => exact overwriteItem_same _ _ _ _ _

theorem updateUser_same (br : Branches) (s : Store) (u : Nat) (io : Io) (r : SetReq) (ex : Entry) :
    SameData s (updateUser br s u io r ex).2.1 := by
  unfold updateUser
  have h1 := deleteDisk_same s io ex
  have h2 := appendEntry_same (updateStats (deleteDisk s io ex).1 ex (r.entry u)) io
    (updatedEntry (deleteDisk s io ex).1 ex (r.entry u))
  exact h1.trans ⟨h2.df, h2.did, h2.iid, h2.il⟩

theorem insertUser_same (br : Branches) (s : Store) (u : Nat) (io : Io) (r : SetReq) :
    SameData s (insertUser br s u io r).2.1 := by
  unfold insertUser insertMemUser
  have h := appendEntry_same s io (r.entry u)
  simp only
  split
  · exact ⟨h.df, h.did, h.iid, h.il⟩
  · exact h

theorem insertSeq_same (s : Store) (u : Nat) (io : Io) (r : SetReq) :
    SameData s (insertSeq s u io r).1 := by
  unfold insertSeq
  have h := appendEntry_same s io (r.entry u)
  simp only
  split
  · exact ⟨h.df, h.did, h.iid, h.il⟩
  · exact h

theorem updateSeq_same (s : Store) (u : Nat) (io : Io) (r : SetReq) (ex : Entry) :
    SameData s (updateSeq s u io r ex).1 := by
  unfold updateSeq
  have h1 := appendEntry_same s io { ex with flags := setDeleted ex.flags }
  simp only
  split
  · have h2 := seqOverwrite_same (appendEntry s io { ex with flags := setDeleted ex.flags }).1 io
      { r.entry u with
        parentid := (appendEntry s io { ex with flags := setDeleted ex.flags }).1.indexid
        parentoff := (appendEntry s io { ex with flags := setDeleted ex.flags }).2.1.idxoffset }
    have h3 := h1.trans h2
    exact ⟨h3.df, h3.did, h3.iid, h3.il⟩
  · exact h1

theorem indexDelete_same (br : Branches) (s : Store) (u : Nat) (io : Io) (e : Entry) :
    SameData s (indexDelete br s u io e).2.1 := by
  unfold indexDelete
  have h := deleteDisk_same s io e
  simp only
  split
  · split <;> exact ⟨h.df, h.did, h.iid, h.il⟩
  · split <;> exact ⟨h.df, h.did, h.iid, h.il⟩

/-- What a SET handler does with the data files: something appended, the record itself if the reply is a key. -/
def SetEffect (s t : Store) (r : Reply) (p : Bytes) : Prop :=
  ∃ b, AppData s t b ∧ ∀ k, r = .bulk k → ∃ h, b = encDHdr h ++ (k ++ p)

theorem SetEffect.refl (s : Store) (r : Reply) (p : Bytes) (hr : ∀ k, r ≠ .bulk k) : SetEffect s s r p :=
  ⟨[], ⟨by unfold appendFile; simp only [List.append_nil]; exact (List.modify_id ..).symm, rfl, rfl, .refl _⟩, fun k hk => absurd hk (hr k)⟩

theorem setHandlerUser_effect (c : Ctx) (br : Branches) (s : Store) (id p : Bytes) (ts : Nat)
    (ex : Option Entry) :
    SetEffect s (setHandlerUser c br s id p ts ex).2.1 (setHandlerUser c br s id p ts ex).2.2 p := by
  unfold setHandlerUser
  split
  · exact SetEffect.refl _ _ _ (by simp)
  · split
    · exact SetEffect.refl _ _ _ (by simp)
    · have h1 := dataInsert_app s c.io id p 0 (crc32 p) ts
      generalize dataInsert s c.io id p 0 (crc32 p) ts = x at h1 ⊢
      obtain ⟨s1, off⟩ := x
      obtain ⟨b, h1, hb⟩ := h1
      simp only at h1 hb ⊢
      split
      · exact ⟨b, h1, by simp⟩
      · rename_i hoff
        obtain ⟨hh, hb⟩ := hb hoff
        cases ex with
        | none =>
          have h2 := insertUser_same br s1 c.u c.io ⟨id, off, p.length, crc32 p, 0, ts⟩
          simp only
          split
          · exact ⟨b, h1.trans h2, fun k hk => ⟨hh, by injection hk with hk; rw [← hk]; exact hb⟩⟩
          · exact ⟨b, h1.trans h2, by simp⟩
        | some ex =>
          have h2 := updateUser_same br s1 c.u c.io ⟨id, off, p.length, crc32 p, 0, ts⟩ ex
          simp only
          split
          · exact ⟨b, h1.trans h2, fun k hk => ⟨hh, by injection hk with hk; rw [← hk]; exact hb⟩⟩
          · exact ⟨b, h1.trans h2, by simp⟩

theorem setHandlerSeq_effect (c : Ctx) (br : Branches) (s : Store) (key p : Bytes) (ts : Nat)
    (ex : Option Entry) :
    SetEffect s (setHandlerSeq c br s key p ts ex).2.1 (setHandlerSeq c br s key p ts ex).2.2 p := by
  unfold setHandlerSeq
  split
  · exact SetEffect.refl _ _ _ (by simp)
  · simp only
    split
    · exact SetEffect.refl _ _ _ (by simp)
    · generalize seqIdOf s ex = id
      have h1 := dataInsert_app s c.io id p 0 (crc32 p) ts
      generalize dataInsert s c.io id p 0 (crc32 p) ts = x at h1 ⊢
      obtain ⟨s1, off⟩ := x
      obtain ⟨b, h1, hb⟩ := h1
      simp only at h1 hb ⊢
      split
      · exact ⟨b, h1, by simp⟩
      · rename_i hoff
        obtain ⟨hh, hb⟩ := hb hoff
        cases ex with
        | none =>
          have h2 := insertSeq_same s1 c.u c.io ⟨id, off, p.length, crc32 p, s1.dataid, ts⟩
          simp only
          split
          · exact ⟨b, h1.trans h2, fun k hk => ⟨hh, by injection hk with hk; rw [← hk]; exact hb⟩⟩
          · exact ⟨b, h1.trans h2, by simp⟩
        | some ex =>
          have h2 := updateSeq_same s1 c.u c.io ⟨id, off, p.length, crc32 p, s1.dataid, ts⟩ ex
          simp only
          split
          · exact ⟨b, h1.trans h2, fun k hk => ⟨hh, by injection hk with hk; rw [← hk]; exact hb⟩⟩
          · exact ⟨b, h1.trans h2, by simp⟩

/-- SET: the payload of an acknowledged SET is at the end of the file which is current afterwards. -/
theorem cmdSet_body_ext (c : Ctx) (br : Branches) {s : Store} (hs : InStep s)
    (hcap : s.indexid + 1 < 2 ^ 32) (argv : List Bytes) (k p : Bytes) :
    Ext s (cmdSet.body c br s argv k p).2.1 ∧
    ∀ k', (cmdSet.body c br s argv k p).2.2 = .bulk k' → ∃ h f,
      (cmdSet.body c br s argv k p).2.1.dfiles[(cmdSet.body c br s argv k p).2.1.dataid]? =
        some (f ++ (encDHdr h ++ (k' ++ p))) := by
  have hr := Ext.refl hs
  unfold cmdSet.body
  split
  · exact ⟨hr, by simp⟩
  split
  · exact ⟨hr, by simp [errReadOnly]⟩
  split
  · exact ⟨hr, by simp [errFrozen]⟩
  split
  · exact ⟨hr, by simp [errLocked]⟩
  simp only
  generalize (if k.length ≠ 0 then indexGet br s c.u k else none) = ex
  split
  · exact ⟨hr, by simp⟩
  split
  · exact ⟨hr, by simp⟩
  have h1 := jumpIfFull_ext hs hcap c.limit p.length
  generalize jumpIfFull c.limit s p.length = t at h1 ⊢
  have key : ∀ (v : Store) (r : Reply), SetEffect t v r p → Ext s v ∧
      ∀ k', r = .bulk k' → ∃ h f, v.dfiles[v.dataid]? = some (f ++ (encDHdr h ++ (k' ++ p))) := by
    rintro v r ⟨b, hb, hk⟩
    refine ⟨h1.app hb, fun k' hr => ?_⟩
    obtain ⟨hh, rfl⟩ := hk k' hr
    have hlt : t.dataid < t.dfiles.length := by have := h1.step.d; omega
    refine ⟨hh, t.dfiles[t.dataid], ?_⟩
    rw [hb.df, hb.did, appendFile]
    simp [List.getElem?_eq_getElem hlt]
  split
  · exact key _ _ (setHandlerUser_effect c br t k p (timestampFromSet c.now argv 3) ex)
  · exact key _ _ (setHandlerSeq_effect c br t k p (timestampFromSet c.now argv 3) ex)

theorem cmdDel_body_ext (c : Ctx) (br : Branches) {s : Store} (hs : InStep s) (argv : List Bytes)
    (k : Bytes) : Ext s (cmdDel.body c br s argv k).2.1 := by
  have hr := Ext.refl hs
  unfold cmdDel.body
  split
  · exact hr
  split
  · exact hr
  split
  · exact hr
  split
  · exact hr
  split
  · exact hr
  rename_i e he
  split
  · exact hr
  obtain ⟨b, h1, -⟩ := dataInsert_app s c.io e.id [] 1 0 (timestampFromSet c.now argv 2)
  simp only
  generalize dataInsert s c.io e.id [] 1 0 (timestampFromSet c.now argv 2) = x at h1 ⊢
  obtain ⟨s1, off⟩ := x
  simp only at h1 ⊢
  split
  · exact h1.ext hs
  · have h2 := indexDelete_same br s1 c.u c.io e
    split <;> exact (h1.trans h2).ext hs

/-- Every command. -/
theorem dsCommand_ext (c : Ctx) (br : Branches) {s : Store} (hs : InStep s)
    (hcap : s.indexid + 1 < 2 ^ 32) (d : DsCmd) (argv : List Bytes) :
    Ext s (dsCommand c br s d argv).2.1 := by
  have hr := Ext.refl hs
  cases d with
  | set =>
    unfold dsCommand cmdSet
    simp only
    split
    · exact (cmdSet_body_ext c br hs hcap _ _ _).1
    · split
      · exact (cmdSet_body_ext c br hs hcap _ _ _).1
      · exact hr
    · exact hr
  | del =>
    unfold dsCommand cmdDel
    simp only
    split
    · split
      · exact cmdDel_body_ext c br hs _ _
      · exact hr
    · split
      · exact hr
      · split
        · exact cmdDel_body_ext c br hs _ _
        · exact hr
  | nsjump =>
    simp only [dsCommand, cmdNsjump]
    split
    · exact jump_ext hs hcap
    · exact hr
  | index =>
    simp only [dsCommand]
    rcases cmdIndex_cases c s argv with h | h <;> rw [h]
    · exact hr
    · exact SameData.ext ⟨rfl, rfl, rfl, .refl _⟩ hs
  | _ => exact hr

end Zdb
