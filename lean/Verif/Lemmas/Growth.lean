/-
How much a command can add to the files of a namespace, in any state.
-/
import Verif.Model.Engine
import Verif.Lemmas.Layout
namespace Zdb

/-- Bytes in the data files. -/
def totalData (s : Store) : Nat := (s.dfiles.map List.length).sum

theorem sum_modify (fs : List Bytes) (i n : Nat) (f : Bytes → Bytes)
    (hf : ∀ b, (f b).length ≤ b.length + n) :
    ((fs.modify i f).map List.length).sum ≤ (fs.map List.length).sum + n := by
  induction fs generalizing i with
  | nil => simp
  | cons b fs ih =>
    cases i with
    | zero => have := hf b; simp only [List.modify_zero_cons, List.map_cons, List.sum_cons]; omega
    | succ i => have := ih i; simp only [List.modify_succ_cons, List.map_cons, List.sum_cons]; omega

theorem sum_appendFile (fs : List Bytes) (i : Nat) (b : Bytes) :
    ((appendFile fs i b).map List.length).sum ≤ (fs.map List.length).sum + b.length :=
  sum_modify fs i b.length _ (fun x => by simp)

theorem pwrite_length_le (f : Bytes) (b : Bytes) : (pwrite f 0 b).length ≤ f.length + b.length := by
  simp [pwrite]; omega

theorem sum_dataInitialize (fs : List Bytes) (i : Nat) :
    ((dataInitialize fs i).map List.length).sum ≤ (fs.map List.length).sum + 28 := by
  unfold dataInitialize
  have hl : (encDFHeader (freshDFHeader i)).length = 28 := freshDFHeader_length i
  simp only
  split
  · exact sum_modify fs i 28 _ (fun b => by have := pwrite_length_le b (encDFHeader (freshDFHeader i)); omega)
  · simp [hl]

theorem cut_length_le (w : WriteFault) (b : Bytes) : (w.cut b).length ≤ b.length := by
  cases w <;> simp [WriteFault.cut]; omega

/-- Data bytes, number of index files: what a step may add. -/
def Grows (s t : Store) (n : Nat) : Prop :=
  totalData t ≤ totalData s + n ∧ t.ifiles.length ≤ s.ifiles.length + 1

/-- No new index file, and at most `n` data bytes. -/
def Adds (s t : Store) (n : Nat) : Prop :=
  totalData t ≤ totalData s + n ∧ t.ifiles.length ≤ s.ifiles.length

theorem Adds.refl (s : Store) (n : Nat) : Adds s s n := ⟨by omega, by omega⟩

theorem Adds.trans {s t v : Store} {a b : Nat} (h : Adds s t a) (h' : Adds t v b) : Adds s v (a + b) :=
  ⟨by have := h.1; have := h'.1; omega, by have := h.2; have := h'.2; omega⟩

theorem jump_grows (s : Store) : Grows s (jump s) 28 := by
  have e1 : (jump s).dfiles = dataInitialize s.dfiles ((s.indexid + 1) % 2 ^ 32) := by
    simp only [jump, dataOpen, indexSetId]
  have e2 : (jump s).ifiles = indexCreate s.ifiles ((s.indexid + 1) % 2 ^ 32) s.mode.byte := by
    simp only [jump, dataOpen, indexSetId]
  refine ⟨?_, ?_⟩
  · rw [totalData, e1]; exact sum_dataInitialize _ _
  · rw [e2, indexCreate]
    split <;> simp [appendFile]

theorem jumpIfFull_grows (limit : Nat) (s : Store) (len : Nat) : Grows s (jumpIfFull limit s len) 28 := by
  unfold jumpIfFull; split
  · exact jump_grows s
  · exact ⟨by omega, by omega⟩

theorem dataInsert_adds (s : Store) (io : Io) (id p : Bytes) (fl crc ts : Nat) :
    Adds s (dataInsert s io id p fl crc ts).1 (18 + id.length + p.length) := by
  have key : ∀ b : Bytes, b.length ≤ 18 + id.length + p.length → ∀ d : Nat,
      Adds s { s with dfiles := appendFile s.dfiles s.dataid b, dprev := d } (18 + id.length + p.length) := by
    intro b hb d
    refine ⟨?_, Nat.le_refl _⟩
    have := sum_appendFile s.dfiles s.dataid b
    simp only [totalData]; omega
  have hh := fun h : DHdr => encDHdr_length h
  unfold dataInsert
  simp only
  split
  · refine key _ ?_ s.dprev
    refine Nat.le_trans (cut_length_le _ _) ?_
    simp only [List.length_append, hh]; omega
  · split
    · refine key _ ?_ s.dprev
      have := cut_length_le io.dpay p
      simp only [List.length_append, hh]; omega
    · refine key _ ?_ _
      simp only [List.length_append, hh]; omega

theorem appendEntry_adds (s : Store) (io : Io) (e : Entry) : Adds s (appendEntry s io e).1 0 := by
  unfold appendEntry; simp only
  split <;> exact ⟨by simp [totalData], by simp [appendFile]⟩

theorem deleteDisk_adds (s : Store) (io : Io) (e : Entry) : Adds s (deleteDisk s io e).1 0 := by
  unfold deleteDisk; simp only
  split
  · exact Adds.refl _ _
  · split
    · exact Adds.refl _ _
    · split <;> exact ⟨by simp [totalData], by simp [writeFileAt]⟩

theorem overwriteItem_adds (s : Store) (io : Io) (e : Entry) (fid off : Nat) :
    Adds s (overwriteItem s io e fid off) 0 := by
  unfold overwriteItem
  cases s.ifiles[fid]? with
  | none => exact Adds.refl _ _
  | some f =>
    cases h : readExact f off itemHdr with
    | none => simp only [h]; exact Adds.refl _ _
    | some b =>
      simp only [h]
      split <;> (refine ⟨?_, ?_⟩ <;> simp [totalData, writeFileAt])

theorem seqOverwrite_adds (s : Store) (io : Io) (e : Entry) : Adds s (seqOverwrite s io e) 0 := by
  unfold seqOverwrite
  cases s.seqmap with
  | none => exact Adds.refl _ _
  | some m =>
    simp only
    cases seqSearch m (fromLE e.id) with
    | none => exact Adds.refl _ _
    | some x => exact overwriteItem_adds _ _ _ _ _

theorem updateUser_adds (br : Branches) (s : Store) (u : Nat) (io : Io) (r : SetReq) (ex : Entry) :
    Adds s (updateUser br s u io r ex).2.1 0 := by
  unfold updateUser
  have h1 := deleteDisk_adds s io ex
  have h2 := appendEntry_adds (updateStats (deleteDisk s io ex).1 ex (r.entry u)) io
    (updatedEntry (deleteDisk s io ex).1 ex (r.entry u))
  exact (h1.trans (a := 0) (b := 0) ⟨h2.1, h2.2⟩)

theorem insertUser_adds (br : Branches) (s : Store) (u : Nat) (io : Io) (r : SetReq) :
    Adds s (insertUser br s u io r).2.1 0 := by
  unfold insertUser insertMemUser
  have h1 := appendEntry_adds s io (r.entry u)
  simp only
  split
  · exact ⟨h1.1, h1.2⟩
  · exact h1

theorem insertSeq_adds (s : Store) (u : Nat) (io : Io) (r : SetReq) :
    Adds s (insertSeq s u io r).1 0 := by
  unfold insertSeq
  have h1 := appendEntry_adds s io (r.entry u)
  simp only
  split
  · exact ⟨h1.1, h1.2⟩
  · exact h1

theorem updateSeq_adds (s : Store) (u : Nat) (io : Io) (r : SetReq) (ex : Entry) :
    Adds s (updateSeq s u io r ex).1 0 := by
  unfold updateSeq
  have h1 := appendEntry_adds s io { ex with flags := setDeleted ex.flags }
  simp only
  split
  · have h2 := seqOverwrite_adds (appendEntry s io { ex with flags := setDeleted ex.flags }).1 io
      { r.entry u with
        parentid := (appendEntry s io { ex with flags := setDeleted ex.flags }).1.indexid
        parentoff := (appendEntry s io { ex with flags := setDeleted ex.flags }).2.1.idxoffset }
    have h3 := h1.trans h2
    exact ⟨h3.1, h3.2⟩
  · exact h1

theorem indexDelete_adds (br : Branches) (s : Store) (u : Nat) (io : Io) (e : Entry) :
    Adds s (indexDelete br s u io e).2.1 0 := by
  unfold indexDelete
  have h1 := deleteDisk_adds s io e
  simp only
  split
  · split <;> exact ⟨h1.1, h1.2⟩
  · split <;> exact ⟨h1.1, h1.2⟩

theorem setHandlerUser_adds (c : Ctx) (br : Branches) (s : Store) (id p : Bytes) (ts : Nat)
    (ex : Option Entry) :
    Adds s (setHandlerUser c br s id p ts ex).2.1 (18 + id.length + p.length) := by
  unfold setHandlerUser
  split
  · exact Adds.refl _ _
  · split
    · exact Adds.refl _ _
    · have h1 := dataInsert_adds s c.io id p 0 (crc32 p) ts
      generalize dataInsert s c.io id p 0 (crc32 p) ts = x at h1 ⊢
      obtain ⟨s1, off⟩ := x
      simp only at h1 ⊢
      split
      · exact h1
      · cases ex with
        | none =>
          have h2 := insertUser_adds br s1 c.u c.io ⟨id, off, p.length, crc32 p, 0, ts⟩
          simp only
          split <;> exact h1.trans h2
        | some ex =>
          have h2 := updateUser_adds br s1 c.u c.io ⟨id, off, p.length, crc32 p, 0, ts⟩ ex
          simp only
          split <;> exact h1.trans h2

theorem setHandlerSeq_adds (c : Ctx) (br : Branches) (s : Store) (key p : Bytes) (ts : Nat)
    (ex : Option Entry) (hid : ∀ e, ex = some e → e.id.length ≤ 255) :
    Adds s (setHandlerSeq c br s key p ts ex).2.1 (18 + 263 + p.length) := by
  unfold setHandlerSeq
  split
  · exact Adds.refl _ _
  · simp only
    split
    · exact Adds.refl _ _
    · generalize hidd : seqIdOf s ex = id
      have hl : id.length ≤ 263 := by
        subst hidd
        cases ex with
        | none => simp [seqIdOf]
        | some e => have := hid e rfl; simp [seqIdOf]; omega
      have h1 := dataInsert_adds s c.io id p 0 (crc32 p) ts
      generalize dataInsert s c.io id p 0 (crc32 p) ts = x at h1 ⊢
      obtain ⟨s1, off⟩ := x
      simp only at h1 ⊢
      have h1' : Adds s s1 (18 + 263 + p.length) := ⟨by have := h1.1; omega, h1.2⟩
      split
      · exact h1'
      · cases ex with
        | none =>
          have h2 := insertSeq_adds s1 c.u c.io ⟨id, off, p.length, crc32 p, s1.dataid, ts⟩
          simp only
          split <;> exact h1'.trans h2
        | some ex =>
          have h2 := updateSeq_adds s1 c.u c.io ⟨id, off, p.length, crc32 p, s1.dataid, ts⟩ ex
          simp only
          split <;> exact h1'.trans h2

theorem seqGet_id_le {s : Store} {u : Nat} {k : Bytes} {e : Entry} (h : seqGet s u k = some e) :
    e.id.length ≤ 8 := by
  unfold seqGet at h
  split at h
  · simp at h
  · simp only at h
    split at h
    · simp at h
    · split at h
      · simp at h
      · split at h
        · simp at h
        · rename_i hit
          injection h with h
          subst h
          simp only [itemGetDisk] at hit
          split at hit
          · simp at hit
          · rw [Option.map_eq_some_iff] at hit
            obtain ⟨b, hb, rfl⟩ := hit
            have hl : b.length = itemHdr + 8 := by
              unfold readExact at hb; simp only at hb
              split at hb
              · rename_i hh; injection hb with hb; rw [← hb]; exact hh
              · simp at hb
            simp only [List.length_take, decItem, List.length_drop, hl, itemHdr]
            omega

theorem indexGet_id_le {br : Branches} {s : Store} {u : Nat} {k : Bytes} {e : Entry}
    (h : indexGet br s u k = some e) (hk : k.length ≤ 255) : e.id.length ≤ 255 := by
  unfold indexGet at h
  simp only at h
  split at h
  · rename_i e' he
    split at h
    · simp at h
    · injection h with h
      subst h
      split at he
      · have := List.find?_some he
        simp only [Entry.is, Bool.and_eq_true, beq_iff_eq] at this
        rw [this.2]; exact hk
      · have := seqGet_id_le he; omega
  · simp at h

theorem cmdSet_body_grows (c : Ctx) (br : Branches) (s : Store) (argv : List Bytes) (k p : Bytes) :
    Grows s (cmdSet.body c br s argv k p).2.1 (28 + 18 + 263 + p.length) := by
  have hr : Grows s s (28 + 18 + 263 + p.length) := ⟨by omega, by omega⟩
  unfold cmdSet.body
  split
  · exact hr
  rename_i hk
  split
  · exact hr
  split
  · exact hr
  split
  · exact hr
  simp only
  generalize hx : (if k.length ≠ 0 then indexGet br s c.u k else none) = ex
  split
  · exact hr
  split
  · exact hr
  have h1 := jumpIfFull_grows c.limit s p.length
  generalize jumpIfFull c.limit s p.length = t at h1 ⊢
  have key : ∀ v : Store, Adds t v (18 + 263 + p.length) → Grows s v (28 + 18 + 263 + p.length) := by
    intro v hv
    exact ⟨by have := h1.1; have := hv.1; omega, by have := h1.2; have := hv.2; omega⟩
  split
  · refine key _ ?_
    have := setHandlerUser_adds c br t k p (timestampFromSet c.now argv 3) ex
    exact ⟨by have := this.1; omega, this.2⟩
  · refine key _ (setHandlerSeq_adds c br t k p (timestampFromSet c.now argv 3) ex ?_)
    intro e he
    subst he
    split at hx
    · exact indexGet_id_le hx (by omega)
    · simp at hx

theorem cmdDel_body_adds (c : Ctx) (br : Branches) (s : Store) (argv : List Bytes) (k : Bytes) :
    Adds s (cmdDel.body c br s argv k).2.1 (18 + 255) := by
  have hr : Adds s s (18 + 255) := ⟨by omega, by omega⟩
  unfold cmdDel.body
  split
  · exact hr
  split
  · exact hr
  split
  · exact hr
  split
  · exact hr
  split
  · exact hr
  rename_i e he
  split
  · exact hr
  have hid := indexGet_id_le he (by omega)
  have h1 := dataInsert_adds s c.io e.id [] 1 0 (timestampFromSet c.now argv 2)
  simp only
  generalize dataInsert s c.io e.id [] 1 0 (timestampFromSet c.now argv 2) = x at h1 ⊢
  obtain ⟨s1, off⟩ := x
  simp only [List.length_nil] at h1 ⊢
  have h1' : Adds s s1 (18 + 255) := ⟨by have := h1.1; omega, h1.2⟩
  split
  · exact h1'
  · have h2 := indexDelete_adds br s1 c.u c.io e
    split <;> exact h1'.trans h2

/-- A command adds at most one file and 309 bytes more than the longest argument. -/
theorem dsCommand_grows (c : Ctx) (br : Branches) (s : Store) (d : DsCmd) (argv : List Bytes) (n : Nat)
    (hn : ∀ b ∈ argv, b.length ≤ n) : Grows s (dsCommand c br s d argv).2.1 (309 + n) := by
  have hr : Grows s s (309 + n) := ⟨by omega, by omega⟩
  cases d with
  | set =>
    have key : ∀ k p, p ∈ argv → Grows s (cmdSet.body c br s argv k p).2.1 (309 + n) := by
      intro k p hp
      have h1 := cmdSet_body_grows c br s argv k p
      have h2 := hn p hp
      exact ⟨by have := h1.1; omega, h1.2⟩
    unfold dsCommand cmdSet
    simp only
    split
    · exact key _ _ (by simp)
    · split
      · exact key _ _ (by simp)
      · exact hr
    · exact hr
  | del =>
    have key : ∀ k, Grows s (cmdDel.body c br s argv k).2.1 (309 + n) := by
      intro k
      have h1 := cmdDel_body_adds c br s argv k
      exact ⟨by have := h1.1; omega, by have := h1.2; omega⟩
    unfold dsCommand cmdDel
    simp only
    split
    · split
      · exact key _
      · exact hr
    · split
      · exact hr
      · split
        · exact key _
        · exact hr
  | nsjump =>
    simp only [dsCommand, cmdNsjump]
    split
    · have := jump_grows s
      exact ⟨by have := this.1; simp only; omega, this.2⟩
    · exact hr
  | index =>
    simp only [dsCommand]
    rcases cmdIndex_cases c s argv with h | h <;> rw [h] <;> exact hr
  | _ => exact hr

end Zdb
