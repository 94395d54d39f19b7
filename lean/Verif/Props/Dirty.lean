/-
C38: INDEX DIRTY.
-/
import Verif.Lemmas.Dirty
import Verif.Props.Seq
import Verif.Props.Fault
namespace Zdb

/-! ### the answer -/

theorem takeWhile_self {p : UInt8 → Bool} : ∀ {l : Bytes}, (∀ b ∈ l, p b = true) → l.takeWhile p = l
  | [], _ => rfl
  | a :: l, h => by
    rw [List.takeWhile_cons, if_pos (h a (List.mem_cons_self ..)), takeWhile_self (fun b hb => h b (List.mem_cons_of_mem _ hb))]

theorem dirtyWord {w : Bytes} (h : strCaseEq w wordDirty = true) : w.length = 5 ∧ cstr w = w := by
  simp only [strCaseEq, beq_iff_eq] at h
  have hl : w.length = 5 := by simpa [wordDirty] using congrArg List.length h
  refine ⟨hl, ?_⟩
  unfold cstr
  refine takeWhile_self (fun b hb => ?_)
  have : lower b ∈ wordDirty.map lower := by rw [← h]; exact List.mem_map_of_mem hb
  simp only [bne_iff_ne, ne_eq]
  rintro rfl
  revert this
  decide

/-- INDEX DIRTY of an administrator lists the bits of the map. -/
theorem cmdIndex_dirty (c : Ctx) (had : c.admin = true) (br : Branches) (s : Store) {name w : Bytes} (hn : name ≠ [])
    (hw : strCaseEq w wordDirty = true) :
    dsCommand c br s .index [name, w] = (br, s, .arr ((dirtyList s.dirty).map (fun (i : Nat) => .int i))) := by
  obtain ⟨hl, hc⟩ := dirtyWord hw
  have hw0 : w ≠ [] := by intro h; simp [h] at hl
  have hv : argsValidateMin [name, w] 2 = none := by simp [argsValidateMin, hn, hw0]
  simp only [dsCommand, cmdIndex, replyIndex, subcommand, had, hv, Bool.not_true, Bool.false_eq_true, if_false, maxlenArg, hc, hl, hw,
    show ¬ (5 : Nat) > 256 by decide, show ¬ (5 : Nat) = 256 by decide, if_true]

theorem Store.DW.length {s : Store} (h : s.DW) : (dirtyList s.dirty).length ≤ s.indexid + 1 := by
  have h1 : ∀ i ∈ dirtyList s.dirty, i < s.indexid + 1 := fun i hi =>
    Nat.lt_succ_of_le (h.bits i ((mem_dirtyList _ _).1 hi))
  have h2 : (dirtyList s.dirty).Nodup := (dirtyList_sorted s.dirty).imp (fun hab => Nat.ne_of_lt hab)
  have h3 : dirtyList s.dirty ⊆ List.range (s.indexid + 1) := fun i hi => List.mem_range.2 (h1 i hi)
  simpa using h2.length_le_of_subset h3

theorem UserMods.bits {cfg : Option Mode} {u : Nat} {tr : List (NsEvent × Reply)} {br : Branches} {s : Store}
    {M : Nat → Prop} (h : UserMods cfg u tr br s M) : s.DW ∧ ∀ i, dirtyGet s.dirty i = true ↔ M i := by
  obtain ⟨br0, br1, s0, h0, h1, h2⟩ := h.run
  have h1' := h1
  rw [freshNs_eq] at h1
  injection h1 with e1 e2
  have hm : cfg.getD .user = .user := by rcases h.hcfg with h | h <;> rw [h] <;> rfl
  rw [hm] at e2
  subst e1; subst e2
  have hf := loadNs_dirty h1'
  have hlen := h.len
  exact UInv.modRun h.hcfg h2 (freshStore_uinv br0 u h0) h.ev (by
    unfold maxEvents at hlen
    constructor
    · simp [freshStore]; omega
    · simp [freshStore, totalData]; omega) hf.1 (fun i => by rw [hf.2 i]; simp)

theorem SeqMods.bits {cfg : Option Mode} {u : Nat} {tr : List (NsEvent × Reply)} {br : Branches} {s : Store}
    {M : Nat → Prop} (h : SeqMods cfg u tr br s M) : s.DW ∧ ∀ i, dirtyGet s.dirty i = true ↔ M i := by
  obtain ⟨br0, s0, h0, h2⟩ := h.run
  obtain ⟨hcfg, e⟩ := h0.fresh
  subst e
  have hf : (freshStore .seq).DW ∧ ∀ i, dirtyGet (freshStore .seq).dirty i = false :=
    loadNs_dirty (freshNs_eq (some .seq) br0 u)
  have hlen := h.len
  have hab : absSlots [[]] = [] := rfl
  exact SInv.modRun hcfg h2 freshStore_sinv h.ev (by rw [hab]; exact h.near) (by
    unfold maxEvents at hlen
    constructor
    · simp [freshStore]; omega
    · simp [freshStore, totalData]; omega) hf.1 (fun i => by rw [hf.2 i]; simp)

/-- C38, user-key mode.  INDEX DIRTY lists, in increasing order, exactly the index files in which bytes already
    written were changed by a command since the last reset; the bitmap was never accessed outside its bounds, and
    the list fits the array allocated for it (`indexid + 1` numbers).  Index writes succeed (`EvOK`). -/
theorem C38_user_partial {cfg : Option Mode} {u : Nat} {tr : List (NsEvent × Reply)} {br : Branches} {s : Store}
    {M : Nat → Prop} (h : UserMods cfg u tr br s M) (c : Ctx) (had : c.admin = true) {name w : Bytes} (hn : name ≠ [])
    (hw : strCaseEq w wordDirty = true) :
    Lists (dsCommand c br s .index [name, w]).2.2 M ∧ s.dirty.oob = false ∧
      (dirtyList s.dirty).length ≤ s.indexid + 1 := by
  have this := h.bits
  refine ⟨?_, this.1.oob, this.1.length⟩
  rw [cmdIndex_dirty c had br s hn hw]
  exact ⟨_, rfl, dirtyList_sorted _, fun i => by rw [mem_dirtyList]; exact this.2 i⟩

/-- C38, sequential mode, in the executions of `SeqRun`. -/
theorem C38_seq_partial {cfg : Option Mode} {u : Nat} {tr : List (NsEvent × Reply)} {br : Branches} {s : Store}
    {M : Nat → Prop} (h : SeqMods cfg u tr br s M) (c : Ctx) (had : c.admin = true) {name w : Bytes} (hn : name ≠ [])
    (hw : strCaseEq w wordDirty = true) :
    Lists (dsCommand c br s .index [name, w]).2.2 M ∧ s.dirty.oob = false ∧
      (dirtyList s.dirty).length ≤ s.indexid + 1 := by
  have this := h.bits
  refine ⟨?_, this.1.oob, this.1.length⟩
  rw [cmdIndex_dirty c had br s hn hw]
  exact ⟨_, rfl, dirtyList_sorted _, fun i => by rw [mem_dirtyList]; exact this.2 i⟩

/-- Every execution of a new namespace is covered. -/
theorem UserRun.mods {cfg : Option Mode} {u : Nat} {tr : List (NsEvent × Reply)} {br : Branches} {s : Store}
    (h : UserRun cfg u tr br s) : ∃ M, UserMods cfg u tr br s M := by
  obtain ⟨br0, br1, s0, h0, h1, h2⟩ := h.run
  obtain ⟨M, hM⟩ := h2.mods (fun _ => False)
  exact ⟨M, h.hcfg, ⟨br0, br1, s0, h0, h1, hM⟩, h.ev, h.len⟩

theorem SeqRun.mods {cfg : Option Mode} {u : Nat} {tr : List (NsEvent × Reply)} {br : Branches} {s : Store}
    (h : SeqRun cfg u tr br s) : ∃ M, SeqMods cfg u tr br s M := by
  obtain ⟨br1, s0, h0, h2⟩ := h.run
  obtain ⟨M, hM⟩ := h2.mods (fun _ => False)
  exact ⟨M, ⟨br1, s0, h0, hM⟩, h.ev, h.near, h.len⟩

/-! ### the buffer of the answer -/

theorem decBytes_length_le {n k : Nat} (hk : 0 < k) (h : n < 10 ^ k) : (decBytes n).length ≤ k := by
  unfold decBytes
  rw [List.length_map]
  exact (Nat.length_toDigits_le_iff (by decide) hk).2 h

theorem flatMap_length_le {L : List Nat} {f : Nat → Bytes} {b : Nat} (h : ∀ n ∈ L, (f n).length ≤ b) :
    (L.flatMap f).length ≤ b * L.length := by
  induction L with
  | nil => simp
  | cons a L ih =>
    have h1 := h a (List.mem_cons_self ..)
    have h2 := ih (fun n hn => h n (List.mem_cons_of_mem _ hn))
    simp only [List.flatMap_cons, List.length_append, List.length_cons, Nat.mul_add]
    omega

theorem flatMap_length_ge {L : List Nat} {f : Nat → Bytes} {b : Nat} (h : ∀ n ∈ L, b ≤ (f n).length) :
    b * L.length ≤ (L.flatMap f).length := by
  induction L with
  | nil => simp
  | cons a L ih =>
    have h1 := h a (List.mem_cons_self ..)
    have h2 := ih (fun n hn => h n (List.mem_cons_of_mem _ hn))
    simp only [List.flatMap_cons, List.length_append, List.length_cons, Nat.mul_add]
    omega

theorem dirtyText_fits {s : Store} (h : s.DW) (hs : s.indexid + 1 < 10 ^ 7) :
    (dirtyText (dirtyList s.dirty)).length + 1 ≤ dirtyBuffer (dirtyList s.dirty) := by
  have hl := h.length
  have h1 := decBytes_length_le (n := (dirtyList s.dirty).length) (k := 7) (by decide) (by omega)
  have h2 : ((dirtyList s.dirty).flatMap (fun n => 58 :: decBytes n ++ [13, 10])).length ≤ 10 * (dirtyList s.dirty).length := by
    refine flatMap_length_le (fun n hn => ?_)
    have h3 := h.bits n ((mem_dirtyList _ _).1 hn)
    have := decBytes_length_le (n := n) (k := 7) (by decide) (by omega)
    simp only [List.cons_append, List.length_cons, List.length_append, List.length_nil]
    omega
  unfold dirtyText dirtyBuffer
  generalize List.flatMap _ _ = X at h2 ⊢
  simp only [List.length_cons, List.length_append, List.length_nil]
  omega

/-- C38: the answer fits its buffer, final NUL included, if there are fewer than ten million index files. -/
theorem C38_fits_user_partial {cfg : Option Mode} {u : Nat} {tr : List (NsEvent × Reply)} {br : Branches} {s : Store}
    {M : Nat → Prop} (h : UserMods cfg u tr br s M) (hs : s.indexid + 1 < 10 ^ 7) (c : Ctx) (had : c.admin = true)
    {name w : Bytes} (hn : name ≠ []) (hw : strCaseEq w wordDirty = true) :
    ∃ L : List Nat, (dsCommand c br s .index [name, w]).2.2 = .arr (L.map (fun (i : Nat) => .int i)) ∧
      (dirtyText L).length + 1 ≤ dirtyBuffer L := by
  refine ⟨_, ?_, dirtyText_fits h.bits.1 hs⟩
  rw [cmdIndex_dirty c had br s hn hw]

theorem C38_fits_seq_partial {cfg : Option Mode} {u : Nat} {tr : List (NsEvent × Reply)} {br : Branches} {s : Store}
    {M : Nat → Prop} (h : SeqMods cfg u tr br s M) (hs : s.indexid + 1 < 10 ^ 7) (c : Ctx) (had : c.admin = true)
    {name w : Bytes} (hn : name ≠ []) (hw : strCaseEq w wordDirty = true) :
    ∃ L : List Nat, (dsCommand c br s .index [name, w]).2.2 = .arr (L.map (fun (i : Nat) => .int i)) ∧
      (dirtyText L).length + 1 ≤ dirtyBuffer L := by
  refine ⟨_, ?_, dirtyText_fits h.bits.1 hs⟩
  rw [cmdIndex_dirty c had br s hn hw]

theorem dirtyText_ge (a b : Nat) (ha : 10000000 ≤ a) :
    4 * a + 11 * b + 3 ≤ (dirtyText (List.range (a + b))).length := by
  have h1 : 4 * a ≤ ((List.range a).flatMap (fun n => 58 :: decBytes n ++ [13, 10])).length := by
    have := flatMap_length_ge (L := List.range a) (f := fun n => 58 :: decBytes n ++ [13, 10]) (b := 4) (fun n _ => by
      have : 0 < (decBytes n).length := by unfold decBytes; rw [List.length_map]; exact Nat.length_toDigits_pos
      simp only [List.cons_append, List.length_cons, List.length_append, List.length_nil]
      omega)
    rw [List.length_range] at this
    exact this
  have h2 : 11 * b ≤ (((List.range b).map (a + ·)).flatMap (fun n => 58 :: decBytes n ++ [13, 10])).length := by
    have := flatMap_length_ge (L := (List.range b).map (a + ·)) (f := fun n => 58 :: decBytes n ++ [13, 10]) (b := 11) (fun n hn => by
      have h8 : 8 ≤ (decBytes n).length := by
        rw [List.mem_map] at hn
        obtain ⟨m, -, rfl⟩ := hn
        apply Classical.byContradiction
        intro hlt
        have h7 : (Nat.toDigits 10 (a + m)).length ≤ 7 := by
          unfold decBytes at hlt
          rw [List.length_map] at hlt
          omega
        have := (Nat.length_toDigits_le_iff (by decide) (by decide)).1 h7
        omega
      simp only [List.cons_append, List.length_cons, List.length_append, List.length_nil]
      omega)
    rw [List.length_map, List.length_range] at this
    exact this
  unfold dirtyText
  rw [List.range_add, List.flatMap_append]
  generalize List.flatMap _ (List.range a) = X at h1 ⊢
  generalize List.flatMap _ _ = Y at h2 ⊢
  simp only [List.length_cons, List.length_append, List.length_nil]
  omega

/-- The estimate of ten bytes for each file is too small for numbers of eight digits: the answer listing the first `n`
    files, from 80 million on, is longer than its buffer.  (Such a namespace is not constructed here.) -/
theorem C38_reply_overflow (n : Nat) (hn : 80000000 ≤ n) : dirtyBuffer (List.range n) < (dirtyText (List.range n)).length := by
  obtain ⟨b, rfl⟩ : ∃ b, n = 10000000 + b := ⟨n - 10000000, by omega⟩
  have := dirtyText_ge 10000000 b (Nat.le_refl _)
  unfold dirtyBuffer
  rw [List.length_range]
  omega

/-! ### where the claim fails -/

/-- INDEX DIRTY. -/
def askDirty : Ctx × DsCmd × List Bytes := (exCtx, .index, [str "INDEX", wordDirty])

set_option maxRecDepth 100000 in
/-- Loading the namespace again forgets the list without a reset: an overwrite modified file 0, which is listed, and after a
    RELOAD it is not. -/
theorem C38_reload_refuted :
    let x := runCmds (fun _ => []) (freshStore .user)
      [(exCtx, .set, [str "SET", str "a", str "one"]), (exCtx, .set, [str "SET", str "a", str "two"]), askDirty]
    x.2.2 = [.bulk (str "a"), .bulk (str "a"), .arr [.int 0]] ∧
    ∃ br s, reloadNs (some .user) x.1 7 x.2.1 = .ok br s ∧ (runCmds br s [askDirty]).2.2 = [.arr []] :=
  ⟨rfl, _, _, rfl, rfl⟩

set_option maxRecDepth 100000 in
/-- A rewrite that reports an error after reaching the flag modifies the file without listing it. -/
theorem C38_fault_refuted :
    let s := (runCmds (fun _ => []) (freshStore .user) [(exCtx, .set, [str "SET", str "a", str "one"])])
    let t := runCmds s.1 s.2.1 [(flagFails 20, .del, [str "DEL", str "a"]), askDirty]
    t.2.2 = [.err "Cannot delete key (index)", .arr []] ∧ Modified s.2.1 t.2.1 0 :=
  ⟨rfl, _, _, rfl, rfl, by decide +kernel⟩

/-! ### examples -/

set_option maxRecDepth 100000 in
/-- Files 0 and 1 are modified, a reset, then file 1 only. -/
theorem exDirty : (runCmds (fun _ => []) (freshStore .user)
    [(exCtx, .set, [str "SET", str "a", str "one"]), askDirty, (exCtx, .nsjump, [str "NSJUMP"]),
     (exCtx, .set, [str "SET", str "a", str "two"]), askDirty,
     (exCtx, .set, [str "SET", str "a", str "three"]), askDirty,
     (exCtx, .index, [str "INDEX", str "dirty", str "reset"]), askDirty,
     (exCtx, .del, [str "DEL", str "a"]), askDirty]).2.2 =
    [.bulk (str "a"), .arr [], .ok, .bulk (str "a"), .arr [.int 0], .bulk (str "a"), .arr [.int 0, .int 1], .ok,
     .arr [], .ok, .arr [.int 1]] := rfl

/-- The hypotheses are met by the execution of the example of C01. -/
theorem exDirty_user : ∃ M, UserMods none 7 (traceOf (fun _ => []) (freshStore .user) exCmds)
    (runCmds (fun _ => []) (freshStore .user) exCmds).1 (runCmds (fun _ => []) (freshStore .user) exCmds).2.1 M :=
  exRun.mods

theorem exDirty_seq : ∃ M, SeqMods (some .seq) 7 (traceOf (fun _ => []) (freshStore .seq) exSeqCmds)
    (runCmds (fun _ => []) (freshStore .seq) exSeqCmds).1 (runCmds (fun _ => []) (freshStore .seq) exSeqCmds).2.1 M :=
  exSeqRun.mods

set_option maxRecDepth 100000 in
/-- There the overwrite and the deletion modified file 0. -/
theorem exDirty_seq_list : (dsCommand exCtx (runCmds (fun _ => []) (freshStore .seq) exSeqCmds).1
    (runCmds (fun _ => []) (freshStore .seq) exSeqCmds).2.1 .index [str "INDEX", wordDirty]).2.2 = .arr [.int 0] := rfl

end Zdb
