/-
Data files that are missing and brought back.
-/
import Verif.Lemmas.Backup
import Verif.Lemmas.LossGhost
import Verif.Spec.Missing
namespace Zdb.Missing

open Zdb.Backup (Waited Call Copies Faithful HStep)

/-- Each closed file is in the directory, or its copy is right. -/
structure Here (s : Store) (dir : Dir) (b : Copies) : Prop where
  closed : ∀ i, i < s.dataid → dir i = s.dfiles[i]? ∨ (dir i = none ∧ b.dat i = s.dfiles[i]?)
  beyond : ∀ i, s.dataid < i → dir i = none ∧ b.dat i = none

/-- What a request may do to the directory: files are brought back. -/
structure Keep (s : Store) (dir dir' : Dir) (b : Copies) : Prop where
  here : Here s dir' b
  keep : ∀ i, dir i = s.dfiles[i]? → dir' i = s.dfiles[i]?

theorem Here.refl {s : Store} {dir : Dir} {b : Copies} (h : Here s dir b) : Keep s dir dir b := ⟨h, fun _ h => h⟩

theorem Keep.trans {s : Store} {d1 d2 d3 : Dir} {b : Copies} (h : Keep s d1 d2 b) (h' : Keep s d2 d3 b) : Keep s d1 d3 b :=
  ⟨h'.here, fun i hi => h'.keep i (h.keep i hi)⟩

theorem bring_honest (b : Copies) : Honest b (bring b) := fun _ => Or.inl rfl

theorem grab_keep {s : Store} {dir : Dir} {b : Copies} (h : Here s dir b) (hs : InStep s) {sc : Script} (hsc : Honest b sc)
    (i : Nat) : ((grab sc s dir i).1 = s.dfiles[i]? ∨ (grab sc s dir i).1 = none) ∧ Keep s dir (grab sc s dir i).2 b := by
  have hd := hs.d
  unfold grab
  by_cases hi : s.dataid = i
  · rw [if_neg (by omega)]; exact ⟨Or.inl rfl, h.refl⟩
  rw [if_pos hi]
  unfold openId
  cases hdir : dir i with
  | some f =>
    dsimp only
    refine ⟨Or.inl ?_, h.refl⟩
    rcases Nat.lt_or_gt_of_ne hi with h1 | h1
    · rw [(h.beyond i h1).1] at hdir; cases hdir
    · rcases h.closed i h1 with h2 | ⟨h2, -⟩
      · rw [← h2, hdir]
      · rw [hdir] at h2; cases h2
  | none =>
    dsimp only
    have key : ∀ x, (x = none ∨ x = s.dfiles[i]?) → Keep s dir (fun j => if j = i then x else dir j) b := by
      intro x hx
      refine ⟨⟨fun j hj => ?_, fun j hj => ?_⟩, fun j hj => ?_⟩
      · by_cases hji : j = i
        · subst hji
          simp only [if_true]
          rcases hx with rfl | rfl
          · rcases h.closed j hj with h2 | ⟨-, h2⟩
            · left; rw [← h2, hdir]
            · exact Or.inr ⟨rfl, h2⟩
          · exact Or.inl rfl
        · simp only [if_neg hji]; exact h.closed j hj
      · have hnone : s.dfiles[j]? = none := List.getElem?_eq_none (by omega)
        by_cases hji : j = i
        · subst hji
          simp only [if_true]
          refine ⟨?_, (h.beyond j hj).2⟩
          rcases hx with rfl | rfl
          · rfl
          · exact hnone
        · simp only [if_neg hji]; exact h.beyond j hj
      · by_cases hji : j = i
        · subst hji
          simp only [if_true]
          rcases hx with rfl | rfl
          · rw [← hj, hdir]
          · rfl
        · simp only [if_neg hji]; exact hj
    rcases hsc i with h1 | ⟨code, h1, h2⟩
    · rw [h1]
      unfold bring
      rcases Nat.lt_or_gt_of_ne hi with hlt | hlt
      · rw [(h.beyond i hlt).2]
        exact ⟨Or.inr rfl, key _ (Or.inl rfl)⟩
      · have h3 : b.dat i = s.dfiles[i]? := by
          rcases h.closed i hlt with h2 | ⟨-, h2⟩
          · rw [hdir] at h2
            have := List.getElem?_eq_getElem (l := s.dfiles) (i := i) (by omega)
            rw [this] at h2; cases h2
          · exact h2
        cases hb : b.dat i with
        | none => exact ⟨Or.inr rfl, key _ (Or.inl rfl)⟩
        | some f =>
          rw [hb] at h3
          exact ⟨Or.inl h3, key _ (Or.inr h3)⟩
    · rw [h2]
      have h3 : (Waited.exited code).status ≠ 0 := h1
      dsimp only
      rw [if_pos h3]
      exact ⟨Or.inr rfl, key _ (Or.inl rfl)⟩

theorem grab_bring {s : Store} {dir : Dir} {b : Copies} (h : Here s dir b) (hs : InStep s) (i : Nat) :
    (grab (bring b) s dir i).1 = s.dfiles[i]? := by
  have hd := hs.d
  unfold grab
  by_cases hi : s.dataid = i
  · rw [if_neg (by omega)]
  rw [if_pos hi]
  unfold openId
  rcases Nat.lt_or_gt_of_ne hi with h1 | h1
  · obtain ⟨h2, h3⟩ := h.beyond i h1
    have hnone : s.dfiles[i]? = none := List.getElem?_eq_none (by omega)
    rw [h2, hnone]
    simp only [bring, h3]
    rfl
  · have hsome := List.getElem?_eq_getElem (l := s.dfiles) (i := i) (by omega)
    rcases h.closed i h1 with h2 | ⟨h2, h3⟩
    · rw [h2, hsome]
    · rw [h2]
      rw [hsome] at h3 ⊢
      simp only [bring, h3]
      rfl

/-! ### reading -/

theorem dataGet_eq (s : Store) (off len i idl : Nat) :
    Zdb.dataGet s off len i idl = (s.dfiles[i]?).bind (getReal · off len idl) := by
  unfold Zdb.dataGet getReal
  cases s.dfiles[i]? <;> rfl

theorem dataCheck_eq (s : Store) (off i : Nat) :
    Zdb.dataCheck s off i = match s.dfiles[i]? with | none => -1 | some f => checkReal f off := by
  unfold Zdb.dataCheck checkReal
  cases s.dfiles[i]? <;> rfl

theorem dataRaw_eq (s : Store) (i : Nat) (off : Int) :
    Zdb.dataRaw s i off = match s.dfiles[i]? with | none => .zero | some f => rawReal f off := by
  unfold Zdb.dataRaw rawReal
  cases s.dfiles[i]? <;> rfl

variable {s : Store} {dir : Dir} {b : Copies} {sc : Script}

theorem dataGet_keep (h : Here s dir b) (hs : InStep s) (hsc : Honest b sc) (off len i idl : Nat) :
    ((dataGet sc s dir off len i idl).1 = Zdb.dataGet s off len i idl ∨ (dataGet sc s dir off len i idl).1 = none) ∧
    Keep s dir (dataGet sc s dir off len i idl).2 b := by
  obtain ⟨h1, h2⟩ := grab_keep h hs hsc i
  refine ⟨?_, h2⟩
  rw [dataGet_eq]
  show ((grab sc s dir i).1.bind _ = _) ∨ ((grab sc s dir i).1.bind _ = _)
  rcases h1 with h1 | h1
  · left; rw [h1]
  · right; rw [h1]; rfl

theorem dataGet_bring (h : Here s dir b) (hs : InStep s) (off len i idl : Nat) :
    (dataGet (bring b) s dir off len i idl).1 = Zdb.dataGet s off len i idl := by
  rw [dataGet_eq]
  show (grab (bring b) s dir i).1.bind _ = _
  rw [grab_bring h hs]

theorem dataCheck_keep (h : Here s dir b) (hs : InStep s) (hsc : Honest b sc) (off i : Nat) :
    ((dataCheck sc s dir off i).1 = Zdb.dataCheck s off i ∨ (dataCheck sc s dir off i).1 = -1) ∧
    Keep s dir (dataCheck sc s dir off i).2 b := by
  obtain ⟨h1, h2⟩ := grab_keep h hs hsc i
  rw [dataCheck_eq]
  unfold dataCheck
  generalize grab sc s dir i = x at h1 h2
  obtain ⟨f, d⟩ := x
  rcases h1 with h1 | h1
  · dsimp only at h1; subst h1
    cases s.dfiles[i]? <;> exact ⟨Or.inl rfl, h2⟩
  · dsimp only at h1; subst h1; exact ⟨Or.inr rfl, h2⟩

theorem dataCheck_bring (h : Here s dir b) (hs : InStep s) (off i : Nat) :
    (dataCheck (bring b) s dir off i).1 = Zdb.dataCheck s off i := by
  have h1 := grab_bring h hs i
  rw [dataCheck_eq]
  unfold dataCheck
  generalize grab (bring b) s dir i = x at h1
  obtain ⟨f, d⟩ := x
  dsimp only at h1; subst h1
  cases s.dfiles[i]? <;> rfl

theorem dataRaw_keep (h : Here s dir b) (hs : InStep s) (hsc : Honest b sc) (i : Nat) (off : Int) :
    ((dataRaw sc s dir i off).1 = Zdb.dataRaw s i off ∨ (dataRaw sc s dir i off).1 = .zero) ∧
    Keep s dir (dataRaw sc s dir i off).2 b := by
  obtain ⟨h1, h2⟩ := grab_keep h hs hsc i
  rw [dataRaw_eq]
  unfold dataRaw
  generalize grab sc s dir i = x at h1 h2
  obtain ⟨f, d⟩ := x
  rcases h1 with h1 | h1
  · dsimp only at h1; subst h1
    cases s.dfiles[i]? <;> exact ⟨Or.inl rfl, h2⟩
  · dsimp only at h1; subst h1; exact ⟨Or.inr rfl, h2⟩

theorem dataRaw_bring (h : Here s dir b) (hs : InStep s) (i : Nat) (off : Int) :
    (dataRaw (bring b) s dir i off).1 = Zdb.dataRaw s i off := by
  have h1 := grab_bring h hs i
  rw [dataRaw_eq]
  unfold dataRaw
  generalize grab (bring b) s dir i = x at h1
  obtain ⟨f, d⟩ := x
  dsimp only at h1; subst h1
  cases s.dfiles[i]? <;> rfl

/-! ### requests that read -/

theorem getSingle_keep (h : Here s dir b) (hs : InStep s) (hsc : Honest b sc) (c : Ctx) (br : Branches) (k : Bytes) :
    ((getSingle sc c br s dir k).1 = Zdb.getSingle c br s k ∨ (getSingle sc c br s dir k).1 = .err "Internal Error") ∧
    Keep s dir (getSingle sc c br s dir k).2 b := by
  unfold getSingle Zdb.getSingle
  cases indexGet br s c.u k with
  | none => exact ⟨Or.inl rfl, h.refl⟩
  | some e =>
    dsimp only
    obtain ⟨h1, h2⟩ := dataGet_keep h hs hsc e.offset e.length e.dataid e.id.length
    generalize dataGet sc s dir e.offset e.length e.dataid e.id.length = x at h1 h2
    obtain ⟨f, d⟩ := x
    rcases h1 with h1 | h1
    · dsimp only at h1; subst h1
      cases Zdb.dataGet s e.offset e.length e.dataid e.id.length <;> exact ⟨Or.inl rfl, h2⟩
    · dsimp only at h1; subst h1; exact ⟨Or.inr rfl, h2⟩

theorem getSingle_bring (h : Here s dir b) (hs : InStep s) (c : Ctx) (br : Branches) (k : Bytes) :
    (getSingle (bring b) c br s dir k).1 = Zdb.getSingle c br s k := by
  unfold getSingle Zdb.getSingle
  cases indexGet br s c.u k with
  | none => rfl
  | some e =>
    dsimp only
    have h1 := dataGet_bring h hs e.offset e.length e.dataid e.id.length
    generalize dataGet (bring b) s dir e.offset e.length e.dataid e.id.length = x at h1
    obtain ⟨f, d⟩ := x
    dsimp only at h1; subst h1
    cases Zdb.dataGet s e.offset e.length e.dataid e.id.length <;> rfl

theorem readChecks_cases (c : Ctx) (argv : List Bytes) (dir : Dir) (k : Bytes → Reply × Dir) (k' : Bytes → Reply) :
    (∃ r, readChecks c argv dir k = (r, dir) ∧ Zdb.readChecks c argv k' = r) ∨
    ∃ key, readChecks c argv dir k = k key ∧ Zdb.readChecks c argv k' = k' key := by
  unfold readChecks Zdb.readChecks
  cases argsValidate argv 2 with
  | some e => exact Or.inl ⟨_, rfl, rfl⟩
  | none =>
    dsimp only
    match argv with
    | [_, key] =>
      dsimp only
      by_cases h1 : key.length > 255
      · rw [if_pos h1, if_pos h1]; exact Or.inl ⟨_, rfl, rfl⟩
      rw [if_neg h1, if_neg h1]
      by_cases h2 : c.conf.isFrozen = true
      · rw [if_pos h2, if_pos h2]; exact Or.inl ⟨_, rfl, rfl⟩
      rw [if_neg h2, if_neg h2]; exact Or.inr ⟨_, rfl, rfl⟩
    | [] => exact Or.inl ⟨_, rfl, rfl⟩
    | [_] => exact Or.inl ⟨_, rfl, rfl⟩
    | _ :: _ :: _ :: _ => exact Or.inl ⟨_, rfl, rfl⟩

theorem mgetLoop_keep (hs : InStep s) (hsc : Honest b sc) (c : Ctx) (br : Branches) (ks : List Bytes) :
    ∀ dir, Here s dir b → (mgetLoop sc c br s dir ks).1.length = ks.length ∧
      (∀ i : Nat, (mgetLoop sc c br s dir ks).1[i]? = (ks.map (Zdb.getSingle c br s))[i]? ∨
        (mgetLoop sc c br s dir ks).1[i]? = some (.err "Internal Error")) ∧
      Keep s dir (mgetLoop sc c br s dir ks).2 b := by
  induction ks with
  | nil => intro dir h; exact ⟨rfl, fun i => Or.inl rfl, h.refl⟩
  | cons k ks ih =>
    intro dir h
    obtain ⟨h1, h2⟩ := getSingle_keep h hs hsc c br k
    obtain ⟨i1, i2, i3⟩ := ih _ h2.here
    refine ⟨congrArg (· + 1) i1, fun i => ?_, h2.trans i3⟩
    cases i with
    | zero =>
      rcases h1 with h1 | h1
      · left; exact congrArg some h1
      · right; exact congrArg some h1
    | succ i => exact i2 i

theorem mgetLoop_bring (hs : InStep s) (c : Ctx) (br : Branches) (ks : List Bytes) :
    ∀ dir, Here s dir b → (mgetLoop (bring b) c br s dir ks).1 = ks.map (Zdb.getSingle c br s) := by
  induction ks with
  | nil => intro dir h; rfl
  | cons k ks ih =>
    intro dir h
    have h2 := (getSingle_keep h hs (bring_honest b) c br k).2
    show (getSingle (bring b) c br s dir k).1 :: (mgetLoop (bring b) c br s (getSingle (bring b) c br s dir k).2 ks).1 = _
    rw [getSingle_bring h hs, ih _ h2.here]
    rfl

theorem cmdData_cases (c : Ctx) (s : Store) (dir : Dir) (sc : Script) (argv : List Bytes) :
    (∃ r, cmdData sc c s dir argv = (r, dir) ∧ Zdb.cmdData c s argv = r) ∨
    ∃ i off, cmdData sc c s dir argv = (rawReply (dataRaw sc s dir i off).1, (dataRaw sc s dir i off).2) ∧
      Zdb.cmdData c s argv = rawReply (Zdb.dataRaw s i off) := by
  unfold cmdData Zdb.cmdData subcommand
  by_cases h1 : (!c.admin) = true
  · rw [if_pos h1, if_pos h1]; exact Or.inl ⟨_, rfl, rfl⟩
  rw [if_neg h1, if_neg h1]
  cases argsValidateMin argv 2 with
  | some e => exact Or.inl ⟨_, rfl, rfl⟩
  | none =>
    dsimp only
    match argv with
    | _ :: sub :: rest =>
      dsimp only
      unfold maxlenArg
      by_cases h2 : sub.length > 256
      · rw [if_pos h2, if_pos h2]; exact Or.inl ⟨_, rfl, rfl⟩
      rw [if_neg h2, if_neg h2]
      by_cases h3 : (cstr sub).length = 256
      · rw [if_pos h3, if_pos h3]; exact Or.inl ⟨_, rfl, rfl⟩
      rw [if_neg h3, if_neg h3]
      dsimp only
      by_cases h4 : strCaseEq (cstr sub) wordRaw = true
      · rw [if_pos h4, if_pos h4]
        generalize argsValidateMin (_ :: sub :: rest) 4 = o
        cases o with
        | some e => exact Or.inl ⟨_, rfl, rfl⟩
        | none =>
          dsimp only
          match rest with
          | file :: off :: _ =>
            refine Or.inr ⟨_, _, rfl, ?_⟩
            dsimp only
            unfold rawReply
            cases Zdb.dataRaw s (atoll (cstr file) % 2 ^ 32).toNat (atoll (cstr off)) <;> rfl
          | [] => exact Or.inl ⟨_, rfl, rfl⟩
          | [_] => exact Or.inl ⟨_, rfl, rfl⟩
      · rw [if_neg h4, if_neg h4]; exact Or.inl ⟨_, rfl, rfl⟩
    | [] => exact Or.inl ⟨_, rfl, rfl⟩
    | [_] => exact Or.inl ⟨_, rfl, rfl⟩

/-- A request that reads gives the right reply, or says that it cannot. -/
theorem read_keep (h : Here s dir b) (hs : InStep s) (hsc : Honest b sc) (w : Waited) (c : Ctx) (br : Branches) (d : DsCmd)
    (hd : d.changes = false) (argv : List Bytes) :
    ∃ r dir', command sc w c br s dir d argv = (((br, s, r), []), dir') ∧
      Excused d (dsCommand c br s d argv).2.2 r ∧ Keep s dir dir' b := by
  cases d with
  | set => cases hd
  | del => cases hd
  | nsjump => cases hd
  | index => cases hd
  | get =>
    refine ⟨(cmdGet sc c br s dir argv).1, (cmdGet sc c br s dir argv).2, rfl, ?_⟩
    show ((cmdGet sc c br s dir argv).1 = Zdb.cmdGet c br s argv ∨ _) ∧ _
    unfold cmdGet Zdb.cmdGet
    rcases readChecks_cases c argv dir (getSingle sc c br s dir) (Zdb.getSingle c br s) with ⟨r, h1, h2⟩ | ⟨k, h1, h2⟩
    · rw [h1, h2]; exact ⟨Or.inl rfl, h.refl⟩
    · rw [h1, h2]; exact getSingle_keep h hs hsc c br k
  | check =>
    refine ⟨(cmdCheck sc c br s dir argv).1, (cmdCheck sc c br s dir argv).2, rfl, ?_⟩
    show ((cmdCheck sc c br s dir argv).1 = Zdb.cmdCheck c br s argv ∨ _) ∧ _
    unfold cmdCheck Zdb.cmdCheck
    rcases readChecks_cases c argv dir _ _ with ⟨r, h1, h2⟩ | ⟨k, h1, h2⟩
    · rw [h1, h2]; exact ⟨Or.inl rfl, h.refl⟩
    · rw [h1, h2]
      cases indexGet br s c.u k with
      | none => exact ⟨Or.inl rfl, h.refl⟩
      | some e =>
        obtain ⟨h3, h4⟩ := dataCheck_keep h hs hsc e.offset e.dataid
        exact ⟨h3.imp (congrArg Reply.int) (congrArg Reply.int), h4⟩
  | data =>
    refine ⟨(cmdData sc c s dir argv).1, (cmdData sc c s dir argv).2, rfl, ?_⟩
    show ((cmdData sc c s dir argv).1 = Zdb.cmdData c s argv ∨ _) ∧ _
    rcases cmdData_cases c s dir sc argv with ⟨r, h1, h2⟩ | ⟨i, off, h1, h2⟩
    · rw [h1, h2]; exact ⟨Or.inl rfl, h.refl⟩
    · rw [h1, h2]
      obtain ⟨h3, h4⟩ := dataRaw_keep h hs hsc i off
      exact ⟨h3.imp (congrArg rawReply) (congrArg rawReply), h4⟩
  | mget =>
    refine ⟨(cmdMget sc c br s dir argv).1, (cmdMget sc c br s dir argv).2, rfl, ?_⟩
    show ((cmdMget sc c br s dir argv).1 = Zdb.cmdMget c br s argv ∨ _) ∧ _
    unfold cmdMget Zdb.cmdMget
    match argv with
    | a :: k :: ks =>
      dsimp only
      by_cases h1 : (k :: ks).any (fun k => decide (k.length > 255)) = true
      · rw [if_pos h1, if_pos h1]; exact ⟨Or.inl rfl, h.refl⟩
      rw [if_neg h1, if_neg h1]
      by_cases h2 : c.conf.isFrozen = true
      · rw [if_pos h2, if_pos h2]; exact ⟨Or.inl rfl, h.refl⟩
      rw [if_neg h2, if_neg h2]
      obtain ⟨i1, i2, i3⟩ := mgetLoop_keep hs hsc c br (k :: ks) dir h
      refine ⟨Or.inr ⟨_, _, ?_, rfl, by rw [i1, List.length_map], i2⟩, i3⟩
      show Zdb.cmdMget c br s (a :: k :: ks) = _
      unfold Zdb.cmdMget
      dsimp only
      rw [if_neg h1, if_neg h2]
    | [] => exact ⟨Or.inl rfl, h.refl⟩
    | [_] => exact ⟨Or.inl rfl, h.refl⟩
  | _ => exact ⟨_, _, rfl, rfl, h.refl⟩

theorem read_bring (h : Here s dir b) (hs : InStep s) (w : Waited) (c : Ctx) (br : Branches) (d : DsCmd)
    (hd : d.changes = false) (argv : List Bytes) :
    (command (bring b) w c br s dir d argv).1 = Backup.command w c br s d argv := by
  cases d with
  | set => cases hd
  | del => cases hd
  | nsjump => cases hd
  | index => cases hd
  | get =>
    show (((br, s, (cmdGet (bring b) c br s dir argv).1), []) : (Branches × Store × Reply) × List Call) =
      ((br, s, Zdb.cmdGet c br s argv), [])
    unfold cmdGet Zdb.cmdGet
    rcases readChecks_cases c argv dir (getSingle (bring b) c br s dir) (Zdb.getSingle c br s) with ⟨r, h1, h2⟩ | ⟨k, h1, h2⟩
    · rw [h1, h2]
    · rw [h1, h2, getSingle_bring h hs]
  | check =>
    show (((br, s, (cmdCheck (bring b) c br s dir argv).1), []) : (Branches × Store × Reply) × List Call) =
      ((br, s, Zdb.cmdCheck c br s argv), [])
    unfold cmdCheck Zdb.cmdCheck
    rcases readChecks_cases c argv dir _ _ with ⟨r, h1, h2⟩ | ⟨k, h1, h2⟩
    · rw [h1, h2]
    · rw [h1, h2]
      cases indexGet br s c.u k with
      | none => rfl
      | some e =>
        dsimp only
        rw [dataCheck_bring h hs]
  | data =>
    show (((br, s, (cmdData (bring b) c s dir argv).1), []) : (Branches × Store × Reply) × List Call) =
      ((br, s, Zdb.cmdData c s argv), [])
    rcases cmdData_cases c s dir (bring b) argv with ⟨r, h1, h2⟩ | ⟨i, off, h1, h2⟩
    · rw [h1, h2]
    · rw [h1, h2, dataRaw_bring h hs]
  | mget =>
    show (((br, s, (cmdMget (bring b) c br s dir argv).1), []) : (Branches × Store × Reply) × List Call) =
      ((br, s, Zdb.cmdMget c br s argv), [])
    unfold cmdMget Zdb.cmdMget
    match argv with
    | _ :: k :: ks =>
      dsimp only
      by_cases h1 : (k :: ks).any (fun k => decide (k.length > 255)) = true
      · rw [if_pos h1, if_pos h1]
      rw [if_neg h1, if_neg h1]
      by_cases h2 : c.conf.isFrozen = true
      · rw [if_pos h2, if_pos h2]
      rw [if_neg h2, if_neg h2]
      rw [mgetLoop_bring hs c br (k :: ks) dir h]
    | [] => rfl
    | [_] => rfl
  | _ => rfl

/-! ### SET -/

theorem upToDate_keep (h : Here s dir b) (hs : InStep s) (ex : Option Entry) (p : Bytes) :
    (upToDate (bring b) s dir ex p).1 = Zdb.upToDate s ex p ∧ Keep s dir (upToDate (bring b) s dir ex p).2 b := by
  unfold upToDate Zdb.upToDate
  cases ex with
  | none => exact ⟨rfl, h.refl⟩
  | some e =>
    dsimp only
    cases e.crc == crc32 p with
    | false => exact ⟨rfl, h.refl⟩
    | true =>
      simp only [if_true, Bool.true_and]
      unfold compareMatching Zdb.compareMatching
      by_cases h1 : e.length ≠ p.length % 2 ^ 32
      · rw [if_pos h1, if_pos h1]; exact ⟨rfl, h.refl⟩
      rw [if_neg h1, if_neg h1]
      have h2 := dataGet_bring h hs e.offset e.length e.dataid e.id.length
      have h3 := (dataGet_keep h hs (bring_honest b) e.offset e.length e.dataid e.id.length).2
      generalize dataGet (bring b) s dir e.offset e.length e.dataid e.id.length = x at h2 h3
      obtain ⟨f, d⟩ := x
      dsimp only at h2; subst h2
      cases Zdb.dataGet s e.offset e.length e.dataid e.id.length <;> exact ⟨rfl, h3⟩

theorem setUser_keep (h : Here s dir b) (hs : InStep s) (c : Ctx) (br : Branches) (id p : Bytes) (ts : Nat)
    (ex : Option Entry) :
    (setHandlerUser (bring b) c br s dir id p ts ex).1 = Zdb.setHandlerUser c br s id p ts ex ∧
    Keep s dir (setHandlerUser (bring b) c br s dir id p ts ex).2 b := by
  obtain ⟨h1, h2⟩ := upToDate_keep h hs ex p
  unfold setHandlerUser Zdb.setHandlerUser
  by_cases h0 : id.length = 0
  · rw [if_pos h0, if_pos h0]; exact ⟨rfl, h.refl⟩
  rw [if_neg h0, if_neg h0]
  generalize upToDate (bring b) s dir ex p = x at h1 h2
  obtain ⟨f, d⟩ := x
  dsimp only at h1; subst h1
  cases Zdb.upToDate s ex p <;> exact ⟨rfl, h2⟩

theorem setSeq_keep (h : Here s dir b) (hs : InStep s) (c : Ctx) (br : Branches) (id p : Bytes) (ts : Nat)
    (ex : Option Entry) :
    (setHandlerSeq (bring b) c br s dir id p ts ex).1 = Zdb.setHandlerSeq c br s id p ts ex ∧
    Keep s dir (setHandlerSeq (bring b) c br s dir id p ts ex).2 b := by
  obtain ⟨h1, h2⟩ := upToDate_keep h hs ex p
  unfold setHandlerSeq Zdb.setHandlerSeq
  by_cases h0 : id.length ≠ 0 ∧ ex.isNone
  · rw [if_pos h0, if_pos h0]; exact ⟨rfl, h.refl⟩
  rw [if_neg h0, if_neg h0]
  generalize upToDate (bring b) s dir ex p = x at h1 h2
  obtain ⟨f, d⟩ := x
  dsimp only at h1; subst h1
  dsimp only
  cases Zdb.upToDate s ex p <;> exact ⟨rfl, h2⟩

theorem jump_files {w : Waited} (hs : InStep s) (hcap : s.indexid + 1 < 2 ^ 32) :
    InStep (Backup.jump w s).1 ∧
    (∀ (i : Nat) (f : Bytes), s.dfiles[i]? = some f → (Backup.jump w s).1.dfiles[i]? = some f) ∧
    (Backup.jump w s).1.dataid = s.dataid + 1 := by
  obtain ⟨k1, k2, k3, k4⟩ := Backup.jump_keeps hs hcap
  have hj := (jump_ext hs hcap).step
  unfold Backup.jump
  dsimp only
  split
  · exact ⟨⟨hj.d, hj.i, hj.same⟩, k2, k4⟩
  · exact ⟨hj, k2, k4⟩

theorem jumpIfFull_dataid {w : Waited} {limit len : Nat} (hs : InStep s) (hcap : s.indexid + 1 < 2 ^ 32) :
    InStep (Backup.jumpIfFull w limit s len).1 ∧
    (∀ (i : Nat) (f : Bytes), s.dfiles[i]? = some f → (Backup.jumpIfFull w limit s len).1.dfiles[i]? = some f) ∧
    (((Backup.jumpIfFull w limit s len).1.dataid = s.dataid ∧ (Backup.jumpIfFull w limit s len).2 = []) ∨
      ((Backup.jumpIfFull w limit s len).1.dataid = s.dataid + 1 ∧
        (Backup.jumpIfFull w limit s len).2 = (Backup.jump w s).2)) := by
  unfold Backup.jumpIfFull
  split
  · obtain ⟨k1, k2, k3⟩ := jump_files (w := w) hs hcap
    exact ⟨k1, k2, Or.inr ⟨k3, rfl⟩⟩
  · exact ⟨hs, fun _ _ h => h, Or.inl ⟨rfl, rfl⟩⟩

/-- The directory is right after a change of files. -/
theorem Here.jumped {t : Store} (h : Here s dir b) (hs : InStep s)
    (hk : ∀ (i : Nat) (f : Bytes), s.dfiles[i]? = some f → t.dfiles[i]? = some f)
    (hid : t.dataid = s.dataid ∨ t.dataid = s.dataid + 1) : Here t (jumped s t dir) b := by
  have hd := hs.d
  have hk' : ∀ i, i ≤ s.dataid → t.dfiles[i]? = s.dfiles[i]? := fun i hi => by
    have := List.getElem?_eq_getElem (l := s.dfiles) (i := i) (by omega)
    rw [this, hk i _ this]
  unfold Missing.jumped
  rcases hid with e | e
  · rw [if_pos e]
    refine ⟨fun i hi => ?_, fun i hi => h.beyond i (by omega)⟩
    rw [hk' i (by omega)]
    exact h.closed i (by omega)
  · rw [if_neg (by omega)]
    refine ⟨fun i hi => ?_, fun i hi => ?_⟩
    · rw [hk' i (by omega)]
      by_cases hi' : i = s.dataid
      · rw [if_pos hi']; exact Or.inl rfl
      · rw [if_neg hi']; exact h.closed i (by omega)
    · rw [if_neg (by omega)]; exact h.beyond i (by omega)

/-- All that holds of the directory between two requests. -/
structure Right (s : Store) (dir : Dir) (b : Copies) : Prop extends Here s dir b where
  todo : ∀ i ∈ b.todo, i < s.dataid → dir i = s.dfiles[i]?

/-- What a request does to the directory. -/
structure Dirs (w : Waited) (s : Store) (dir dir' : Dir) (b : Copies) (L : List Call) (t : Store) : Prop where
  keeps : ∀ (i : Nat) (f : Bytes), s.dfiles[i]? = some f → t.dfiles[i]? = some f
  calls : (t.dataid = s.dataid ∧ L = []) ∨ (t.dataid = s.dataid + 1 ∧ L = (Backup.jump w s).2)
  keep : Keep t (jumped s t dir) dir' b

theorem Dirs.same {w : Waited} {dir' : Dir} (h : Keep s dir dir' b) : Dirs w s dir dir' b [] s :=
  ⟨fun _ _ h => h, Or.inl ⟨rfl, rfl⟩, by unfold jumped; rw [if_pos rfl]; exact h⟩

theorem cmdSet_body_right (h : Here s dir b) (hs : InStep s) (hcap : s.indexid + 1 < 2 ^ 32) (w : Waited) (c : Ctx)
    (br : Branches) (argv : List Bytes) (k p : Bytes) :
    (cmdSet.body (bring b) w c br s dir argv k p).1 = Backup.cmdSet.body w c br s argv k p ∧
    ∃ t, Dirs w s dir (cmdSet.body (bring b) w c br s dir argv k p).2 b (Backup.cmdSet.body w c br s argv k p).2 t := by
  unfold cmdSet.body Backup.cmdSet.body
  by_cases h1 : k.length > 255
  · simp only [if_pos h1]; exact ⟨trivial, s, Dirs.same h.refl⟩
  simp only [if_neg h1]
  by_cases h2 : (!c.writable) = true
  · simp only [if_pos h2]; exact ⟨trivial, s, Dirs.same h.refl⟩
  simp only [if_neg h2]
  by_cases h3 : c.conf.isFrozen = true
  · simp only [if_pos h3]; exact ⟨trivial, s, Dirs.same h.refl⟩
  simp only [if_neg h3]
  by_cases h4 : c.conf.isLocked = true
  · simp only [if_pos h4]; exact ⟨trivial, s, Dirs.same h.refl⟩
  simp only [if_neg h4]
  generalize (if k.length ≠ 0 then indexGet br s c.u k else none) = ex
  by_cases h5 : (ex.isSome && c.conf.worm) = true
  · simp only [if_pos h5]; exact ⟨trivial, s, Dirs.same h.refl⟩
  simp only [if_neg h5]
  by_cases h6 : overQuota c.conf s.datasize p.length (floatingOf ex) = true
  · simp only [if_pos h6]; exact ⟨trivial, s, Dirs.same h.refl⟩
  simp only [if_neg h6]
  obtain ⟨j1, j2, j3⟩ := jumpIfFull_dataid (w := w) (limit := c.limit) (len := p.length) hs hcap
  generalize Backup.jumpIfFull w c.limit s p.length = x at j1 j2 j3
  obtain ⟨t, L⟩ := x
  dsimp only at j1 j2 j3
  have hh : Here t (jumped s t dir) b := h.jumped hs j2 (j3.imp And.left And.left)
  cases s.mode with
  | user =>
    obtain ⟨k1, k2⟩ := setUser_keep hh j1 c br k p (timestampFromSet c.now argv 3) ex
    exact ⟨by dsimp only; rw [← k1], t, j2, by cases hm : s.mode <;> exact j3, k2⟩
  | seq =>
    obtain ⟨k1, k2⟩ := setSeq_keep hh j1 c br k p (timestampFromSet c.now argv 3) ex
    exact ⟨by dsimp only; rw [← k1], t, j2, j3, k2⟩

theorem command_dirs (h : Here s dir b) (hs : InStep s) (hcap : s.indexid + 1 < 2 ^ 32) (w : Waited) (c : Ctx)
    (br : Branches) (d : DsCmd) (argv : List Bytes) :
    (command (bring b) w c br s dir d argv).1 = Backup.command w c br s d argv ∧
    ∃ t, Dirs w s dir (command (bring b) w c br s dir d argv).2 b (Backup.command w c br s d argv).2 t := by
  have read : d.changes = false → (command (bring b) w c br s dir d argv).1 = Backup.command w c br s d argv ∧
    ∃ t, Dirs w s dir (command (bring b) w c br s dir d argv).2 b (Backup.command w c br s d argv).2 t := by
    intro hd
    have h1 := read_bring h hs w c br d hd argv
    obtain ⟨r, dir', h2, -, h3⟩ := read_keep h hs (bring_honest b) w c br d hd argv
    refine ⟨h1, s, ?_⟩
    rw [← h1, h2]
    exact Dirs.same h3
  cases d with
  | set =>
    show (cmdSet (bring b) w c br s dir argv).1 = Backup.cmdSet w c br s argv ∧
      ∃ t, Dirs w s dir (cmdSet (bring b) w c br s dir argv).2 b (Backup.cmdSet w c br s argv).2 t
    match argv with
    | [a, k, p] => exact cmdSet_body_right h hs hcap w c br [a, k, p] k p
    | [a, k, p, t] =>
      unfold cmdSet Backup.cmdSet
      dsimp only
      by_cases had : c.admin = true
      · rw [if_pos had, if_pos had]; exact cmdSet_body_right h hs hcap w c br [a, k, p, t] k p
      · rw [if_neg had, if_neg had]; exact ⟨rfl, s, Dirs.same h.refl⟩
    | [] => exact ⟨rfl, s, Dirs.same h.refl⟩
    | [_] => exact ⟨rfl, s, Dirs.same h.refl⟩
    | [_, _] => exact ⟨rfl, s, Dirs.same h.refl⟩
    | _ :: _ :: _ :: _ :: _ :: _ => exact ⟨rfl, s, Dirs.same h.refl⟩
  | nsjump =>
    refine ⟨rfl, (Backup.cmdNsjump w c br s).1.2.1, ?_⟩
    show Dirs w s dir (jumped s (Backup.cmdNsjump w c br s).1.2.1 dir) b (Backup.cmdNsjump w c br s).2 _
    unfold Backup.cmdNsjump
    by_cases had : c.admin = true
    · simp only [if_pos had]
      obtain ⟨k1, k2, k3⟩ := jump_files (w := w) hs hcap
      exact ⟨k2, Or.inr ⟨k3, rfl⟩, (h.jumped hs k2 (Or.inr k3)).refl⟩
    · simp only [if_neg had]
      exact ⟨fun _ _ h => h, Or.inl ⟨rfl, rfl⟩, by unfold jumped; rw [if_pos rfl]; exact h.refl⟩
  | del => exact ⟨rfl, s, Dirs.same h.refl⟩
  | index => exact ⟨rfl, s, Dirs.same h.refl⟩
  | _ => exact read rfl

theorem Right.step {w : Waited} {v t : Store} {dir' : Dir} {L : List Call} {part : List Nat} (h : Right s dir b)
    (hs : InStep s) (hv : InStep v) (hd : Dirs w s dir dir' b L t) (hst : HStep w s v L) :
    Right v dir' (L.foldl (Copies.hear w part) b) := by
  have hl := hs.d
  have hvt : v.dataid = t.dataid ∧ v.dataid ≤ s.dataid + 1 := by
    rcases hd.calls with ⟨e, hL⟩ | ⟨e, hL⟩ <;> rcases hst.calls with ⟨hL', -, e', -⟩ | ⟨hL', -, e', -⟩
    · omega
    · rw [hL] at hL'; cases hL'
    · rw [hL] at hL'; cases hL'
    · omega
  have hdat : (L.foldl (Copies.hear w part) b).dat = b.dat := by
    rcases hd.calls with ⟨-, hL⟩ | ⟨-, hL⟩ <;> rw [hL] <;> rfl
  have file : ∀ i, i < v.dataid → v.dfiles[i]? = s.dfiles[i]? ∧ t.dfiles[i]? = s.dfiles[i]? := fun i hi => by
    have := List.getElem?_eq_getElem (l := s.dfiles) (i := i) (by omega)
    exact ⟨by rw [this, hst.dx i _ hi this], by rw [this, hd.keeps i _ this]⟩
  refine ⟨⟨fun i hi => ?_, fun i hi => ?_⟩, fun i hi hlt => ?_⟩
  · rw [hdat, (file i hi).1, ← (file i hi).2]
    exact hd.keep.here.closed i (by omega)
  · rw [hdat]; exact hd.keep.here.beyond i (by omega)
  · rw [(file i hlt).1, ← (file i hlt).2]
    apply hd.keep.keep
    rw [(file i hlt).2]
    unfold jumped
    rcases hd.calls with ⟨e, hL⟩ | ⟨e, hL⟩
    · rw [if_pos e]
      rw [hL] at hi
      exact h.todo i hi (by omega)
    · rw [if_neg (by omega)]
      split
      · rfl
      · rename_i hne
        rw [hL] at hi
        have hi' : i ∈ s.dataid :: b.todo := hi
        rcases List.mem_cons.1 hi' with h1 | h1
        · exact absurd h1 hne
        · exact h.todo i h1 (by omega)

theorem Right.take {m : Nat → Prop} (h : Right s dir b) (hF : Faithful s b m) {i : Nat} (hi : i < s.dataid) (ht : i ∉ b.todo) :
    Right s (fun j => if j = i then none else dir j) b := by
  refine ⟨⟨fun j hj => ?_, fun j hj => ?_⟩, fun j hj hlt => ?_⟩
  · by_cases e : j = i
    · simp only [if_pos e]
      right
      subst e
      simp only [true_and]
      exact (hF.dat j hj).resolve_right ht
    · simp only [if_neg e]; exact h.closed j hj
  · simp only [if_neg (show j ≠ i by omega)]; exact h.beyond j hj
  · have e : j ≠ i := fun e => ht (e ▸ hj)
    simp only [if_neg e]; exact h.todo j hj hlt

theorem onDisk_get (s : Store) (dir : Dir) (i : Nat) (h : dir i = s.dfiles[i]? ∨ i = s.dataid) :
    (onDisk s dir)[i]? = s.dfiles[i]? := by
  unfold onDisk
  rw [List.getElem?_mapIdx]
  cases hf : s.dfiles[i]? with
  | none => rfl
  | some f =>
    rcases h with h | h
    · rw [h, hf]; simp
    · simp [h]

theorem Right.late_eq (h : Right s dir b) (hs : InStep s) (i : Nat) : b.late (onDisk s dir) i = b.late s.dfiles i := by
  unfold Backup.Copies.late
  split
  · rename_i hi
    have he : (onDisk s dir)[i]? = s.dfiles[i]? := by
      have hd := hs.d
      rcases Nat.lt_trichotomy i s.dataid with h1 | h1 | h1
      · exact onDisk_get s dir i (Or.inl (h.todo i hi h1))
      · exact onDisk_get s dir i (Or.inr h1)
      · exact onDisk_get s dir i (Or.inl (by rw [(h.beyond i h1).1, List.getElem?_eq_none (by omega)]))
    have : Backup.copied [i] (onDisk s dir) b.dat = Backup.copied [i] s.dfiles b.dat := by
      funext j
      unfold Backup.copied
      by_cases hj : j ∈ [i]
      · rw [if_pos hj, if_pos hj]
        rw [List.mem_singleton.1 hj, he]
      · rw [if_neg hj, if_neg hj]
    rw [this]
  · rfl

theorem Right.late (h : Right s dir b) (hs : InStep s) (i : Nat) : Right s dir (b.late s.dfiles i) := by
  have hd := hs.d
  unfold Backup.Copies.late
  split
  · rename_i hit
    refine ⟨⟨fun j hj => ?_, fun j hj => ?_⟩, fun j hj hlt => ?_⟩
    · show _ ∨ (_ ∧ Backup.copied [i] s.dfiles b.dat j = _)
      unfold Backup.copied
      by_cases hj' : j ∈ [i]
      · rw [if_pos hj']
        rw [List.mem_singleton.1 hj'] at hj ⊢
        exact Or.inl (h.todo i hit hj)
      · rw [if_neg hj']; exact h.closed j hj
    · refine ⟨(h.beyond j hj).1, ?_⟩
      show Backup.copied [i] s.dfiles b.dat j = _
      unfold Backup.copied
      split
      · exact List.getElem?_eq_none (by omega)
      · exact (h.beyond j hj).2
    · exact h.todo j (List.mem_filter.1 hj).1 hlt
  · exact h

theorem Right.restart {t : Store} (h : Right s dir b) (hs : InStep s) (ht : InStep t) (he : t.dfiles = s.dfiles) :
    Right t dir ((Backup.close s).foldl (Copies.hear (.exited 0) []) b) := by
  have h1 := hs.d
  have h2 := ht.d
  rw [he] at h2
  have hid : t.dataid = s.dataid := by omega
  have hdat : ∀ i, i ≠ s.dataid → ((Backup.close s).foldl (Copies.hear (.exited 0) []) b).dat i = b.dat i := by
    intro i hi
    show Backup.copied [s.dataid] s.dfiles b.dat i = _
    unfold Backup.copied
    rw [if_neg (by simpa using hi)]
  refine ⟨⟨fun i hi => ?_, fun i hi => ?_⟩, fun i hi hlt => ?_⟩
  · rw [hdat i (by omega), he]; exact h.closed i (by omega)
  · rw [hdat i (by omega)]; exact h.beyond i (by omega)
  · rw [he]; exact h.todo i hi (by omega)

/-- Missing files make no difference to loading. -/
theorem reload_eq {cfg : Option Mode} {br br1 : Branches} {u : Nat} {t : Store} (hs : InStep s) (ht : InStep t)
    (he : t.dfiles = s.dfiles) (h : reloadNs cfg br u s = .ok br1 t) : reload cfg br u s dir = .ok br1 t := by
  have h1 := hs.d
  have h2 := ht.d
  rw [he] at h2
  have hlen : (onDisk s dir).length = s.dfiles.length := by unfold onDisk; rw [List.length_mapIdx]
  have hFl : (s.dfiles.take s.dataid).length = s.dataid := by rw [List.length_take]; omega
  have hgh : s = Store.gh { s with dfiles := onDisk s dir } (s.dfiles.take s.dataid) := by
    have : s.dfiles = s.dfiles.take s.dataid ++ (onDisk s dir).drop (s.dfiles.take s.dataid).length := by
      rw [hFl]
      conv => lhs; rw [← List.take_append_drop s.dataid s.dfiles]
      congr 1
      apply List.ext_getElem?
      intro j
      rw [List.getElem?_drop, List.getElem?_drop]
      by_cases hj : j = 0
      · rw [onDisk_get s dir _ (Or.inr (by omega))]
      · rw [List.getElem?_eq_none (by omega), List.getElem?_eq_none (by omega)]
    unfold Store.gh
    dsimp only
    rw [← this]
  rw [hgh] at h
  obtain ⟨t', h3, h4⟩ := reloadNs_gh h (by rw [hFl]; omega) (by rw [hFl]; dsimp only; omega)
  unfold reload
  rw [h3]
  dsimp only
  rw [h4]
  unfold Store.gh
  rw [hFl]

/-! ### executions -/

/-- What is needed of an invariant `I` of the executions without taking away, the last argument of which are the
    events to come. -/
structure Good (cfg : Option Mode) (ok : Store → Store → NsEvent → Prop) (u : Nat)
    (I : Branches → Store → Copies → (Nat → Prop) → List (Backup.Event × Reply) → Prop) : Prop where
  step : ∀ {br s b m tr}, I br s b m tr → InStep s ∧ Faithful s b m
  cap : ∀ {br s b m x tr}, I br s b m (x :: tr) → s.indexid + 1 < 2 ^ 32
  next : ∀ {br s b m x tr br' s' b' m'}, I br s b m (x :: tr) → Backup.Run cfg ok u br s b m [x] br' s' b' m' → I br' s' b' m' tr
  hstep : ∀ {br s b m c d argv w part r tr br1 s1 L}, I br s b m ((.cmd c d argv w part, r) :: tr) → c.u = u →
    Backup.command w c br s d argv = ((br1, s1, r), L) → ok s s1 (.cmd c d argv) → HStep w s s1 L
  reload : ∀ {br s b m tr}, I br s b m ((.restart, .ok) :: tr) → ∀ t, ok s t .reload →
    ∃ br1 t, reloadNs cfg br u s = .ok br1 t ∧ InStep t ∧ t.dfiles = s.dfiles

/-- What is taken away is not missed: the execution is one in which nothing is taken away. -/
theorem Run.kept {cfg : Option Mode} {ok : Store → Store → NsEvent → Prop} {u : Nat}
    {I : Branches → Store → Copies → (Nat → Prop) → List (Backup.Event × Reply) → Prop} (hI : Good cfg ok u I)
    {br br' : Branches} {s s' : Store} {dir dir' : Dir} {b b' : Copies} {m m' : Nat → Prop} {tr : List (Event × Reply)}
    (hr : Run cfg ok u br s dir b m tr br' s' dir' b' m') (h : I br s b m (kept tr)) (hR : Right s dir b) :
    Backup.Run cfg ok u br s b m (kept tr) br' s' b' m' ∧ Right s' dir' b' ∧ I br' s' b' m' [] := by
  induction hr with
  | nil br s dir b m => exact ⟨.nil .., hR, h⟩
  | @cmd c d argv w part br br1 br2 s s1 s2 dir dir1 dir2 r L b b2 m m2 tr hu h1 hc h2 ih =>
    obtain ⟨hs, hF⟩ := hI.step h
    have hcap := hI.cap h
    obtain ⟨e, t, hd⟩ := command_dirs hR.toHere hs hcap w c br d argv
    rw [h1] at e hd
    dsimp only at e hd
    rw [← e] at hd
    have hone := Backup.Run.cmd (cfg := cfg) (ok := ok) c d argv w part hu e.symm hc
      (Backup.Run.nil br1 s1 (L.foldl (Copies.hear w part) b) (fun i => m i ∨ (L ≠ [] ∧ ¬ w.done ∧ i = s.indexid)))
    have hnext := hI.next h hone
    have hst := hI.hstep h hu e.symm hc
    obtain ⟨i1, i2, i3⟩ := ih hnext (hR.step hs (hI.step hnext).1 hd hst)
    exact ⟨.cmd c d argv w part hu e.symm hc i1, i2, i3⟩
  | @foreign br br1 br2 s s2 dir dir2 b b2 m m2 tr h1 hc h2 ih =>
    obtain ⟨i1, i2, i3⟩ := ih (hI.next h (.foreign h1 hc (.nil ..))) hR
    exact ⟨.foreign h1 hc i1, i2, i3⟩
  | @late i br br2 s s2 dir dir2 b b2 m m2 tr hc h2 ih =>
    have hs := (hI.step h).1
    rw [hR.late_eq hs i] at ih
    obtain ⟨i1, i2, i3⟩ := ih (hI.next h (.late i hc (.nil ..))) (hR.late hs i)
    exact ⟨.late i hc i1, i2, i3⟩
  | @restart br br1 br2 s s1 s2 dir dir2 b b2 m m2 tr h1 hc h2 ih =>
    have hs := (hI.step h).1
    obtain ⟨br3, t, k1, k2, k3⟩ := hI.reload h _ hc
    rw [reload_eq hs k2 k3 k1] at h1
    injection h1 with e1 e2
    subst e1; subst e2
    obtain ⟨i1, i2, i3⟩ := ih (hI.next h (.restart k1 hc (.nil ..))) (hR.restart hs k2 k3)
    exact ⟨.restart k1 hc i1, i2, i3⟩
  | @take i br br2 s s2 dir dir2 b b2 m m2 tr hi ht hc h2 ih =>
    have hF := (hI.step h).2
    obtain ⟨i1, i2, i3⟩ := ih (hI.next h (.foreign (fun _ => rfl) hc (.nil ..))) (hR.take hF hi ht)
    exact ⟨.foreign (fun _ => rfl) hc i1, i2, i3⟩

/-- The invariant of a user-key namespace. -/
def UGood (u : Nat) (br : Branches) (s : Store) (b : Copies) (m : Nat → Prop) (tr : List (Backup.Event × Reply)) : Prop :=
  (∃ G, UInv br u s G) ∧ s.DW ∧ Faithful s b m ∧ Room s.ifiles.length (totalData s) tr.length ∧
    (∀ x ∈ tr, EvOK x.1.ns) ∧ ∀ x ∈ tr, Backup.Sound x

theorem uGood {cfg : Option Mode} (hcfg : cfg = none ∨ cfg = some .user) (u : Nat) : Good cfg AnyEv u (UGood u) where
  step := fun ⟨⟨_, h⟩, _, hF, _⟩ => ⟨h.toCore.inStep, hF⟩
  cap := fun ⟨⟨_, h⟩, _, _, hr, _⟩ => by
    have := hr.1
    have := h.toCore.inStep.i
    simp only [List.length_cons] at *
    omega
  next := fun {br s b m x tr br' s' b' m'} ⟨⟨G, h⟩, hw, hF, hr, hev, hso⟩ hone => by
    obtain ⟨F, R, G', u1, u2, u3, u4⟩ := h.copies hcfg hone (n := tr.length)
      (fun y hy => hev y (by rw [List.mem_singleton.1 hy]; exact List.mem_cons_self ..))
      (hr.mono (by simp only [List.length_cons, List.length_nil]; omega)) hw
      (fun y hy => hso y (by rw [List.mem_singleton.1 hy]; exact List.mem_cons_self ..)) hF
    exact ⟨⟨G', u1⟩, u4, F, R, fun y hy => hev y (List.mem_cons_of_mem _ hy), fun y hy => hso y (List.mem_cons_of_mem _ hy)⟩
  hstep := fun {br s b m c d argv w part r tr br1 s1 L} ⟨⟨G, h⟩, hw, hF, hr, hev, hso⟩ hu e _ => by
    subst hu
    obtain ⟨hc, ha⟩ := hev _ (List.mem_cons_self ..)
    have := h.hstep (w := w) hw hc d argv (by have := hr.1; omega)
      (by rw [e]; exact (hso _ (List.mem_cons_self ..)).1)
    rw [e] at this
    exact this
  reload := fun {br s b m tr} ⟨⟨G, h⟩, hw, hF, hr, _⟩ _ _ => by
    have hlen := h.irep.length
    obtain ⟨br3, t, k1, k2, k3, k4, -⟩ := h.reload cfg hcfg (by have := hr.1; omega)
    exact ⟨br3, t, k1, k2.toCore.inStep, k4⟩

/-- The invariant of a sequential namespace. -/
def SGood (br : Branches) (s : Store) (b : Copies) (m : Nat → Prop) (tr : List (Backup.Event × Reply)) : Prop :=
  (∃ G, SInv s G ∧ NearRun (absSlots G) (tr.map (·.1.ns))) ∧ s.DW ∧ Faithful s b m ∧
    Room s.ifiles.length (totalData s) tr.length ∧ (∀ x ∈ tr, EvOK x.1.ns) ∧ ∀ x ∈ tr, Backup.Sound x

theorem sGood {cfg : Option Mode} (hcfg : cfg = none ∨ cfg = some .seq) (u : Nat) : Good cfg CleanEv u SGood where
  step := fun ⟨⟨_, h, _⟩, _, hF, _⟩ => ⟨h.toCore.inStep, hF⟩
  cap := fun ⟨⟨_, h, _⟩, _, _, hr, _⟩ => by
    have := hr.1
    have := h.toCore.inStep.i
    simp only [List.length_cons] at *
    omega
  next := fun {br s b m x tr br' s' b' m'} ⟨⟨G, h, hn⟩, hw, hF, hr, hev, hso⟩ hone => by
    obtain ⟨F, R, G', u1, u2, u3, u4⟩ := h.copies hcfg hone (n := tr.length)
      (fun y hy => hev y (by rw [List.mem_singleton.1 hy]; exact List.mem_cons_self ..)) ⟨hn.1, trivial⟩
      (hr.mono (by simp only [List.length_cons, List.length_nil]; omega)) hw
      (fun y hy => hso y (by rw [List.mem_singleton.1 hy]; exact List.mem_cons_self ..)) hF
    exact ⟨⟨G', u1, by rw [u2]; exact hn.2⟩, u4, F, R, fun y hy => hev y (List.mem_cons_of_mem _ hy),
      fun y hy => hso y (List.mem_cons_of_mem _ hy)⟩
  hstep := fun {br s b m c d argv w part r tr br1 s1 L} ⟨⟨G, h, hn⟩, hw, hF, hr, hev, hso⟩ hu e hok => by
    subst hu
    obtain ⟨hc, ha⟩ := hev _ (List.mem_cons_self ..)
    have := h.hstep (w := w) (br := br) hw hc d argv ha (by have := hr.1; omega) hn.1
      (by rw [e]; exact hok) (by rw [e]; exact (hso _ (List.mem_cons_self ..)).1)
    rw [e] at this
    exact this
  reload := fun {br s b m tr} ⟨⟨G, h, hn⟩, hw, hF, hr, _⟩ _ hcl => by
    have hlen := h.irep.length
    have hlast : G.length = 1 ∨ 29 < logEnd G := by
      rcases hcl with hcl | hcl
      · left; have := h.iid; omega
      · right; rw [h.fileLen] at hcl; exact hcl
    obtain ⟨t, k1, k2, k3, k4, -⟩ := h.reload br u cfg hcfg (by have := hr.1; omega) hlast
    exact ⟨br, t, k1, k2.toCore.inStep, k4⟩

end Zdb.Missing
