/-
Copies kept by hooks.
-/
import Verif.Lemmas.Dirty
import Verif.Lemmas.Crash
import Verif.Spec.Backup
namespace Zdb.Backup

/-- Emptying the list before or after the map grows gives the same. -/
theorem dirtyReset_resize {d : Dirty} {n : Nat} (h : DWF d n) :
    dirtyResize (dirtyReset d) (n + 1) = dirtyReset (dirtyResize d (n + 1)) := by
  have hlen := h.len
  have hle := h.le
  unfold dirtyResize
  have e1 : (dirtyReset d).maxid = d.maxid := rfl
  have e2 : (dirtyReset d).map.length = d.map.length := by simp [dirtyReset]
  rw [e1, e2]
  by_cases h1 : n + 1 ≤ d.maxid
  · rw [if_pos h1, if_pos h1]
  · rw [if_neg h1, if_neg h1]
    dsimp only
    by_cases h2 : (n + 1 + 8) / 8 ≤ d.map.length
    · rw [if_pos h2, if_pos h2]; rfl
    · rw [if_neg h2, if_neg h2]
      have h3 : (n + 1 + 8) / 8 - d.map.length - 1 = 0 := by omega
      simp only [h3, List.replicate_zero, List.append_nil, dirtyReset, List.map_append, List.map_cons, List.map_nil]

theorem jump_reset {s : Store} (hw : s.DW) (hcap : s.indexid + 1 < 2 ^ 32) :
    Zdb.jump { s with dirty := dirtyReset s.dirty } = { Zdb.jump s with dirty := dirtyReset (Zdb.jump s).dirty } := by
  have hid : (s.indexid + 1) % 2 ^ 32 = s.indexid + 1 := Nat.mod_eq_of_lt hcap
  have e : (Zdb.jump s).dirty = dirtyResize s.dirty ((s.indexid + 1) % 2 ^ 32) := rfl
  have e' : Zdb.jump { s with dirty := dirtyReset s.dirty } =
      { Zdb.jump s with dirty := dirtyResize (dirtyReset s.dirty) ((s.indexid + 1) % 2 ^ 32) } := rfl
  rw [e', e, hid, dirtyReset_resize hw]

/-- The state in which the handler of SET runs once the files were changed if needed. -/
def setAt (c : Ctx) (br : Branches) (s t : Store) (k p : Bytes) (ts : Nat) : Branches × Store × Reply :=
  match s.mode with
  | .user => setHandlerUser c br t k p ts (if k.length ≠ 0 then indexGet br s c.u k else none)
  | .seq => setHandlerSeq c br t k p ts (if k.length ≠ 0 then indexGet br s c.u k else none)

/-- SET either answers an error or runs its handler, with or without a hook alike. -/
theorem cmdSet_cases (w : Waited) (c : Ctx) (br : Branches) (s : Store) (argv : List Bytes) :
    (∃ r, ∀ d, Zdb.cmdSet c br { s with dirty := d } argv = (br, { s with dirty := d }, r) ∧
      cmdSet w c br { s with dirty := d } argv = ((br, { s with dirty := d }, r), [])) ∨
    ∃ k p ts, argv[1]? = some k ∧ p ∈ argv ∧ ts < 2 ^ 32 ∧
      ∀ d, Zdb.cmdSet c br { s with dirty := d } argv = setAt c br s (Zdb.jumpIfFull c.limit { s with dirty := d } p.length) k p ts ∧
        cmdSet w c br { s with dirty := d } argv = (setAt c br s (jumpIfFull w c.limit { s with dirty := d } p.length).1 k p ts,
          (jumpIfFull w c.limit { s with dirty := d } p.length).2) := by
  have body : ∀ k p,
    (∃ r, ∀ d, Zdb.cmdSet.body c br { s with dirty := d } argv k p = (br, { s with dirty := d }, r) ∧
      cmdSet.body w c br { s with dirty := d } argv k p = ((br, { s with dirty := d }, r), [])) ∨
    ∃ ts, ts < 2 ^ 32 ∧
      ∀ d, Zdb.cmdSet.body c br { s with dirty := d } argv k p = setAt c br s (Zdb.jumpIfFull c.limit { s with dirty := d } p.length) k p ts ∧
        cmdSet.body w c br { s with dirty := d } argv k p = (setAt c br s (jumpIfFull w c.limit { s with dirty := d } p.length).1 k p ts,
          (jumpIfFull w c.limit { s with dirty := d } p.length).2) := by
    intro k p
    have hg : ∀ d, indexGet br { s with dirty := d } c.u k = indexGet br s c.u k := fun _ => rfl
    unfold Zdb.cmdSet.body cmdSet.body
    by_cases h1 : k.length > 255
    · simp only [if_pos h1]; exact Or.inl ⟨_, fun _ => ⟨rfl, rfl⟩⟩
    simp only [if_neg h1]
    by_cases h2 : (!c.writable) = true
    · simp only [if_pos h2]; exact Or.inl ⟨_, fun _ => ⟨rfl, rfl⟩⟩
    simp only [if_neg h2]
    by_cases h3 : c.conf.isFrozen = true
    · simp only [if_pos h3]; exact Or.inl ⟨_, fun _ => ⟨rfl, rfl⟩⟩
    simp only [if_neg h3]
    by_cases h4 : c.conf.isLocked = true
    · simp only [if_pos h4]; exact Or.inl ⟨_, fun _ => ⟨rfl, rfl⟩⟩
    simp only [if_neg h4, hg]
    by_cases h5 : ((if k.length ≠ 0 then indexGet br s c.u k else none).isSome && c.conf.worm) = true
    · simp only [if_pos h5]; exact Or.inl ⟨_, fun _ => ⟨rfl, rfl⟩⟩
    simp only [if_neg h5]
    by_cases h6 : overQuota c.conf s.datasize p.length (floatingOf (if k.length ≠ 0 then indexGet br s c.u k else none)) = true
    · simp only [if_pos h6]; exact Or.inl ⟨_, fun _ => ⟨rfl, rfl⟩⟩
    simp only [if_neg h6]
    refine Or.inr ⟨timestampFromSet c.now argv 3, timestampFromSet_lt _ _ _, fun d => ⟨rfl, ?_⟩⟩
    unfold setAt
    cases s.mode <;> rfl
  match argv with
  | [a, k, p] =>
    rcases body k p with h | ⟨ts, h1, h2⟩
    · exact Or.inl h
    · exact Or.inr ⟨k, p, ts, rfl, by simp, h1, h2⟩
  | [a, k, p, t] =>
    by_cases had : c.admin = true
    · simp only [Zdb.cmdSet, cmdSet, had, if_true]
      rcases body k p with h | ⟨ts, h1, h2⟩
      · exact Or.inl h
      · exact Or.inr ⟨k, p, ts, rfl, by simp, h1, h2⟩
    · simp only [Zdb.cmdSet, cmdSet, had]; exact Or.inl ⟨_, fun _ => ⟨rfl, rfl⟩⟩
  | [] => exact Or.inl ⟨_, fun _ => ⟨rfl, rfl⟩⟩
  | [_] => exact Or.inl ⟨_, fun _ => ⟨rfl, rfl⟩⟩
  | [_, _] => exact Or.inl ⟨_, fun _ => ⟨rfl, rfl⟩⟩
  | _ :: _ :: _ :: _ :: _ :: _ => exact Or.inl ⟨_, fun _ => ⟨rfl, rfl⟩⟩

/-! ### one request -/

theorem jump_keeps {s : Store} (hs : InStep s) (hcap : s.indexid + 1 < 2 ^ 32) :
    (∀ (i : Nat) (f : Bytes), s.ifiles[i]? = some f → (Zdb.jump s).ifiles[i]? = some f) ∧
    (∀ (i : Nat) (f : Bytes), s.dfiles[i]? = some f → (Zdb.jump s).dfiles[i]? = some f) ∧
    (Zdb.jump s).indexid = s.indexid + 1 ∧ (Zdb.jump s).dataid = s.dataid + 1 := by
  have hid : (s.indexid + 1) % 2 ^ 32 = s.indexid + 1 := Nat.mod_eq_of_lt hcap
  have e1 : (Zdb.jump s).dfiles = dataInitialize s.dfiles ((s.indexid + 1) % 2 ^ 32) := rfl
  have e2 : (Zdb.jump s).ifiles = indexCreate s.ifiles ((s.indexid + 1) % 2 ^ 32) s.mode.byte := rfl
  have e3 : (Zdb.jump s).indexid = (s.indexid + 1) % 2 ^ 32 := rfl
  have e4 : (Zdb.jump s).dataid = (s.indexid + 1) % 2 ^ 32 := rfl
  rw [hid] at e1 e2 e3 e4
  have hi := hs.i
  have hd := hs.d
  have hsm := hs.same
  rw [indexCreate, if_neg (by omega)] at e2
  rw [dataInitialize, if_neg (by omega)] at e1
  refine ⟨fun i f hf => ?_, fun i f hf => ?_, e3, by omega⟩
  · rw [e2, List.getElem?_append_left (List.getElem?_eq_some_iff.1 hf).1]; exact hf
  · rw [e1, List.getElem?_append_left (List.getElem?_eq_some_iff.1 hf).1]; exact hf

theorem jump_chg_self {s : Store} (hw : s.DW) (hs : InStep s) (hcap : s.indexid + 1 < 2 ^ 32) (w : Waited) :
    (jump w s).1.DW ∧ (w.status ≠ 0 → ∀ i, dirtyGet s.dirty i = true → dirtyGet (jump w s).1.dirty i = true) := by
  have hc := jump_chg hw hs hcap
  unfold jump
  dsimp only
  by_cases h0 : w.status = 0
  · rw [if_pos h0]; exact ⟨DWF.reset hc.wf, fun h => absurd h0 h⟩
  · rw [if_neg h0]; exact ⟨hc.wf, fun _ i hi => by rw [hc.bits, hi]; rfl⟩

/-- What a request does, as far as the copies are concerned. -/
structure HStep (w : Waited) (s t : Store) (L : List Call) : Prop where
  dw : t.DW
  ix : ∀ (i : Nat) (f : Bytes), i < t.indexid → s.ifiles[i]? = some f → dirtyGet t.dirty i = true ∨ t.ifiles[i]? = some f
  dx : ∀ (i : Nat) (f : Bytes), i < t.dataid → s.dfiles[i]? = some f → t.dfiles[i]? = some f
  calls : (L = [] ∧ t.indexid = s.indexid ∧ t.dataid = s.dataid ∧
      ∀ i, dirtyGet s.dirty i = true → dirtyGet t.dirty i = true) ∨
    (L = (jump w s).2 ∧ t.indexid = s.indexid + 1 ∧ t.dataid = s.dataid + 1 ∧
      (w.status ≠ 0 → ∀ i, dirtyGet s.dirty i = true → dirtyGet t.dirty i = true))

/-- The state at the time the handler of SET runs. -/
structure Mid (w : Waited) (s t : Store) (L : List Call) : Prop where
  dw : t.DW
  step : InStep t
  ix : ∀ (i : Nat) (f : Bytes), s.ifiles[i]? = some f → t.ifiles[i]? = some f
  dx : ∀ (i : Nat) (f : Bytes), s.dfiles[i]? = some f → t.dfiles[i]? = some f
  calls : (L = [] ∧ t = s) ∨ (L = (jump w s).2 ∧ t.indexid = s.indexid + 1 ∧ t.dataid = s.dataid + 1 ∧
      (w.status ≠ 0 → ∀ i, dirtyGet s.dirty i = true → dirtyGet t.dirty i = true))

theorem Mid.refl {w : Waited} {s : Store} (hw : s.DW) (hs : InStep s) : Mid w s s [] :=
  ⟨hw, hs, fun _ _ h => h, fun _ _ h => h, Or.inl ⟨rfl, rfl⟩⟩

theorem Mid.jump {w : Waited} {s : Store} (hw : s.DW) (hs : InStep s) (hcap : s.indexid + 1 < 2 ^ 32) :
    Mid w s (jump w s).1 (jump w s).2 := by
  obtain ⟨k1, k2, k3, k4⟩ := jump_keeps hs hcap
  obtain ⟨c1, c2⟩ := jump_chg_self hw hs hcap w
  have e1 : (Backup.jump w s).1.ifiles = (Zdb.jump s).ifiles := by unfold Backup.jump; dsimp only; split <;> rfl
  have e2 : (Backup.jump w s).1.dfiles = (Zdb.jump s).dfiles := by unfold Backup.jump; dsimp only; split <;> rfl
  have e3 : (Backup.jump w s).1.indexid = (Zdb.jump s).indexid := by unfold Backup.jump; dsimp only; split <;> rfl
  have e4 : (Backup.jump w s).1.dataid = (Zdb.jump s).dataid := by unfold Backup.jump; dsimp only; split <;> rfl
  have hst := (jump_ext hs hcap).step
  exact ⟨c1, ⟨by rw [e2, e4]; exact hst.d, by rw [e1, e3]; exact hst.i, by rw [e3, e4]; exact hst.same⟩,
    by rw [e1]; exact k1, by rw [e2]; exact k2, Or.inr ⟨rfl, by rw [e3]; exact k3, by rw [e4]; exact k4, c2⟩⟩

theorem Mid.jumpIfFull {w : Waited} {s : Store} (hw : s.DW) (hs : InStep s) (hcap : s.indexid + 1 < 2 ^ 32)
    (limit len : Nat) : Mid w s (jumpIfFull w limit s len).1 (jumpIfFull w limit s len).2 := by
  unfold Backup.jumpIfFull
  split
  · exact Mid.jump hw hs hcap
  · exact Mid.refl hw hs

theorem Mid.hstep {w : Waited} {s t v : Store} {L : List Call} (h : Mid w s t L) (he : Eff t v) (hd : DataExt t v)
    (h1 : v.indexid = t.indexid) (h2 : v.dataid = t.dataid) : HStep w s v L := by
  obtain ⟨o, hc, -⟩ := he
  have mono : ∀ i, dirtyGet t.dirty i = true → dirtyGet v.dirty i = true := fun i hi => by rw [hc.bits, hi]; rfl
  refine ⟨hc.wf, fun i f hi hf => ?_, fun i f hi hf => ?_, ?_⟩
  · by_cases ho : o = some i
    · left; rw [hc.bits]; simp [ho]
    · right
      obtain ⟨x, hx, hx'⟩ := hc.ext i f (h.ix i f hf) ho
      rw [hx' (by omega)] at hx
      simpa using hx
  · obtain ⟨x, hx, hx'⟩ := hd.2 i f (h.dx i f hf)
    rw [hx' (by omega)] at hx
    simpa using hx
  · rcases h.calls with ⟨rfl, rfl⟩ | ⟨c1, c2, c3, c4⟩
    · exact Or.inl ⟨rfl, h1, h2, mono⟩
    · exact Or.inr ⟨c1, by omega, by omega, fun hw i hi => mono i (c4 hw i hi)⟩

theorem setAt_effect (c : Ctx) (br : Branches) (s t : Store) (k p : Bytes) (ts : Nat) :
    ∃ b, AppData t (setAt c br s t k p ts).2.1 b := by
  unfold setAt
  cases s.mode with
  | user => exact ⟨_, (setHandlerUser_effect c br t k p ts _).choose_spec.1⟩
  | seq => exact ⟨_, (setHandlerSeq_effect c br t k p ts _).choose_spec.1⟩

theorem hstep_of {w : Waited} {c : Ctx} {br : Branches} {s : Store} (hw : s.DW) (hs : InStep s)
    (hcap : s.indexid + 1 < 2 ^ 32) (d : DsCmd) (argv : List Bytes)
    (hset : ∀ k p ts, d = .set → argv[1]? = some k → p ∈ argv → ts < 2 ^ 32 →
      (command w c br s d argv).1.2.1 = (setAt c br s (jumpIfFull w c.limit s p.length).1 k p ts).2.1 →
      Eff (jumpIfFull w c.limit s p.length).1 (setAt c br s (jumpIfFull w c.limit s p.length).1 k p ts).2.1)
    (hdel : d = .del → Eff s (cmdDel c br s argv).2.1)
    (hno : ¬ IsReset d (command w c br s d argv).1.2.2) :
    HStep w s (command w c br s d argv).1.2.1 (command w c br s d argv).2 := by
  have hrf : HStep w s s [] := (Mid.refl hw hs).hstep (Chg.refl hw).eff (DataExt.refl s) rfl rfl
  cases d with
  | set =>
    rcases cmdSet_cases w c br s argv with ⟨r, h⟩ | ⟨k, p, ts, hk, hp, hts, h⟩
    · have := (h s.dirty).2
      simp only [command]
      rw [this]; exact hrf
    · have e := (h s.dirty).2
      have hm := Mid.jumpIfFull (w := w) hw hs hcap c.limit p.length
      have e' : command w c br s .set argv = (setAt c br s (jumpIfFull w c.limit s p.length).1 k p ts,
          (jumpIfFull w c.limit s p.length).2) := e
      have he := hset k p ts rfl hk hp hts (by rw [e'])
      rw [e']
      obtain ⟨b, hb⟩ := setAt_effect c br s (jumpIfFull w c.limit s p.length).1 k p ts
      exact hm.hstep he (hb.ext hm.step).ext hb.iid hb.did
  | nsjump =>
    simp only [command, cmdNsjump]
    by_cases had : c.admin = true
    · simp only [had, if_true]
      have hm := Mid.jump (w := w) hw hs hcap
      exact hm.hstep (Chg.refl hm.dw).eff (DataExt.refl _) rfl rfl
    · simp only [had]; exact hrf
  | del =>
    have e := dsCommand_ext c br hs hcap .del argv
    have e2 : (dsCommand c br s .del argv).2.1.indexid = s.indexid := del_indexid c br s argv
    refine (Mid.refl hw hs).hstep (hdel rfl) e.ext e2 ?_
    have h1 := e.step.same
    have h2 := hs.same
    show (dsCommand c br s .del argv).2.1.dataid = _
    omega
  | index =>
    simp only [command, dsCommand, cmdIndex] at hno ⊢
    generalize replyIndex c s argv = r at hno ⊢
    cases r <;> first | exact hrf | exact absurd trivial hno
  | _ => exact hrf

/-- A request with a hook does what it does without one in a state with the same or an empty list. -/
theorem command_eq {w : Waited} {c : Ctx} {br : Branches} {s : Store} (hw : s.DW) (hcap : s.indexid + 1 < 2 ^ 32)
    (d : DsCmd) (argv : List Bytes) :
    ∃ d', (command w c br s d argv).1 = dsCommand c br { s with dirty := d' } d argv ∧
      (d' = s.dirty ∨ d' = dirtyReset s.dirty) := by
  have hj : jump w s = (Zdb.jump { s with dirty := if w.status = 0 then dirtyReset s.dirty else s.dirty }, (jump w s).2) := by
    by_cases h0 : w.status = 0
    · rw [if_pos h0, jump_reset hw hcap]; simp only [jump, if_pos h0]
    · rw [if_neg h0]; simp only [jump, if_neg h0]
  have hor : (if w.status = 0 then dirtyReset s.dirty else s.dirty) = s.dirty ∨
      (if w.status = 0 then dirtyReset s.dirty else s.dirty) = dirtyReset s.dirty := by
    split
    · exact Or.inr rfl
    · exact Or.inl rfl
  cases d with
  | set =>
    rcases cmdSet_cases w c br s argv with ⟨r, h⟩ | ⟨k, p, ts, hk, hp, hts, h⟩
    · refine ⟨s.dirty, ?_, Or.inl rfl⟩
      simp only [command, dsCommand]
      rw [(h s.dirty).1]
      exact congrArg Prod.fst (h s.dirty).2
    · have e : (command w c br s .set argv).1 = setAt c br s (jumpIfFull w c.limit s p.length).1 k p ts :=
        congrArg Prod.fst (h s.dirty).2
      by_cases hf : fileLen s.dfiles s.dataid + p.length > c.limit
      · refine ⟨if w.status = 0 then dirtyReset s.dirty else s.dirty, ?_, hor⟩
        rw [e]
        simp only [dsCommand]
        rw [(h _).1]
        simp only [jumpIfFull, Zdb.jumpIfFull, if_pos hf]
        rw [hj]
      · refine ⟨s.dirty, ?_, Or.inl rfl⟩
        rw [e]
        simp only [dsCommand]
        rw [(h _).1]
        simp only [jumpIfFull, Zdb.jumpIfFull, if_neg hf]
  | nsjump =>
    by_cases had : c.admin = true
    · refine ⟨if w.status = 0 then dirtyReset s.dirty else s.dirty, ?_, hor⟩
      simp only [command, cmdNsjump, dsCommand, Zdb.cmdNsjump, had, if_true]
      rw [hj]
    · exact ⟨s.dirty, by simp only [command, cmdNsjump, dsCommand, Zdb.cmdNsjump, had]; rfl, Or.inl rfl⟩
  | _ => exact ⟨s.dirty, rfl, Or.inl rfl⟩

theorem _root_.Zdb.UInv.hstep {w : Waited} {c : Ctx} {br : Branches} {s : Store} {G : Log} (h : UInv br c.u s G) (hw : s.DW)
    (hc : CtxOK c) (d : DsCmd) (argv : List Bytes) (hcap : s.ifiles.length < 2 ^ 32)
    (hno : ¬ IsReset d (command w c br s d argv).1.2.2) :
    HStep w s (command w c br s d argv).1.2.1 (command w c br s d argv).2 := by
  have hs := h.toCore.inStep
  have hcap' : s.indexid + 1 < 2 ^ 32 := by have := hs.i; omega
  refine hstep_of hw hs hcap' d argv (fun k p ts _ hk hp hts _ => ?_) (fun _ => ?_) hno
  · have hm := Mid.jumpIfFull (w := w) hw hs hcap' c.limit p.length
    unfold setAt
    simp only [h.mode]
    refine setHandlerUser_eff (Chg.refl hm.dw) hm.step.i hc.iflag k p ts _ ?_
    intro ex hex
    by_cases h0 : k.length ≠ 0
    · rw [if_pos h0] at hex
      obtain ⟨it, ⟨pre, post, a1, a2⟩, hi⟩ := h.itemAt hex
      exact ⟨it, ⟨pre, post, hm.ix _ _ a1, a2⟩, hi⟩
    · rw [if_neg h0] at hex; cases hex
  · exact cmdDel_eff hw argv (fun k _ => cmdDel_body_eff hw hs.i hc.iflag argv k (fun ex he => h.itemAt he))

theorem _root_.Zdb.SInv.hstep {w : Waited} {c : Ctx} {br : Branches} {s : Store} {G : Log} (h : SInv s G) (hw : s.DW)
    (hc : CtxOK c) (d : DsCmd) (argv : List Bytes) (ha : ArgsOK argv) (hcap : s.ifiles.length < 2 ^ 32)
    (hn : NearEvent (absSlots G) (.cmd c d argv)) (hclean : CleanStep s (command w c br s d argv).1.2.1)
    (hno : ¬ IsReset d (command w c br s d argv).1.2.2) :
    HStep w s (command w c br s d argv).1.2.1 (command w c br s d argv).2 := by
  have hs := h.toCore.inStep
  have hcap' : s.indexid + 1 < 2 ^ 32 := by have := hs.i; omega
  refine hstep_of hw hs hcap' d argv (fun k p ts hd hk hp hts heq => ?_) (fun hd => ?_) hno
  · subst hd
    rw [heq] at hclean
    have hm := Mid.jumpIfFull (w := w) hw hs hcap' c.limit p.length
    have hentry : (if k.length ≠ 0 then Zdb.indexGet br s c.u k else none) = (slotGet G k).map (Loc.sentry c.u) := by
      by_cases h0 : k.length = 0
      · rw [List.length_eq_zero_iff.1 h0]; simp [slotGet_nil]
      · rw [if_pos h0, h.indexGet c.u k (near_iff.1 (hn k hk))]
    have hjd : ∃ d', (jumpIfFull w c.limit s p.length).1 = { Zdb.jumpIfFull c.limit s p.length with dirty := d' } := by
      unfold jumpIfFull Zdb.jumpIfFull
      split
      · unfold jump
        dsimp only
        split
        · exact ⟨_, rfl⟩
        · exact ⟨(Zdb.jump s).dirty, rfl⟩
      · exact ⟨s.dirty, rfl⟩
    obtain ⟨d', hjd⟩ := hjd
    unfold setAt at hclean ⊢
    simp only [h.mode] at hclean ⊢
    obtain ⟨G1, j1, j2, j3, j4, j5⟩ := seqJumpIfFull_spec h hcap c.limit p.length hc.limit (by
      rcases hclean with hcl | hcl
      · left
        rw [setHandlerSeq_indexid, hjd] at hcl
        exact hcl
      · exact Or.inr hcl)
    have j1' : SInv (jumpIfFull w c.limit s p.length).1 G1 := by rw [hjd]; exact j1.setDirty d'
    have j5' : Zdb.fileLen (jumpIfFull w c.limit s p.length).1.dfiles (jumpIfFull w c.limit s p.length).1.dataid ≤ 2 ^ 31 := by
      rw [hjd]; exact j5
    rw [hentry, ← j3]
    have hpl := ha.size p hp
    refine setHandlerSeq_eff j1' (Chg.refl hm.dw) hc.iapp hc.iover k p ts (by omega) hts j5' ?_
    intro l hl
    exact j1'.irep.at (j1'.slot hl).2.2.1
  · subst hd
    exact cmdDel_eff hw argv (fun k hk => cmdDel_body_eff hw hs.i hc.iflag argv k
      (fun ex he => h.itemAt (near_iff.1 (hn k hk)) he))

/-! ### the copies -/

theorem Waited.done_iff {w : Waited} (h : ∃ code, w = .exited code) : w.done ↔ w.status = 0 := by
  obtain ⟨code, rfl⟩ := h
  exact Iff.rfl

theorem Faithful.step {w : Waited} {s t : Store} {L : List Call} {b : Copies} {m : Nat → Prop} {part : List Nat}
    (h : Faithful s b m) (hs : InStep s) (hcap : s.indexid + 1 < 2 ^ 32) (hst : HStep w s t L)
    (hw : ∃ code, w = .exited code) :
    Faithful t (L.foldl (Copies.hear w part) b) (fun i => m i ∨ (L ≠ [] ∧ ¬ w.done ∧ i = s.indexid)) := by
  have hd := Waited.done_iff hw
  have hi := hs.i
  have hdl := hs.d
  have file : ∀ i, i ≤ s.indexid → ∃ f, s.ifiles[i]? = some f := fun i hi' =>
    ⟨_, List.getElem?_eq_getElem (by omega)⟩
  have dfile : ∀ i, i ≤ s.dataid → ∃ f, s.dfiles[i]? = some f := fun i hi' =>
    ⟨_, List.getElem?_eq_getElem (by omega)⟩
  -- a copy that was right stays right, or the file is listed
  have keep : ∀ i (x : Option Bytes), i < t.indexid → i ≤ s.indexid → x = s.ifiles[i]? →
      x = t.ifiles[i]? ∨ i ∈ dirtyList t.dirty := by
    intro i x h1 h2 h3
    obtain ⟨f, hf⟩ := file i h2
    rcases hst.ix i f h1 hf with h4 | h4
    · exact Or.inr ((mem_dirtyList _ _).2 h4)
    · left; rw [h3, hf, h4]
  have dkeep : ∀ i (x : Option Bytes), i < t.dataid → i ≤ s.dataid → x = s.dfiles[i]? → x = t.dfiles[i]? := by
    intro i x h1 h2 h3
    obtain ⟨f, hf⟩ := dfile i h2
    rw [h3, hf, hst.dx i f h1 hf]
  rcases hst.calls with ⟨rfl, e1, e2, mono⟩ | ⟨rfl, e1, e2, mono⟩
  · refine ⟨fun i h1 h2 => ?_, fun i h1 => ?_⟩
    · rcases h.idx i (by omega) (fun hm => h2 (Or.inl hm)) with h3 | h3
      · exact keep i _ h1 (by omega) h3
      · exact Or.inr ((mem_dirtyList _ _).2 (mono i ((mem_dirtyList _ _).1 h3)))
    · rcases h.dat i (by omega) with h3 | h3
      · exact Or.inl (dkeep i _ h1 (by omega) h3)
      · exact Or.inr h3
  · have hj := (jump_keeps hs hcap).1
    refine ⟨fun i h1 h2 => ?_, fun i h1 => ?_⟩
    · have h2' : ¬ m i := fun hm => h2 (Or.inl hm)
      show copied (if w.done then s.indexid :: dirtyList s.dirty else part) (Zdb.jump s).ifiles b.idx i = _ ∨ _
      obtain ⟨f, hf⟩ := file i (by omega)
      have hjf : (Zdb.jump s).ifiles[i]? = s.ifiles[i]? := by rw [hf]; exact hj i f hf
      unfold copied
      by_cases hdn : w.done
      · rw [if_pos hdn]
        by_cases him : i ∈ s.indexid :: dirtyList s.dirty
        · rw [if_pos him]; exact keep i _ h1 (by omega) hjf
        · rw [if_neg him]
          have hne : i ≠ s.indexid := fun e => him (by rw [e]; exact List.mem_cons_self ..)
          have hnd : i ∉ dirtyList s.dirty := fun e => him (List.mem_cons_of_mem _ e)
          exact keep i _ h1 (by omega) ((h.idx i (by omega) h2').resolve_right hnd)
      · rw [if_neg hdn]
        have hne : i ≠ s.indexid := fun e => h2 (Or.inr ⟨by simp [jump], hdn, e⟩)
        by_cases him : i ∈ part
        · rw [if_pos him]; exact keep i _ h1 (by omega) hjf
        · rw [if_neg him]
          rcases h.idx i (by omega) h2' with h3 | h3
          · exact keep i _ h1 (by omega) h3
          · exact Or.inr ((mem_dirtyList _ _).2 (mono (fun e => hdn (hd.2 e)) i ((mem_dirtyList _ _).1 h3)))
    · show b.dat i = _ ∨ i ∈ s.dataid :: b.todo
      by_cases hid : i = s.dataid
      · right; rw [hid]; exact List.mem_cons_self ..
      · rcases h.dat i (by omega) with h3 | h3
        · exact Or.inl (dkeep i _ h1 (by omega) h3)
        · exact Or.inr (List.mem_cons_of_mem _ h3)

theorem Faithful.late {s : Store} {b : Copies} {m : Nat → Prop} (h : Faithful s b m) (i : Nat) :
    Faithful s (b.late s.dfiles i) m := by
  unfold Copies.late
  split
  · refine ⟨h.idx, fun j hj => ?_⟩
    show copied [i] s.dfiles b.dat j = _ ∨ j ∈ b.todo.filter (· ≠ i)
    unfold copied
    by_cases hji : j = i
    · left; simp [hji]
    · rcases h.dat j hj with h1 | h1
      · left; rw [if_neg (by simp [hji])]; exact h1
      · right; simp [h1, hji]
  · exact h

/-- What the copies are once the server has stopped. -/
theorem Faithful.closed {s : Store} {b : Copies} {m : Nat → Prop} (h : Faithful s b m) (hs : InStep s) :
    (∀ i, i ≤ s.indexid → i = s.indexid ∨ ¬ m i → ((close s).foldl (Copies.hear (.exited 0) []) b).idx i = s.ifiles[i]?) ∧
    ∀ i, i ≤ s.dataid → ((close s).foldl (Copies.hear (.exited 0) []) b).dat i = s.dfiles[i]? ∨
      i ∈ ((close s).foldl (Copies.hear (.exited 0) []) b).todo := by
  refine ⟨fun i h1 h2 => ?_, fun i h1 => ?_⟩
  · show copied (s.indexid :: dirtyList s.dirty) s.ifiles b.idx i = _
    unfold copied
    by_cases him : i ∈ s.indexid :: dirtyList s.dirty
    · rw [if_pos him]
    · rw [if_neg him]
      have hne : i ≠ s.indexid := fun e => him (by rw [e]; exact List.mem_cons_self ..)
      have hnd : i ∉ dirtyList s.dirty := fun e => him (List.mem_cons_of_mem _ e)
      exact (h.idx i (by omega) (h2.resolve_left hne)).resolve_right hnd
  · show copied [s.dataid] s.dfiles b.dat i = _ ∨ i ∈ b.todo
    unfold copied
    by_cases him : i = s.dataid
    · left; simp [him]
    · rw [if_neg (by simp [him])]
      exact h.dat i (by omega)

theorem Faithful.restart {s t : Store} {b : Copies} {m : Nat → Prop} (h : Faithful s b m) (hs : InStep s)
    (ht : InStep t) (h1 : t.ifiles = s.ifiles) (h2 : t.dfiles = s.dfiles) :
    Faithful t ((Backup.close s).foldl (Copies.hear (.exited 0) []) b) m := by
  obtain ⟨k1, k2⟩ := h.closed hs
  have a1 := hs.i
  have a2 := hs.d
  have b1 := ht.i
  have b2 := ht.d
  rw [h1] at b1
  rw [h2] at b2
  refine ⟨fun i hi hm => ?_, fun i hi => ?_⟩
  · left; rw [h1]; exact k1 i (by omega) (Or.inr hm)
  · rw [h2]; exact k2 i (by omega)

/-- The trace as the namespace sees it. -/
def nsTrace (tr : List (Event × Reply)) : List (NsEvent × Reply) := tr.map (fun x => (x.1.ns, x.2))

theorem _root_.Zdb.UInv.copies {cfg : Option Mode} (hcfg : cfg = none ∨ cfg = some .user) {u : Nat} {br br' : Branches}
    {s s' : Store} {b b' : Copies} {m m' : Nat → Prop} {tr : List (Event × Reply)}
    (hr : Run cfg AnyEv u br s b m tr br' s' b' m') {G : Log}
    (h : UInv br u s G) (hev : ∀ x ∈ tr, EvOK x.1.ns) {n : Nat} (hroom : Room s.ifiles.length (totalData s) (tr.length + n))
    (hw : s.DW) (hsound : ∀ x ∈ tr, Sound x) (hF : Faithful s b m) :
    Faithful s' b' m' ∧ Room s'.ifiles.length (totalData s') n ∧ ∃ G', UInv br' u s' G' ∧ absKV G' = specRun (absKV G) (tr.map (·.1.ns)) ∧
      Agrees (absKV G) (nsTrace tr) ∧ s'.DW := by
  induction hr generalizing G with
  | nil br s b m => exact ⟨hF, hroom.mono (by simp), G, h, rfl, trivial, hw⟩
  | @cmd c d argv w part br br1 br2 s s1 s2 r L b b2 m m2 tr hu h1 _ h2 ih =>
    subst hu
    obtain ⟨hc, ha⟩ := hev _ (List.mem_cons_self ..)
    obtain ⟨hno, hex⟩ := hsound _ (List.mem_cons_self ..)
    have hs := h.toCore.inStep
    have hcap : s.ifiles.length < 2 ^ 32 := by have := hroom.1; omega
    have hcap' : s.indexid + 1 < 2 ^ 32 := by have := hs.i; omega
    have hst := h.hstep (w := w) hw hc d argv hcap (by rw [h1]; exact hno)
    obtain ⟨d', e, -⟩ := command_eq (w := w) (c := c) (br := br) hw hcap' d argv
    obtain ⟨G1, i1, i2, i3, -⟩ := (h.setDirty d').command hc d argv ha (hroom.mono (by simp only [List.length_cons]; omega))
    have hg := dsCommand_grows c br { s with dirty := d' } d argv (2 ^ 23) ha.size
    rw [← e, h1] at i1 hg
    rw [← e, h1] at i3
    rw [h1] at hst
    obtain ⟨F, S, G2, u1, u2, u3, u4⟩ := ih i1 (fun x hx => hev x (List.mem_cons_of_mem _ hx))
      (Room.step (s := { s with dirty := d' }) (n := tr.length + n) (hroom.mono (by simp only [List.length_cons]; omega)) hg (by omega)) hst.dw
      (fun x hx => hsound x (List.mem_cons_of_mem _ hx)) (hF.step hs hcap' hst hex)
    refine ⟨F, S, G2, u1, ?_, ?_, u4⟩
    · rw [u2, i2]; rfl
    · refine ⟨i3, ?_⟩
      rw [i2] at u3
      exact u3
  | @foreign br br1 br2 s s2 b b2 m m2 tr h1 _ h2 ih =>
    obtain ⟨F, S, G2, u1, u2, u3, u4⟩ := ih (h.foreign h1) (fun x hx => hev x (List.mem_cons_of_mem _ hx))
      (hroom.mono (by simp only [List.length_cons]; omega)) hw (fun x hx => hsound x (List.mem_cons_of_mem _ hx)) hF
    exact ⟨F, S, G2, u1, u2, ⟨by simp [specEvent, Event.ns], u3⟩, u4⟩
  | @late i br br2 s s2 b b2 m m2 tr _ h2 ih =>
    obtain ⟨F, S, G2, u1, u2, u3, u4⟩ := ih h (fun x hx => hev x (List.mem_cons_of_mem _ hx))
      (hroom.mono (by simp only [List.length_cons]; omega)) hw (fun x hx => hsound x (List.mem_cons_of_mem _ hx)) (hF.late i)
    exact ⟨F, S, G2, u1, u2, ⟨by simp [specEvent, Event.ns], u3⟩, u4⟩
  | @restart br br1 br2 s s1 s2 b b2 m m2 tr h1 _ h2 ih =>
    have hs := h.toCore.inStep
    have hlen := h.irep.length
    obtain ⟨br3, t, k1, k2, k3, k4, -⟩ := h.reload cfg hcfg (by have := hroom.1; omega)
    rw [h1] at k1
    injection k1 with k1 k1'
    subst k1; subst k1'
    have hd := reloadNs_dirty h1
    obtain ⟨F, S, G2, u1, u2, u3, u4⟩ := ih k2 (fun x hx => hev x (List.mem_cons_of_mem _ hx))
      (by rw [k3, totalData, k4]; exact hroom.mono (by simp only [List.length_cons]; omega)) hd.1
      (fun x hx => hsound x (List.mem_cons_of_mem _ hx)) (hF.restart hs k2.toCore.inStep k3 k4)
    exact ⟨F, S, G2, u1, u2, ⟨by simp [specEvent, Event.ns], u3⟩, u4⟩

theorem _root_.Zdb.SInv.copies {cfg : Option Mode} (hcfg : cfg = none ∨ cfg = some .seq) {u : Nat} {br br' : Branches}
    {s s' : Store} {b b' : Copies} {m m' : Nat → Prop} {tr : List (Event × Reply)}
    (hr : Run cfg CleanEv u br s b m tr br' s' b' m') {G : Log}
    (h : SInv s G) (hev : ∀ x ∈ tr, EvOK x.1.ns) (hnear : NearRun (absSlots G) (tr.map (·.1.ns)))
    {n : Nat} (hroom : Room s.ifiles.length (totalData s) (tr.length + n))
    (hw : s.DW) (hsound : ∀ x ∈ tr, Sound x) (hF : Faithful s b m) :
    Faithful s' b' m' ∧ Room s'.ifiles.length (totalData s') n ∧ ∃ G', SInv s' G' ∧ absSlots G' = specSeqRun (absSlots G) (tr.map (·.1.ns)) ∧
      SeqAgrees (absSlots G) (nsTrace tr) ∧ s'.DW := by
  induction hr generalizing G with
  | nil br s b m => exact ⟨hF, hroom.mono (by simp), G, h, rfl, trivial, hw⟩
  | @cmd c d argv w part br br1 br2 s s1 s2 r L b b2 m m2 tr hu h1 hcl h2 ih =>
    subst hu
    obtain ⟨hc, ha⟩ := hev _ (List.mem_cons_self ..)
    obtain ⟨hno, hex⟩ := hsound _ (List.mem_cons_self ..)
    have hs := h.toCore.inStep
    have hcap : s.ifiles.length < 2 ^ 32 := by have := hroom.1; omega
    have hcap' : s.indexid + 1 < 2 ^ 32 := by have := hs.i; omega
    have hst := h.hstep (w := w) (br := br) hw hc d argv ha hcap hnear.1 (by rw [h1]; exact hcl) (by rw [h1]; exact hno)
    obtain ⟨d', e, -⟩ := command_eq (w := w) (c := c) (br := br) hw hcap' d argv
    obtain ⟨G1, i0, i1, i2, i3⟩ := (h.setDirty d').command (br := br) hc d argv ha (hroom.mono (by simp only [List.length_cons]; omega)) hnear.1
      (by rw [← e, h1]; exact hcl)
    have hg := dsCommand_grows c br { s with dirty := d' } d argv (2 ^ 23) ha.size
    rw [← e, h1] at i1 hg
    rw [← e, h1] at i3
    rw [h1] at hst
    have hnear2 : NearRun (specSeqCmd c (absSlots G) d argv).1 (tr.map (·.1.ns)) := hnear.2
    rw [← i2] at hnear2
    obtain ⟨F, S, G2, u1, u2, u3, u4⟩ := ih i1 (fun x hx => hev x (List.mem_cons_of_mem _ hx)) hnear2
      (Room.step (s := { s with dirty := d' }) (n := tr.length + n) (hroom.mono (by simp only [List.length_cons]; omega)) hg (by omega)) hst.dw
      (fun x hx => hsound x (List.mem_cons_of_mem _ hx)) (hF.step hs hcap' hst hex)
    refine ⟨F, S, G2, u1, ?_, ?_, u4⟩
    · rw [u2, i2]; rfl
    · refine ⟨i3, ?_⟩
      rw [i2] at u3
      exact u3
  | @foreign br br1 br2 s s2 b b2 m m2 tr h1 _ h2 ih =>
    obtain ⟨F, S, G2, u1, u2, u3, u4⟩ := ih h (fun x hx => hev x (List.mem_cons_of_mem _ hx)) hnear.2
      (hroom.mono (by simp only [List.length_cons]; omega)) hw (fun x hx => hsound x (List.mem_cons_of_mem _ hx)) hF
    exact ⟨F, S, G2, u1, u2, ⟨by simp [specSeqEvent, Event.ns], u3⟩, u4⟩
  | @late i br br2 s s2 b b2 m m2 tr _ h2 ih =>
    obtain ⟨F, S, G2, u1, u2, u3, u4⟩ := ih h (fun x hx => hev x (List.mem_cons_of_mem _ hx)) hnear.2
      (hroom.mono (by simp only [List.length_cons]; omega)) hw (fun x hx => hsound x (List.mem_cons_of_mem _ hx)) (hF.late i)
    exact ⟨F, S, G2, u1, u2, ⟨by simp [specSeqEvent, Event.ns], u3⟩, u4⟩
  | @restart br br1 br2 s s1 s2 b b2 m m2 tr h1 hcl h2 ih =>
    have hs := h.toCore.inStep
    have hlen := h.irep.length
    have hlast : G.length = 1 ∨ 29 < logEnd G := by
      rcases hcl with hcl | hcl
      · left; have := h.iid; omega
      · right; rw [h.fileLen] at hcl; exact hcl
    obtain ⟨t, k1, k2, k3, k4, -⟩ := h.reload br u cfg hcfg (by have := hroom.1; omega) hlast
    rw [h1] at k1
    injection k1 with k1 k1'
    subst k1; subst k1'
    have hd := reloadNs_dirty h1
    obtain ⟨F, S, G2, u1, u2, u3, u4⟩ := ih k2 (fun x hx => hev x (List.mem_cons_of_mem _ hx)) hnear.2
      (by rw [k3, totalData, k4]; exact hroom.mono (by simp only [List.length_cons]; omega)) hd.1
      (fun x hx => hsound x (List.mem_cons_of_mem _ hx)) (hF.restart hs k2.toCore.inStep k3 k4)
    exact ⟨F, S, G2, u1, u2, ⟨by simp [specSeqEvent, Event.ns], u3⟩, u4⟩

end Zdb.Backup
