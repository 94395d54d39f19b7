/-
A sequential namespace whose data files are damaged follows one whose data files are not.
-/
import Verif.Lemmas.Loss
import Verif.Lemmas.SeqRebuild
import Verif.Spec.LossSeq
namespace Zdb

theorem insertSeq_gh (s : Store) (F : List Bytes) (u : Nat) (io : Io) (r : SetReq) :
    insertSeq (s.gh F) u io r = ((insertSeq s u io r).1.gh F, (insertSeq s u io r).2) := by
  have h := insertSeq_withData s s.dfiles s.dprev u io r
  have h1 : (insertSeq s u io r).1.dfiles = s.dfiles := congrArg (·.1.dfiles) h
  have h2 : (insertSeq s u io r).1.dprev = s.dprev := congrArg (·.1.dprev) h
  rw [gh_withData, insertSeq_withData, withData_gh F h1 h2]

theorem updateSeq_gh (s : Store) (F : List Bytes) (u : Nat) (io : Io) (r : SetReq) (ex : Entry) :
    updateSeq (s.gh F) u io r ex = ((updateSeq s u io r ex).1.gh F, (updateSeq s u io r ex).2) := by
  have h := updateSeq_withData s s.dfiles s.dprev u io r ex
  have h1 : (updateSeq s u io r ex).1.dfiles = s.dfiles := congrArg (·.1.dfiles) h
  have h2 : (updateSeq s u io r ex).1.dprev = s.dprev := congrArg (·.1.dprev) h
  rw [gh_withData, updateSeq_withData, withData_gh F h1 h2]

/-- What a SET does that is not skipped. -/
def setWriteSeq (c : Ctx) (br : Branches) (s : Store) (p : Bytes) (ts : Nat) (ex : Option Entry) : Branches × Store × Reply :=
  let id := seqIdOf s ex
  let (s, off) := dataInsert s c.io id p 0 (crc32 p) ts
  if off = 0 then (br, s, .err "Cannot write data right now")
  else
    let r : SetReq := { id := id, offset := off, length := p.length, crc := crc32 p, dataid := s.dataid, timestamp := ts }
    let (s, ok) := match ex with
      | some ex => updateSeq s c.u c.io r ex
      | none => insertSeq s c.u c.io r
    if ok then (br, s, .bulk id) else (br, s, .err "Cannot write index right now")

theorem setHandlerSeq_eq (c : Ctx) (br : Branches) (s : Store) (k p : Bytes) (ts : Nat) (ex : Option Entry) :
    setHandlerSeq c br s k p ts ex =
      if k.length ≠ 0 ∧ ex.isNone then (br, s, .err "Invalid key, only update authorized")
      else if upToDate s ex p then (br, s, .nil) else setWriteSeq c br s p ts ex := rfl

theorem setWriteSeq_gh {F : List Bytes} {s : Store} (h : Under F s) (c : Ctx) (br : Branches) (p : Bytes) (ts : Nat) (ex : Option Entry) :
    setWriteSeq c br (s.gh F) p ts ex =
      ((setWriteSeq c br s p ts ex).1, (setWriteSeq c br s p ts ex).2.1.gh F, (setWriteSeq c br s p ts ex).2.2) := by
  have hid : seqIdOf (s.gh F) ex = seqIdOf s ex := rfl
  unfold setWriteSeq
  dsimp only
  rw [hid, dataInsert_gh h]
  generalize dataInsert s c.io (seqIdOf s ex) p 0 (crc32 p) ts = x
  obtain ⟨s1, off⟩ := x
  have hd : (s1.gh F).dataid = s1.dataid := rfl
  dsimp only
  by_cases ho : off = 0
  · rw [if_pos ho, if_pos ho]
  · rw [if_neg ho, if_neg ho, hd]
    cases ex with
    | none =>
      dsimp only
      rw [insertSeq_gh]
      dsimp only
      split <;> rfl
    | some e =>
      dsimp only
      simp only [updateSeq_gh]
      split <;> rfl

/-- The reply of a SET that is not skipped. -/
theorem setWriteSeq_reply (c : Ctx) (br : Branches) (s : Store) (p : Bytes) (ts : Nat) (ex : Option Entry) :
    (∃ b, (setWriteSeq c br s p ts ex).2.2 = .bulk b) ∨ (setWriteSeq c br s p ts ex).2.2 = .err "Cannot write data right now" ∨
      (setWriteSeq c br s p ts ex).2.2 = .err "Cannot write index right now" := by
  unfold setWriteSeq
  dsimp only
  generalize dataInsert s c.io (seqIdOf s ex) p 0 (crc32 p) ts = x
  obtain ⟨s1, off⟩ := x
  dsimp only
  by_cases ho : off = 0
  · rw [if_pos ho]; exact Or.inr (Or.inl rfl)
  · rw [if_neg ho]
    cases ex with
    | none =>
      dsimp only
      split
      · exact Or.inl ⟨_, rfl⟩
      · exact Or.inr (Or.inr rfl)
    | some e =>
      dsimp only
      split
      · exact Or.inl ⟨_, rfl⟩
      · exact Or.inr (Or.inr rfl)

/-- The same result, but for the files replaced. -/
def GhRes (F : List Bytes) (x y : Branches × Store × Reply) : Prop := x.1 = y.1 ∧ x.2.1 = y.2.1.gh F ∧ x.2.2 = y.2.2

theorem SInv.paired {s : Store} {G : Log} (h : SInv s G) : InStep s := by
  have h1 := h.iid
  have h2 := h.did
  have h3 := h.dlen
  have h4 := h.irep.length
  have h5 := h.G0
  exact ⟨by omega, by omega, by omega⟩

theorem inStep_gh {s : Store} {F : List Bytes} (hF : Under F s) (h : InStep (s.gh F)) : InStep s := by
  have h1 := h.d
  have h2 : (s.gh F).dfiles.length = s.dfiles.length := gh_len (by have := hF.1; have := hF.2; omega)
  exact ⟨by rw [← h2]; exact h1, h.i, h.same⟩

theorem setBody_gh {c : Ctx} {br : Branches} {t : Store} {F : List Bytes} {G : Log} (hF : Under F t) (h : SInv (t.gh F) G)
    (hcap : t.indexid + 1 < 2 ^ 32) {n k p : Bytes} {rest : List Bytes} (hp : p.length < 2 ^ 32) (hn : Near G k)
    (told : SetAsTold (absSlots G) (.cmd c .set (n :: k :: p :: rest)) (cmdSet.body c br t (n :: k :: p :: rest) k p).2.2) :
    GhRes F (cmdSet.body c br (t.gh F) (n :: k :: p :: rest) k p) (cmdSet.body c br t (n :: k :: p :: rest) k p) := by
  have hs := inStep_gh hF h.paired
  have hm : t.mode = .seq := h.mode
  have hm' : (t.gh F).mode = .seq := h.mode
  have hds : (t.gh F).datasize = t.datasize := rfl
  have hi : indexGet br (t.gh F) c.u k = indexGet br t c.u k := rfl
  have hx : indexGet br t c.u k = (slotGet G k).map (Loc.sentry c.u) := h.indexGet c.u k hn
  unfold cmdSet.body at told ⊢
  by_cases c1 : k.length > 255
  · rw [if_pos c1, if_pos c1]; exact ⟨rfl, rfl, rfl⟩
  rw [if_neg c1] at told ⊢; rw [if_neg c1]
  by_cases c2 : (!c.writable) = true
  · rw [if_pos c2, if_pos c2]; exact ⟨rfl, rfl, rfl⟩
  rw [if_neg c2] at told ⊢; rw [if_neg c2]
  by_cases c3 : c.conf.isFrozen = true
  · rw [if_pos c3, if_pos c3]; exact ⟨rfl, rfl, rfl⟩
  rw [if_neg c3] at told ⊢; rw [if_neg c3]
  by_cases c4 : c.conf.isLocked = true
  · rw [if_pos c4, if_pos c4]; exact ⟨rfl, rfl, rfl⟩
  rw [if_neg c4] at told ⊢; rw [if_neg c4]
  dsimp only at told ⊢
  rw [hi, hm, hm', hds]
  rw [hm] at told
  generalize hex : (if k.length ≠ 0 then indexGet br t c.u k else none) = ex at told ⊢
  by_cases c5 : (ex.isSome && c.conf.worm) = true
  · rw [if_pos c5, if_pos c5]; exact ⟨rfl, rfl, rfl⟩
  rw [if_neg c5] at told ⊢; rw [if_neg c5]
  by_cases c6 : overQuota c.conf t.datasize p.length (floatingOf ex) = true
  · rw [if_pos c6, if_pos c6]; exact ⟨rfl, rfl, rfl⟩
  rw [if_neg c6] at told ⊢; rw [if_neg c6]
  dsimp only at told ⊢
  have hj := jumpIfFull_gh hF hs hcap c.limit p.length
  have he := jumpIfFull_ext hs hcap c.limit p.length
  have hg : DataExt (t.gh F) ((jumpIfFull c.limit t p.length).gh F) := he.ext.gh
  rw [hj]
  generalize jumpIfFull c.limit t p.length = t1 at told hj he hg ⊢
  have hF1 : Under F t1 := ⟨by have := hF.1; have := he.ext.1; omega, by have := he.step.d; omega⟩
  rw [setHandlerSeq_eq] at told
  rw [setHandlerSeq_eq, setHandlerSeq_eq]
  by_cases c7 : k.length ≠ 0 ∧ ex.isNone = true
  · rw [if_pos c7, if_pos c7]; exact ⟨rfl, rfl, rfl⟩
  rw [if_neg c7] at told ⊢; rw [if_neg c7]
  have hup : upToDate (t1.gh F) ex p = upToDate t1 ex p := by
    cases hl : ex with
    | none => rfl
    | some e =>
      rw [hl] at hex
      have hk0 : k.length ≠ 0 := by
        intro h0; rw [if_neg (by simpa using h0)] at hex; cases hex
      rw [if_pos hk0, hx, Option.map_eq_some_iff] at hex
      obtain ⟨l, hl1, hl2⟩ := hex
      have hr := (h.getRec hl1).data_mono (fs' := (t1.gh F).dfiles) (fun _ _ => hg.dataAt)
      have hb := seqUpToDate_iff (s := t1.gh F) (u := c.u) hr p hp
      rw [hl2] at hb
      have hv : (absSlots G).get k = some (l.val (locs G)) := by rw [absSlots_get, hl1]; rfl
      have hvp : (l.val (locs G)).payload = l.r.payload := rfl
      obtain ⟨t1', t2'⟩ := told _ hv
      rw [hvp] at t1' t2'
      rw [hb]
      rw [hl] at t1' t2'
      cases hu : upToDate t1 (some e) p with
      | true =>
        rw [if_pos hu] at t1'
        simpa using t1' rfl
      | false =>
        have hu' : ¬ upToDate t1 (some e) p = true := by rw [hu]; simp
        rw [if_neg hu'] at t2'
        simp only [decide_eq_false_iff_not]
        intro hpp
        obtain ⟨a1, a2, a3⟩ := t2' hpp
        rcases setWriteSeq_reply c br t1 p (timestampFromSet c.now (n :: k :: p :: rest) 3) (some e) with ⟨b, hb⟩ | hb | hb
        · exact a1 b hb
        · exact a2 hb
        · exact a3 hb
  rw [hup]
  split
  · exact ⟨rfl, rfl, rfl⟩
  · rw [setWriteSeq_gh hF1]; exact ⟨rfl, rfl, rfl⟩

theorem delBody_gh {c : Ctx} {br : Branches} {t : Store} {F : List Bytes} (hF : Under F t) (argv : List Bytes) (k : Bytes) :
    GhRes F (cmdDel.body c br (t.gh F) argv k) (cmdDel.body c br t argv k) := by
  have hi : indexGet br (t.gh F) c.u k = indexGet br t c.u k := rfl
  unfold cmdDel.body
  rw [hi]
  split
  · exact ⟨rfl, rfl, rfl⟩
  split
  · exact ⟨rfl, rfl, rfl⟩
  split
  · exact ⟨rfl, rfl, rfl⟩
  split
  · exact ⟨rfl, rfl, rfl⟩
  cases indexGet br t c.u k with
  | none => exact ⟨rfl, rfl, rfl⟩
  | some e =>
    dsimp only
    split
    · exact ⟨rfl, rfl, rfl⟩
    rw [dataInsert_gh hF]
    generalize dataInsert t c.io e.id [] 1 0 (timestampFromSet c.now argv 2) = x
    obtain ⟨s1, off⟩ := x
    dsimp only
    split
    · exact ⟨rfl, rfl, rfl⟩
    rw [indexDelete_gh]
    dsimp only
    split <;> exact ⟨rfl, rfl, rfl⟩

theorem seqCommand_gh {c : Ctx} {br : Branches} {t : Store} {F : List Bytes} {G : Log} (hF : Under F t) (h : SInv (t.gh F) G)
    (d : DsCmd) {argv : List Bytes} (ha : ArgsOK argv) (hcap : t.indexid + 1 < 2 ^ 32)
    (hn : NearEvent (absSlots G) (.cmd c d argv)) (told : SetAsTold (absSlots G) (.cmd c d argv) (dsCommand c br t d argv).2.2) :
    (dsCommand c br (t.gh F) d argv).1 = (dsCommand c br t d argv).1 ∧
    (dsCommand c br (t.gh F) d argv).2.1 = (dsCommand c br t d argv).2.1.gh F ∧
    (d.readsData = false → (dsCommand c br (t.gh F) d argv).2.2 = (dsCommand c br t d argv).2.2) := by
  cases d with
  | set =>
    have key : ∀ n k p rest, argv = n :: k :: p :: rest →
        SetAsTold (absSlots G) (.cmd c .set argv) (cmdSet.body c br t argv k p).2.2 →
        GhRes F (cmdSet.body c br (t.gh F) argv k p) (cmdSet.body c br t argv k p) := by
      intro n k p rest he ht
      subst he
      exact setBody_gh hF h hcap (by have := ha.size p (by simp); omega) (near_iff.1 (hn k rfl)) ht
    have : GhRes F (dsCommand c br (t.gh F) .set argv) (dsCommand c br t .set argv) := by
      unfold dsCommand cmdSet at told ⊢
      match argv with
      | [] => exact ⟨rfl, rfl, rfl⟩
      | [_] => exact ⟨rfl, rfl, rfl⟩
      | [_, _] => exact ⟨rfl, rfl, rfl⟩
      | [n, k, p] => exact key n k p [] rfl told
      | [n, k, p, x] =>
        dsimp only at told ⊢
        by_cases had : c.admin = true
        · rw [if_pos had] at told ⊢; rw [if_pos had]
          exact key n k p [x] rfl told
        · rw [if_neg had, if_neg had]; exact ⟨rfl, rfl, rfl⟩
      | _ :: _ :: _ :: _ :: _ :: _ => exact ⟨rfl, rfl, rfl⟩
    exact ⟨this.1, this.2.1, fun _ => this.2.2⟩
  | del =>
    have : GhRes F (dsCommand c br (t.gh F) .del argv) (dsCommand c br t .del argv) := by
      unfold dsCommand cmdDel
      dsimp only
      split
      · split
        · exact delBody_gh hF _ _
        · exact ⟨rfl, rfl, rfl⟩
      · split
        · exact ⟨rfl, rfl, rfl⟩
        · split
          · exact delBody_gh hF _ _
          · exact ⟨rfl, rfl, rfl⟩
    exact ⟨this.1, this.2.1, fun _ => this.2.2⟩
  | nsjump =>
    have hs := inStep_gh hF h.paired
    simp only [dsCommand, cmdNsjump]
    split
    · exact ⟨trivial, jump_gh hF hs hcap, fun _ => rfl⟩
    · exact ⟨trivial, rfl, fun _ => rfl⟩
  | index =>
    refine ⟨rfl, ?_, fun h => by cases h⟩
    have hr : replyIndex c (t.gh F) argv = replyIndex c t argv := rfl
    simp only [dsCommand, cmdIndex, hr]
    cases replyIndex c t argv <;> rfl
  | «exists» => exact ⟨rfl, rfl, fun _ => rfl⟩
  | length => exact ⟨rfl, rfl, fun _ => rfl⟩
  | keytime => exact ⟨rfl, rfl, fun _ => rfl⟩
  | dbsize => exact ⟨rfl, rfl, fun _ => rfl⟩
  | _ => exact ⟨rfl, rfl, fun h => by cases h⟩

/-- The execution without the damage. -/
theorem SeqLossSteps.shadow {cfg : Option Mode} (hcfg : cfg = none ∨ cfg = some .seq) {u : Nat} {br br' : Branches} {t t' : Store}
    {tr : List (LossEvent × Reply)} (hr : SeqLossSteps cfg u br t tr br' t') {F : List Bytes} {G : Log} (hF : Under F t)
    (h : SInv (t.gh F) G) (hev : ∀ e ∈ evsOf tr, EvOK e) (hnear : NearRun (absSlots G) (evsOf tr)) (told : AsTold (absSlots G) tr)
    (hroom : Room (t.gh F).ifiles.length (totalData (t.gh F)) (evsOf tr).length) :
    ∃ trg F', CleanRun cfg u br (t.gh F) trg br' (t'.gh F') ∧ trg.map (·.1) = evsOf tr ∧ Under F' t' ∧
      AgreesButData (absSlots G) tr := by
  induction hr generalizing F G with
  | nil br s => exact ⟨[], F, .nil _ _, rfl, hF, trivial⟩
  | @cmd c d argv br br1 br2 s s1 s2 r tr hu h1 hcl h2 ih =>
    subst hu
    obtain ⟨hc, ha⟩ := hev (.cmd c d argv) (List.mem_cons_self ..)
    have hs := inStep_gh hF h.paired
    have hcap : s.indexid + 1 < 2 ^ 32 := by
      have h5 : (s.gh F).ifiles.length = s.ifiles.length := rfl
      have h6 := hroom.1
      have h7 := hs.i
      simp only [evsOf, List.length_cons] at h6
      omega
    have told' : SetAsTold (absSlots G) (.cmd c d argv) (dsCommand c br s d argv).2.2 := by rw [h1]; exact told.1
    obtain ⟨g1, g2, g3⟩ := seqCommand_gh hF h d ha hcap hnear.1 told'
    have he := dsCommand_ext c br hs hcap d argv
    rw [h1] at g1 g2 g3 he
    simp only at g1 g2 g3 he
    have hcl' : CleanStep (s.gh F) (dsCommand c br (s.gh F) d argv).2.1 := by rw [g2]; exact hcl
    obtain ⟨G1, i0, i1, i2, i3⟩ := h.command (br := br) hc d argv ha (hroom.mono (by simp [evsOf])) hnear.1 hcl'
    have hg := dsCommand_grows c br (s.gh F) d argv (2 ^ 23) ha.size
    have hun : Under F s1 := ⟨by have := hF.1; have := he.ext.1; omega, by have := he.step.d; omega⟩
    have hnear2 := hnear.2
    have told2 := told.2
    simp only [specSeqEvent] at hnear2 told2
    rw [← i2] at hnear2 told2
    rw [g2] at i1 hg hcl'
    obtain ⟨trg, F', j1, j2, j3, j4⟩ := ih hun i1 (fun x hx => hev x (List.mem_cons_of_mem _ hx)) hnear2 told2
      (hroom.step hg (by omega))
    refine ⟨(.cmd c d argv, (dsCommand c br (s.gh F) d argv).2.2) :: trg, F', ?_, ?_, j3, ?_, ?_⟩
    · refine .cmd c d argv rfl ?_ hcl' j1
      rw [← g1, ← g2]
    · simp only [List.map_cons, j2, evsOf]
    · intro c' d' argv' e hd r' hr'
      injection e with e1 e2 e3
      subst e1; subst e2; subst e3
      rw [← g3 hd]
      exact i3 r' hr'
    · rw [i2] at j4; exact j4
  | @foreign br br1 br2 s s2 tr h1 h2 ih =>
    obtain ⟨trg, F', j1, j2, j3, j4⟩ := ih hF h (fun x hx => hev x (List.mem_cons_of_mem _ hx)) hnear.2 told.2
      (hroom.mono (by simp [evsOf]))
    exact ⟨(.foreign, .nil) :: trg, F', .foreign h1 j1, by simp only [List.map_cons, j2, evsOf], j3,
      ⟨fun _ _ _ e => (by cases e), j4⟩⟩
  | @reload br br1 br2 s s1 s2 tr h1 hcl h2 ih =>
    have hlen := h.irep.length
    have hlast : G.length = 1 ∨ 29 < logEnd G := by
      rcases hcl with hcl | hcl
      · left; have h5 := h.iid; have h6 : (s.gh F).indexid = s.indexid := rfl; omega
      · right
        have h6 : fileLen (s.gh F).ifiles (s.gh F).indexid = fileLen s.ifiles s.indexid := rfl
        rw [← h6, h.fileLen] at hcl; exact hcl
    obtain ⟨t0, k1, k2, k3, k4, -⟩ := h.reload br u cfg hcfg (by have := hroom.1; omega) hlast
    have hdid : t0.dataid = s.dataid := by
      have a1 := k2.iid; have a2 := k2.did; have a3 := h.iid; have a4 := h.did
      have a5 : (s.gh F).dataid = s.dataid := rfl
      omega
    obtain ⟨t1, m1, m2⟩ := reloadNs_gh k1 (by rw [hdid]; exact hF.1) (by have := hF.1; have := hF.2; omega)
    rw [h1] at m1
    injection m1 with m0 m1
    subst m0; subst m1
    rw [m2] at k1 k2 k3 k4 hdid
    have hd1 : s1.dataid = s.dataid := hdid
    have hun : Under F s1 := by
      have a6 : F.length ≤ s1.dataid := by rw [hd1]; exact hF.1
      refine ⟨a6, ?_⟩
      have a1 := k2.paired.d
      have a2 : (s1.gh F).dfiles.length = F.length + (s1.dfiles.length - F.length) := by
        simp only [Store.gh, List.length_append, List.length_drop]
      have a3 : (s1.gh F).dataid = s1.dataid := rfl
      omega
    obtain ⟨trg, F', j1, j2, j3, j4⟩ := ih hun k2 (fun x hx => hev x (List.mem_cons_of_mem _ hx)) hnear.2 told.2
      (by rw [k3, totalData, k4]; exact hroom.mono (by simp [evsOf]))
    exact ⟨(.reload, .ok) :: trg, F', .reload k1 hcl j1, by simp only [List.map_cons, j2, evsOf], j3,
      ⟨fun _ _ _ e => (by cases e), j4⟩⟩
  | @damage i old new br br2 s s2 tr hi ho h2 ih =>
    have hs := inStep_gh hF h.paired
    have hlen : (s.gh F).dfiles.length = s.dfiles.length := gh_len (by have := hF.1; have := hF.2; omega)
    have htl : ((s.gh F).dfiles.take s.dataid).length = s.dataid := by rw [List.length_take, hlen]; have := hF.2; omega
    have hgh : (s.damaged i new).gh ((s.gh F).dfiles.take s.dataid) = s.gh F := by
      have : (s.gh F).dfiles.take s.dataid ++ (s.dfiles.set i new).drop ((s.gh F).dfiles.take s.dataid).length = (s.gh F).dfiles := by
        rw [htl]
        refine Eq.trans ?_ (List.take_append_drop s.dataid (s.gh F).dfiles)
        congr 1
        apply List.ext_getElem?
        intro j
        rw [List.getElem?_drop, List.getElem?_drop, List.getElem?_set_ne (by omega)]
        exact (gh_get (by have := hF.1; omega)).symm
      show ({ s with dfiles := (s.gh F).dfiles.take s.dataid ++
        (s.dfiles.set i new).drop ((s.gh F).dfiles.take s.dataid).length } : Store) = s.gh F
      rw [this]
      rfl
    have hun : Under ((s.gh F).dfiles.take s.dataid) (s.damaged i new) := by
      refine ⟨by rw [htl]; exact Nat.le_refl _, ?_⟩
      show s.dataid < (s.dfiles.set i new).length
      rw [List.length_set]; exact hF.2
    rw [← hgh]
    refine ih hun (by rw [hgh]; exact h) hev hnear told (by rw [hgh]; exact hroom)

end Zdb
