/-
Writes that fail in sequential mode: C42.
-/
import Verif.Props.LossSeq
import Verif.Props.Seq
import Verif.Props.Fault
namespace Zdb

/-! ### what reading depends on -/

theorem reads_congr {c : Ctx} {br br' : Branches} {s s' : Store} {name k : Bytes}
    (hi : indexGet br' s' c.u k = indexGet br s c.u k) (hd : s'.dfiles = s.dfiles) :
    cmdGet c br' s' [name, k] = cmdGet c br s [name, k] ∧ cmdExists c br' s' [name, k] = cmdExists c br s [name, k] ∧
      cmdLength c br' s' [name, k] = cmdLength c br s [name, k] ∧ cmdCheck c br' s' [name, k] = cmdCheck c br s [name, k] := by
  have hg : ∀ a b e f, dataGet s' a b e f = dataGet s a b e f := by intro a b e f; simp only [dataGet, hd]
  have hc : ∀ a b, dataCheck s' a b = dataCheck s a b := by intro a b; simp only [dataCheck, hd]
  have key : ∀ g g' : Bytes → Reply, g' k = g k → readChecks c [name, k] g' = readChecks c [name, k] g := by
    intro g g' h
    unfold readChecks
    simp only [h]
  refine ⟨key _ _ ?_, key _ _ ?_, key _ _ ?_, key _ _ ?_⟩
  · simp only [getSingle, hi, hg]
  · simp only [hi]
  · simp only [hi]
  · simp only [hi, hc]

theorem seqGet_ext {s s' : Store} {u : Nat} {k : Bytes} {e : Entry} (hm : s'.seqmap = s.seqmap)
    (hx : ∀ (i : Nat) (f : Bytes), s.ifiles[i]? = some f → ∃ b, s'.ifiles[i]? = some (f ++ b)) (h : seqGet s u k = some e) :
    seqGet s' u k = some e := by
  have hi : ∀ a b n it, itemGetDisk s a b n = some it → itemGetDisk s' a b n = some it := by
    intro a b n it h
    unfold itemGetDisk at h ⊢
    cases hf : s.ifiles[a]? with
    | none => rw [hf] at h; simp at h
    | some f =>
      obtain ⟨y, hy⟩ := hx a f hf
      rw [hf] at h
      rw [hy]
      simp only [Option.map_eq_some_iff] at h ⊢
      obtain ⟨z, hz, hz'⟩ := h
      refine ⟨z, ?_, hz'⟩
      rw [readExact_append_left, hz]
      apply Classical.byContradiction
      intro hlt
      rw [readExact_eq_none (by simp only [itemHdr]; omega) (by omega)] at hz
      cases hz
  unfold seqGet at h ⊢
  by_cases h8 : k.length ≠ 8
  · rw [if_pos h8] at h; cases h
  rw [if_neg h8] at h ⊢
  rw [hm]
  simp only at h ⊢
  cases hq : s.seqmap with
  | none => rw [hq] at h; cases h
  | some m =>
    rw [hq] at h
    simp only at h ⊢
    cases hs : seqSearch m (fromLE k) with
    | none => rw [hs] at h; cases h
    | some x =>
      obtain ⟨a, b⟩ := x
      rw [hs] at h
      simp only at h ⊢
      cases hit : itemGetDisk s b (seqOffset (seqRelative (fromLE k) a % 2 ^ 32) % 2 ^ 32) 8 with
      | none => rw [hit] at h; cases h
      | some it => rw [hi _ _ _ _ hit]; rw [hit] at h; exact h

theorem appendFile_ext (fs : List Bytes) (j : Nat) (x : Bytes) (i : Nat) (f : Bytes) (h : fs[i]? = some f) :
    ∃ b, (appendFile fs j x)[i]? = some (f ++ b) := by
  unfold appendFile
  rw [List.getElem?_modify, h]
  by_cases hj : j = i
  · exact ⟨x, by simp [hj]⟩
  · exact ⟨[], by simp [hj]⟩

/-- An index item that was not written whole behind the log of `G` changes no id that was given out. -/
theorem SInv.torn {br : Branches} {s : Store} {G : Log} (h : SInv s G) (io : Io) (e : Entry) {k : Bytes} (hk8 : k.length = 8)
    (hk : fromLE k < (absSlots G).length) (u : Nat) :
    Zdb.indexGet br (appendEntry s io e).1 u k = Zdb.indexGet br s u k ∧ (appendEntry s io e).1.dfiles = s.dfiles := by
  refine ⟨?_, appendEntry_dfiles s io e⟩
  rw [absSlots_length] at hk
  have hsome : ∃ e', Zdb.seqGet s u k = some e' := by
    rw [h.seqGet u k (fun _ => Or.inl hk), slotAt, seqPos, if_pos hk8]
    simp only [List.getElem?_eq_getElem hk, Option.map_some]
    exact ⟨_, rfl⟩
  obtain ⟨e', he'⟩ := hsome
  have hm : (appendEntry s io e).1.mode = s.mode ∧ (appendEntry s io e).1.seqmap = s.seqmap ∧
      (appendEntry s io e).1.ifiles = appendFile s.ifiles s.indexid (io.iapp.cut (encItem (itemOf s.iprev { e with idxoffset := Zdb.fileLen s.ifiles s.indexid % 2 ^ 32, indexid := s.indexid }))) := by
    unfold appendEntry
    dsimp only
    split <;> exact ⟨rfl, rfl, rfl⟩
  have := seqGet_ext hm.2.1 (by rw [hm.2.2]; exact appendFile_ext _ _ _) he'
  unfold Zdb.indexGet
  rw [hm.1, h.mode]
  simp only [this, he']

/-! ### SET and DEL answered with an error -/

theorem insertSeq_err {s : Store} {u : Nat} {io : Io} {r : SetReq} (h : (insertSeq s u io r).2 = false) :
    (insertSeq s u io r).1 = (appendEntry s io (r.entry u)).1 := by
  unfold insertSeq at h ⊢
  generalize appendEntry s io (r.entry u) = y at h ⊢
  obtain ⟨s3, e3, ok⟩ := y
  cases ok
  · rfl
  · simp at h

theorem updateSeq_err {s : Store} {u : Nat} {io : Io} {r : SetReq} {e : Entry} (h : (updateSeq s u io r e).2 = false) :
    (updateSeq s u io r e).1 = (appendEntry s io { e with flags := setDeleted e.flags }).1 := by
  unfold updateSeq at h ⊢
  generalize appendEntry s io { e with flags := setDeleted e.flags } = y at h ⊢
  obtain ⟨s3, e3, ok⟩ := y
  cases ok
  · rfl
  · simp at h

/-- What a SET that was answered with an error leaves: a log with the same slots, perhaps followed by a part of an item. -/
theorem setHandlerSeq_err {c : Ctx} {br : Branches} {s : Store} {G : Log} (h : SInv s G) (key p : Bytes) (ts : Nat) (ex : Option Entry)
    {b : Branches} {s' : Store} {m : String} (he : setHandlerSeq c br s key p ts ex = (b, s', .err m)) :
    ∃ s2, SInv s2 G ∧ (s' = s2 ∨ ∃ e, s' = (appendEntry s2 c.io e).1) := by
  unfold setHandlerSeq at he
  by_cases h1 : key.length ≠ 0 ∧ ex.isNone
  · rw [if_pos h1] at he
    simp only [Prod.mk.injEq] at he
    exact ⟨s, h, Or.inl he.2.1.symm⟩
  rw [if_neg h1] at he
  simp only at he
  by_cases h2 : upToDate s ex p = true
  · rw [if_pos h2] at he; simp at he
  rw [if_neg h2] at he
  have hi := h.dataInsert c.io (seqIdOf s ex) p 0 (crc32 p) ts rfl
  by_cases h3 : (dataInsert s c.io (seqIdOf s ex) p 0 (crc32 p) ts).2 = 0
  · rw [if_pos h3] at he
    simp only [Prod.mk.injEq] at he
    exact ⟨_, hi, Or.inl he.2.1.symm⟩
  rw [if_neg h3] at he
  refine ⟨_, hi, Or.inr ?_⟩
  generalize dataInsert s c.io (seqIdOf s ex) p 0 (crc32 p) ts = x at he h3 ⊢
  obtain ⟨s2, off⟩ := x
  simp only at he h3 ⊢
  cases ex with
  | none =>
    simp only at he
    by_cases hok : (insertSeq s2 c.u c.io { id := seqIdOf s none, offset := off, length := p.length, crc := crc32 p, dataid := s2.dataid, timestamp := ts }).2 = true
    · rw [if_pos hok] at he; simp at he
    · rw [if_neg hok] at he
      simp only [Prod.mk.injEq] at he
      exact ⟨_, he.2.1.symm.trans (insertSeq_err (by simpa using hok))⟩
  | some e =>
    simp only at he
    by_cases hok : (updateSeq s2 c.u c.io { id := seqIdOf s (some e), offset := off, length := p.length, crc := crc32 p, dataid := s2.dataid, timestamp := ts } e).2 = true
    · rw [if_pos hok] at he; simp at he
    · rw [if_neg hok] at he
      simp only [Prod.mk.injEq] at he
      exact ⟨_, he.2.1.symm.trans (updateSeq_err (by simpa using hok))⟩

theorem seqSet_err {c : Ctx} {br : Branches} {s : Store} {G : Log} (h : SInv s G) (hlim : c.limit ≤ 2 ^ 31)
    (hcap : s.ifiles.length < 2 ^ 32) (argv : List Bytes) (k p : Bytes) (hn : Near G k) {b : Branches} {s' : Store} {m : String}
    (he : cmdSet.body c br s argv k p = (b, s', .err m)) (hclean : CleanStep s s') :
    ∃ G2 s2, SInv s2 G2 ∧ absSlots G2 = absSlots G ∧ (s' = s2 ∨ ∃ e, s' = (appendEntry s2 c.io e).1) := by
  rcases seqSet_reach (c := c) (br := br) h argv k p hn with hr | hr
  · obtain ⟨r, hr⟩ := hr c.io
    have hr : cmdSet.body c br s argv k p = (br, s, r) := hr
    rw [hr] at he
    simp only [Prod.mk.injEq] at he
    exact ⟨G, s, h, rfl, Or.inl he.2.1.symm⟩
  have hr : cmdSet.body c br s argv k p = _ := hr c.io
  rw [hr] at he
  obtain ⟨G1, j1, j2, -, -, -⟩ := seqJumpIfFull_spec h hcap c.limit p.length hlim (by
    rcases hclean with hc | hc
    · left
      have := setHandlerSeq_indexid c br (jumpIfFull c.limit s p.length) k p (timestampFromSet c.now argv 3)
        ((slotGet G k).map (Loc.sentry c.u))
      have e1 := congrArg (fun x => x.2.1.indexid) he
      simp only at e1
      rw [← hc, ← e1]
      exact this.symm
    · exact Or.inr hc)
  obtain ⟨s2, x1, x2⟩ := setHandlerSeq_err (c := { c with io := c.io }) j1 k p _ _ he
  exact ⟨G1, s2, x1, j2, x2⟩

/-- What a DEL that was answered with an error leaves: a log with the same slots, or without the value of its key. -/
theorem seqDel_err {c : Ctx} {br : Branches} {s : Store} {G : Log} (h : SInv s G) (argv : List Bytes) (k : Bytes) (hn : Near G k)
    {b : Branches} {s' : Store} {m : String} (he : cmdDel.body c br s argv k = (b, s', .err m)) :
    ∃ G2 s2, SInv s2 G2 ∧ s'.mode = s2.mode ∧ s'.seqmap = s2.seqmap ∧ s'.ifiles = s2.ifiles ∧ s'.dfiles = s2.dfiles ∧
      (absSlots G2 = absSlots G ∨
        (m = "Cannot delete key (index)" ∧ (absSlots G).get k ≠ none ∧ absSlots G2 = (absSlots G).del k)) := by
  unfold cmdDel.body at he
  simp only [h.indexGet _ k hn] at he
  by_cases h0 : k.length > 255
  · rw [if_pos h0] at he; simp only [Prod.mk.injEq] at he; obtain ⟨-, rfl, -⟩ := he; exact ⟨G, s, h, rfl, rfl, rfl, rfl, Or.inl rfl⟩
  rw [if_neg h0] at he
  by_cases h1 : (!c.writable) = true
  · rw [if_pos h1] at he; simp only [Prod.mk.injEq] at he; obtain ⟨-, rfl, -⟩ := he; exact ⟨G, s, h, rfl, rfl, rfl, rfl, Or.inl rfl⟩
  rw [if_neg h1] at he
  by_cases h2 : c.conf.isFrozen = true
  · rw [if_pos h2] at he; simp only [Prod.mk.injEq] at he; obtain ⟨-, rfl, -⟩ := he; exact ⟨G, s, h, rfl, rfl, rfl, rfl, Or.inl rfl⟩
  rw [if_neg h2] at he
  by_cases h3 : c.conf.isLocked = true
  · rw [if_pos h3] at he; simp only [Prod.mk.injEq] at he; obtain ⟨-, rfl, -⟩ := he; exact ⟨G, s, h, rfl, rfl, rfl, rfl, Or.inl rfl⟩
  rw [if_neg h3] at he
  cases hg : slotGet G k with
  | none =>
    rw [hg] at he
    simp only [Option.map_none, Prod.mk.injEq] at he
    obtain ⟨-, rfl, -⟩ := he
    exact ⟨G, s, h, rfl, rfl, rfl, rfl, Or.inl rfl⟩
  | some l =>
  rw [hg] at he
  simp only [Option.map_some] at he
  by_cases h4 : c.conf.worm = true
  · rw [if_pos h4] at he; simp only [Prod.mk.injEq] at he; obtain ⟨-, rfl, -⟩ := he; exact ⟨G, s, h, rfl, rfl, rfl, rfl, Or.inl rfl⟩
  rw [if_neg h4] at he
  have h1 := h.dataInsert c.io (l.sentry c.u).id [] 1 0 (timestampFromSet c.now argv 2) rfl
  generalize Zdb.dataInsert s c.io (l.sentry c.u).id [] 1 0 (timestampFromSet c.now argv 2) = x at h1 he
  obtain ⟨s1, off⟩ := x
  simp only at h1 he
  by_cases h5 : off = 0
  · rw [if_pos h5] at he; simp only [Prod.mk.injEq] at he; obtain ⟨-, rfl, -⟩ := he; exact ⟨G, s1, h1, rfl, rfl, rfl, rfl, Or.inl rfl⟩
  rw [if_neg h5] at he
  have ji : ∀ io, (indexDelete br s1 c.u io (l.sentry c.u)).2.1.ifiles = (deleteDisk s1 io (l.sentry c.u)).1.ifiles ∧
      (indexDelete br s1 c.u io (l.sentry c.u)).2.1.dfiles = (deleteDisk s1 io (l.sentry c.u)).1.dfiles ∧
      (indexDelete br s1 c.u io (l.sentry c.u)).2.1.mode = (deleteDisk s1 io (l.sentry c.u)).1.mode ∧
      (indexDelete br s1 c.u io (l.sentry c.u)).2.1.seqmap = (deleteDisk s1 io (l.sentry c.u)).1.seqmap := by
    intro io
    unfold indexDelete
    simp only
    repeat' split
    all_goals exact ⟨rfl, rfl, rfl, rfl⟩
  have jd : ∀ io, (deleteDisk s1 io (l.sentry c.u)).1.mode = s1.mode ∧ (deleteDisk s1 io (l.sentry c.u)).1.seqmap = s1.seqmap := by
    intro io
    unfold deleteDisk
    simp only
    repeat' split
    all_goals exact ⟨rfl, rfl⟩
  have hs' : s' = (indexDelete br s1 c.u c.io (l.sentry c.u)).2.1 ∧ m = "Cannot delete key (index)" := by
    generalize indexDelete br s1 c.u c.io (l.sentry c.u) = y at he ⊢
    obtain ⟨b2, s2, ok⟩ := y
    cases ok
    · simp at he; exact ⟨he.2.1.symm, he.2.2.symm⟩
    · simp [Reply.ok] at he
  obtain ⟨hs', hm⟩ := hs'
  obtain ⟨q1, q2, q3, q4⟩ := ji c.io
  obtain ⟨d1, d2⟩ := h1.flagCut (u := c.u) hg c.io
  rcases d2 with d2 | d2
  · refine ⟨G, s1, h1, ?_, ?_, ?_, ?_, Or.inl rfl⟩
    · rw [hs', q3, (jd _).1]
    · rw [hs', q4, (jd _).2]
    · rw [hs', q1, d2]
    · rw [hs', q2, d1]
  · obtain ⟨G', i1, i2, i3, i4, -⟩ := h1.delete br c.u { c.io with iflag := none } rfl hg
    obtain ⟨r1, r2, r3, r4⟩ := ji { c.io with iflag := none }
    refine ⟨G', _, i3, ?_, ?_, ?_, ?_, Or.inr ⟨hm, by rw [absSlots_get, hg]; simp, i4⟩⟩
    · rw [hs', q3, (jd _).1, r3, (jd _).1]
    · rw [hs', q4, (jd _).2, r4, (jd _).2]
    · rw [hs', q1, d2, r1]
    · rw [hs', q2, d1, r2, (h1.flagCut (u := c.u) hg _).1]

/-! ### the property -/

theorem SInv.values {c : Ctx} {br : Branches} {s : Store} {G : Log} (h : SInv s G) {name k : Bytes} (hn : name ≠ []) (hk8 : k.length = 8)
    (hk : Near G k) (hf : c.conf.lock ≠ .frozen) :
    cmdGet c br s [name, k] = getReply (((absSlots G).get k).map Val.payload) ∧
    cmdExists c br s [name, k] = existsReply (((absSlots G).get k).map Val.payload) ∧
    cmdLength c br s [name, k] = lengthReply (((absSlots G).get k).map Val.payload) ∧
    cmdCheck c br s [name, k] = checkReply (((absSlots G).get k).map Val.payload) := by
  have h0 : k ≠ [] := by intro h; rw [h] at hk8; simp at hk8
  have hs : ∀ f, specSeqRead c.conf (absSlots G) k f = f ((absSlots G).get k) := by
    intro f
    simp only [specSeqRead, if_neg h0, if_neg (show ¬ 255 < k.length by omega), if_neg hf]
  have hr := h.reads
  refine ⟨?_, ?_, ?_, ?_⟩
  · refine (hr.read (c := c) (br := br) .get (by simp) name k hn hk).trans ?_
    rw [hs]; cases (absSlots G).get k <;> rfl
  · refine (hr.read (c := c) (br := br) .exists (by simp) name k hn hk).trans ?_
    rw [hs]; cases (absSlots G).get k <;> rfl
  · refine (hr.read (c := c) (br := br) .length (by simp) name k hn hk).trans ?_
    rw [hs]; cases (absSlots G).get k <;> rfl
  · refine (hr.read (c := c) (br := br) .check (by simp) name k hn hk).trans ?_
    rw [hs]; cases (absSlots G).get k <;> rfl

/-- What a command that was answered with an error leaves of the ids given out. -/
theorem seqCmd_err {c : Ctx} {br : Branches} {s : Store} {G : Log} (h : SInv s G) (hlim : c.limit ≤ 2 ^ 31)
    (hcap : s.ifiles.length < 2 ^ 32) (d : DsCmd) (argv : List Bytes) (hnear : NearEvent (absSlots G) (.cmd c d argv))
    {b : Branches} {s' : Store} {m : String} (he : dsCommand c br s d argv = (b, s', .err m)) (hclean : CleanStep s s')
    {k : Bytes} (hk8 : k.length = 8) (hk : fromLE k < (absSlots G).length) :
    ∃ G2 s2, SInv s2 G2 ∧ (absSlots G2).length = (absSlots G).length ∧
      (∀ u, indexGet b s' u k = indexGet b s2 u k) ∧ s'.dfiles = s2.dfiles ∧
      ((absSlots G2).get k = (absSlots G).get k ∨
        ((absSlots G2).get k = none ∧ d = .del ∧ argv[1]? = some k ∧ m = "Cannot delete key (index)")) := by
  have same : s' = s → ∃ G2 s2, SInv s2 G2 ∧ (absSlots G2).length = (absSlots G).length ∧
      (∀ u, indexGet b s' u k = indexGet b s2 u k) ∧ s'.dfiles = s2.dfiles ∧
      ((absSlots G2).get k = (absSlots G).get k ∨
        ((absSlots G2).get k = none ∧ d = .del ∧ argv[1]? = some k ∧ m = "Cannot delete key (index)")) := by
    rintro rfl
    exact ⟨G, s', h, rfl, fun _ => rfl, rfl, Or.inl rfl⟩
  cases d with
  | set =>
    have key : ∀ k0 p, argv[1]? = some k0 → cmdSet.body c br s argv k0 p = (b, s', .err m) →
        ∃ G2 s2, SInv s2 G2 ∧ (absSlots G2).length = (absSlots G).length ∧
          (∀ u, indexGet b s' u k = indexGet b s2 u k) ∧ s'.dfiles = s2.dfiles ∧
          ((absSlots G2).get k = (absSlots G).get k ∨
            ((absSlots G2).get k = none ∧ DsCmd.set = .del ∧ argv[1]? = some k ∧ m = "Cannot delete key (index)")) := by
      intro k0 p ha he
      obtain ⟨G2, s2, x1, x2, x3⟩ := seqSet_err h hlim hcap argv k0 p (near_iff.1 (hnear k0 ha)) he hclean
      refine ⟨G2, s2, x1, by rw [x2], ?_, ?_, Or.inl (by rw [x2])⟩
      · intro u
        rcases x3 with rfl | ⟨e, rfl⟩
        · rfl
        · exact (x1.torn (br := b) c.io e hk8 (by rw [x2]; exact hk) u).1
      · rcases x3 with rfl | ⟨e, rfl⟩
        · rfl
        · exact appendEntry_dfiles _ _ _
    match argv, key, he with
    | [n, k0, v], key, he => exact key k0 v rfl he
    | [n, k0, v, t], key, he =>
      simp only [dsCommand, cmdSet] at he
      by_cases had : c.admin = true
      · simp only [had, if_true] at he; exact key k0 v rfl he
      · simp only [had] at he
        exact same (by simp at he; exact he.2.1.symm)
    | [], _, he => exact same (by simp only [dsCommand, cmdSet, Prod.mk.injEq] at he; exact he.2.1.symm)
    | [_], _, he => exact same (by simp only [dsCommand, cmdSet, Prod.mk.injEq] at he; exact he.2.1.symm)
    | [_, _], _, he => exact same (by simp only [dsCommand, cmdSet, Prod.mk.injEq] at he; exact he.2.1.symm)
    | _ :: _ :: _ :: _ :: _ :: _, _, he => exact same (by simp only [dsCommand, cmdSet, Prod.mk.injEq] at he; exact he.2.1.symm)
  | del =>
    have key : ∀ k0, argv[1]? = some k0 → cmdDel.body c br s argv k0 = (b, s', .err m) →
        ∃ G2 s2, SInv s2 G2 ∧ (absSlots G2).length = (absSlots G).length ∧
          (∀ u, indexGet b s' u k = indexGet b s2 u k) ∧ s'.dfiles = s2.dfiles ∧
          ((absSlots G2).get k = (absSlots G).get k ∨
            ((absSlots G2).get k = none ∧ DsCmd.del = .del ∧ argv[1]? = some k ∧ m = "Cannot delete key (index)")) := by
      intro k0 ha he
      obtain ⟨G2, s2, x1, x2, x3, x4, x5, x6⟩ := seqDel_err h argv k0 (near_iff.1 (hnear k0 ha)) he
      have hi : ∀ u, indexGet b s' u k = indexGet b s2 u k := by
        intro u
        simp only [indexGet, seqGet, itemGetDisk, x2, x3, x4]
      rcases x6 with x6 | ⟨y1, y2, y3⟩
      · exact ⟨G2, s2, x1, by rw [x6], hi, x5, Or.inl (by rw [x6])⟩
      · have hg := Slots.get_del (absSlots G) k0 k y2
        refine ⟨G2, s2, x1, ?_, hi, x5, ?_⟩
        · rw [y3]
          unfold Slots.del
          simp
        · rw [y3, hg]
          by_cases hkk : k0 = k
          · subst hkk
            exact Or.inr ⟨by simp, rfl, ha, y1⟩
          · exact Or.inl (by rw [if_neg hkk])
    match argv, key, he with
    | [n, k0], key, he =>
      simp only [dsCommand, cmdDel] at he
      split at he
      · exact same (by simp only [Prod.mk.injEq] at he; exact he.2.1.symm)
      · exact key k0 rfl he
    | [n, k0, t], key, he =>
      simp only [dsCommand, cmdDel] at he
      split at he
      · exact key k0 rfl he
      · exact same (by simp only [Prod.mk.injEq] at he; exact he.2.1.symm)
    | [], _, he => exact same (by simp only [dsCommand, cmdDel, argsValidate] at he; simp at he; exact he.2.1.symm)
    | [_], _, he => exact same (by simp only [dsCommand, cmdDel, argsValidate] at he; simp at he; exact he.2.1.symm)
    | _ :: _ :: _ :: _ :: _, _, he => exact same (by simp only [dsCommand, cmdDel, argsValidate] at he; simp at he; exact he.2.1.symm)
  | nsjump =>
    simp only [dsCommand, cmdNsjump] at he
    by_cases had : c.admin = true
    · simp [had, Reply.ok] at he
    · simp [had] at he; exact same he.2.1.symm
  | index =>
    have hs' : s' = (cmdIndex c s argv).1 := (congrArg (fun x => x.2.1) he).symm
    rcases cmdIndex_cases c s argv with h' | h'
    · exact same (hs'.trans h')
    · rw [hs', h']
      exact ⟨G, s, h, rfl, fun _ => rfl, rfl, Or.inl rfl⟩
  | _ => exact same (by simp only [dsCommand, Prod.mk.injEq] at he; exact he.2.1.symm)

/-- **C42**, sequential mode, one command that is answered with an error.  Any of its writes may fail or be cut after any number of
    bytes.  Every id given out before reads afterwards the payload of its last acknowledged SET, or nothing if it was deleted since;
    only the id of a DEL answered with the index error may read nothing instead.  Missing: ids given out after an index item was
    written in part (`C42_seq_refuted`), overwrites that fail and are acknowledged (`C42_seq_refuted`) and restarts. -/
theorem C42_seq_error_partial {cfg : Option Mode} {u : Nat} {tr : List (NsEvent × Reply)} {br br' : Branches} {s s' : Store}
    (h : SeqRun cfg u tr br s) (c : Ctx) (hlim : c.limit ≤ 2 ^ 31) (d : DsCmd) (argv : List Bytes)
    (hnear : NearEvent (specSeqRun [] (tr.map (·.1))) (.cmd c d argv)) {m : String} (he : dsCommand c br s d argv = (br', s', .err m))
    (hclean : CleanStep s s') {k : Bytes} (hk8 : k.length = 8) (hk : fromLE k < ackedSets tr) :
    ∃ w, (w = lastSeqWrite k tr ∨ (w = none ∧ d = .del ∧ argv[1]? = some k ∧ m = "Cannot delete key (index)")) ∧
      ∀ (c' : Ctx) (name : Bytes), name ≠ [] → c'.conf.lock ≠ .frozen →
        cmdGet c' br' s' [name, k] = getReply w ∧ cmdExists c' br' s' [name, k] = existsReply w ∧
        cmdLength c' br' s' [name, k] = lengthReply w ∧ cmdCheck c' br' s' [name, k] = checkReply w := by
  obtain ⟨G, hG, habs, ha⟩ := h.inv
  have hlen := h.len
  unfold maxEvents at hlen
  have hg := seqAgrees_get [] tr ha k (by simp at hlen ⊢; omega)
  have h0 : Slots.get [] k = none := by unfold Slots.get; cases seqPos k <;> simp
  rw [h0] at hg
  change _ = lastSeqWrite k tr at hg
  have hlenG : (absSlots G).length = ackedSets tr := by
    rw [habs, specSeqRun_length [] tr ha]; simp
  rw [← habs] at hnear hg
  obtain ⟨G2, s2, x1, x2, x3, x4, x5⟩ := seqCmd_err hG hlim h.files_lt d argv hnear he hclean hk8 (by rw [hlenG]; exact hk)
  refine ⟨((absSlots G2).get k).map Val.payload, ?_, ?_⟩
  · rcases x5 with x5 | ⟨x5, x6⟩
    · left; rw [x5, hg]
    · right; exact ⟨by rw [x5]; rfl, x6⟩
  · intro c' name hn hf
    obtain ⟨r1, r2, r3, r4⟩ := reads_congr (c := c') (name := name) (x3 c'.u) x4
    rw [r1, r2, r3, r4]
    exact x1.values hn hk8 (fun _ => Or.inl (by rw [← absSlots_length, x2, hlenG]; exact hk)) hf

/-! ### examples -/

/-- Three ids, of which one was deleted and one overwritten; the last command fails. -/
def exSeqFault (c : Ctx) (d : DsCmd) (argv : List Bytes) : List (Ctx × DsCmd × List Bytes) :=
  [(exCtx, .set, [str "SET", [], str "one"]), (exCtx, .set, [str "SET", [], str "two"]), (exCtx, .set, [str "SET", [], str "three"]),
   (exCtx, .set, [str "SET", toLE 8 0, str "uno"]), (exCtx, .del, [str "DEL", toLE 8 1]), (c, d, argv)]

def exSeqFaultReads (c : Ctx) (d : DsCmd) (argv : List Bytes) : Reply × List Reply :=
  let l := freshReplies .seq (exSeqFault c d argv ++ [0, 1, 2].map (fun i => (exCtx, .get, [str "GET", toLE 8 i])))
  (l[5]?.getD .nil, l.drop 6)

/-- The index item of a new id is written in part, that of an overwrite is, the payload of one is, and the item of a DEL is rewritten
    up to the flag, or not so far. -/
theorem C42_seq_example :
    exSeqFaultReads (appFails 5) .set [str "SET", [], str "four"] =
      (.err "Cannot write index right now", [.bulk (str "uno"), .nil, .bulk (str "three")]) ∧
    exSeqFaultReads (appFails 41) .set [str "SET", toLE 8 2, str "tres"] =
      (.err "Cannot write index right now", [.bulk (str "uno"), .nil, .bulk (str "three")]) ∧
    exSeqFaultReads (payFails 2) .set [str "SET", toLE 8 2, str "tres"] =
      (.err "Cannot write data right now", [.bulk (str "uno"), .nil, .bulk (str "three")]) ∧
    exSeqFaultReads (flagFails 3) .del [str "DEL", toLE 8 0] =
      (.err "Cannot delete key (index)", [.bulk (str "uno"), .nil, .bulk (str "three")]) ∧
    exSeqFaultReads (flagFails 30) .del [str "DEL", toLE 8 0] =
      (.err "Cannot delete key (index)", [.nil, .nil, .bulk (str "three")]) := by
  decide +kernel

end Zdb
