/-
Executions of a sequential namespace follow the specification.
-/
import Verif.Lemmas.SeqCmd
import Verif.Lemmas.SeqLoad
import Verif.Lemmas.UserRun
import Verif.Spec.SeqTrace
namespace Zdb

theorem specSeqRead_case {c : Ctx} {m : Slots} {argv : List Bytes} (ha : ArgsOK argv)
    (f : Bytes → Reply) (g : Option Val → Reply) (hfg : ∀ n k, n ≠ [] → argv = [n, k] →
      readChecks c [n, k] f = specSeqRead c.conf m k g) (r' : Reply)
    (h : (match argv with
      | [_, k] => (m, some (specSeqRead c.conf m k g))
      | _ => (m, some (Reply.err "Unexpected arguments"))).2 = some r') :
    readChecks c argv f = r' := by
  obtain ⟨n, rest, rfl, hne⟩ := ha.name
  match rest, h with
  | [k], h => simp only [Option.some.injEq] at h; rw [← h]; exact hfg n k hne rfl
  | [], h =>
    simp only [Option.some.injEq] at h; rw [← h]; exact readChecks_args f (by simp)
  | _ :: _ :: _, h =>
    simp only [Option.some.injEq] at h; rw [← h]; exact readChecks_args f (by simp)

theorem specSeqRead_fst {c : Ctx} {m : Slots} {argv : List Bytes} (g : Option Val → Reply) :
    (match argv with
      | [_, k] => (m, some (specSeqRead c.conf m k g))
      | _ => (m, some (Reply.err "Unexpected arguments"))).1 = m := by
  split <;> rfl

/-- One command. -/
theorem SInv.command {c : Ctx} {br : Branches} {s : Store} {G : Log} (h : SInv s G)
    (hc : CtxOK c) (d : DsCmd) (argv : List Bytes) (ha : ArgsOK argv)
    (hroom : Room s.ifiles.length (totalData s) 1) (hn : NearEvent (absSlots G) (.cmd c d argv))
    (hclean : CleanStep s (dsCommand c br s d argv).2.1) :
    ∃ G', (dsCommand c br s d argv).1 = br ∧ SInv (dsCommand c br s d argv).2.1 G' ∧
      absSlots G' = (specSeqCmd c (absSlots G) d argv).1 ∧
      ∀ r', (specSeqCmd c (absSlots G) d argv).2 = some r' → (dsCommand c br s d argv).2.2 = r' := by
  have hcap : s.ifiles.length < 2 ^ 32 := by have := hroom.1; omega
  have htot : totalData s < 2 ^ 63 := by have := hroom.2; omega
  obtain ⟨n, rest, rfl, hne⟩ := ha.name
  cases d with
  | set =>
    have key : ∀ k p, rest[0]? = some k → p ∈ n :: rest → CleanStep s (cmdSet.body c br s (n :: rest) k p).2.1 →
        ∃ G', (cmdSet.body c br s (n :: rest) k p).1 = br ∧ SInv (cmdSet.body c br s (n :: rest) k p).2.1 G' ∧
        (absSlots G', (cmdSet.body c br s (n :: rest) k p).2.2) =
        specSeqSet c.conf c.writable (c.io.dhdr.ok && c.io.dpay.ok) (absSlots G) k p
          (timestampFromSet c.now (n :: rest) 3) := by
      intro k p hk hp hcl
      have hl := ha.size p hp
      exact seqSet_body_spec br h hc.iapp hc.iover hc.limit hcap htot hc.quota (n :: rest) k p
        (by omega) (near_iff.1 (hn k (by simpa using hk))) hcl
    unfold dsCommand cmdSet specSeqCmd
    unfold dsCommand cmdSet at hclean
    match rest with
    | [] => exact ⟨G, rfl, h, rfl, fun r' hr => Option.some.inj hr⟩
    | [_] => exact ⟨G, rfl, h, rfl, fun r' hr => Option.some.inj hr⟩
    | [k, p] =>
      obtain ⟨G', h0, h1, h2⟩ := key k p rfl (by simp) hclean
      rw [Prod.ext_iff] at h2
      exact ⟨G', h0, h1, h2.1, fun r' hr => by rw [← Option.some.inj hr]; exact h2.2⟩
    | [k, p, t] =>
      by_cases had : c.admin = true
      · simp only [had, if_true] at hclean ⊢
        obtain ⟨G', h0, h1, h2⟩ := key k p rfl (by simp) hclean
        rw [Prod.ext_iff] at h2
        exact ⟨G', h0, h1, h2.1, fun r' hr => by rw [← Option.some.inj hr]; exact h2.2⟩
      · simp only [had]
        exact ⟨G, rfl, h, rfl, fun r' hr => Option.some.inj hr⟩
    | _ :: _ :: _ :: _ :: _ => exact ⟨G, rfl, h, rfl, fun r' hr => Option.some.inj hr⟩
  | del =>
    have key : ∀ k, rest[0]? = some k → ∃ G', (cmdDel.body c br s (n :: rest) k).1 = br ∧
        SInv (cmdDel.body c br s (n :: rest) k).2.1 G' ∧
        (absSlots G', (cmdDel.body c br s (n :: rest) k).2.2) =
        specSeqDel c.conf c.writable (c.io.dhdr.ok && c.io.dpay.ok) (absSlots G) k := by
      intro k hk
      exact seqDel_body_spec br h hc.iflag (n :: rest) k (near_iff.1 (hn k (by simpa using hk)))
    unfold dsCommand cmdDel specSeqCmd
    match rest with
    | [] => exact ⟨G, rfl, h, rfl, fun r' hr => Option.some.inj hr⟩
    | [k] =>
      by_cases hk : k = []
      · subst hk
        simp only [argsValidate, errArg, List.length_cons, List.length_nil, List.any_cons, List.isEmpty_nil, if_true]
        simp only [Bool.true_or, Bool.or_true, ne_eq, not_true_eq_false, if_false, if_true]
        exact ⟨G, trivial, h, rfl, fun r' hr => Option.some.inj hr⟩
      · have : argsValidate [n, k] 2 = none := by simp [argsValidate, hk, hne]
        simp only [this, if_neg hk]
        obtain ⟨G', h0, h1, h2⟩ := key k rfl
        rw [Prod.ext_iff] at h2
        exact ⟨G', h0, h1, h2.1, fun r' hr => by rw [← Option.some.inj hr]; exact h2.2⟩
    | [k, t] =>
      by_cases had : c.admin = true
      · simp only [had, if_true]
        obtain ⟨G', h0, h1, h2⟩ := key k rfl
        rw [Prod.ext_iff] at h2
        exact ⟨G', h0, h1, h2.1, fun r' hr => by rw [← Option.some.inj hr]; exact h2.2⟩
      · simp only [had]
        exact ⟨G, rfl, h, rfl, fun r' hr => Option.some.inj hr⟩
    | k :: t :: x :: xs =>
      have : argsValidate (n :: k :: t :: x :: xs) 2 = some errArgs := by simp [argsValidate]
      simp only [this]
      exact ⟨G, trivial, h, rfl, fun r' hr => Option.some.inj hr⟩
  | nsjump =>
    simp only [dsCommand, cmdNsjump, specSeqCmd] at hclean ⊢
    by_cases had : c.admin = true
    · simp only [had, if_true] at hclean ⊢
      have hlen := h.irep.length
      have hcj := h.toCore.jump (by rw [h.mode]; rfl) (by omega)
      have hit : 29 < logEnd G := by
        rcases hclean with hc' | hc'
        · have h1 := hcj.1.iid
          have h2 := h.iid
          have : (logJump G).length = G.length + 1 := by simp [logJump]
          omega
        · rw [h.fileLen] at hc'; exact hc'
      exact ⟨logJump G, trivial, h.jump (by omega) hit, absSlots_jump G, fun r' hr => Option.some.inj hr⟩
    · simp only [had]
      exact ⟨G, trivial, h, rfl, fun r' hr => Option.some.inj hr⟩
  | get =>
    refine ⟨G, rfl, h, (specSeqRead_fst _).symm, specSeqRead_case ha _ _ (fun n' k hn' he => ?_)⟩
    have hk := near_iff.1 (hn k (by rw [he]; rfl))
    exact seqReadChecks_spec n' k hn' _ _ (seqGetSingle_spec h k hk)
  | «exists» =>
    refine ⟨G, rfl, h, (specSeqRead_fst _).symm, specSeqRead_case ha _ _ (fun n' k hn' he => ?_)⟩
    have hk := near_iff.1 (hn k (by rw [he]; rfl))
    refine seqReadChecks_spec n' k hn' _ _ ?_
    rw [h.indexGet c.u k hk, absSlots_get]
    cases slotGet G k <;> rfl
  | check =>
    refine ⟨G, rfl, h, (specSeqRead_fst _).symm, specSeqRead_case ha _ _ (fun n' k hn' he => ?_)⟩
    have hk := near_iff.1 (hn k (by rw [he]; rfl))
    refine seqReadChecks_spec n' k hn' _ _ ?_
    rw [h.indexGet c.u k hk, absSlots_get]
    cases hg : slotGet G k with
    | none => rfl
    | some l =>
      have := (h.getRec hg).dataCheck
      simp only [Option.map_some, replyCheck, Loc.sentry, Loc.entry, this]
  | length =>
    refine ⟨G, rfl, h, (specSeqRead_fst _).symm, specSeqRead_case ha _ _ (fun n' k hn' he => ?_)⟩
    have hk := near_iff.1 (hn k (by rw [he]; rfl))
    refine seqReadChecks_spec n' k hn' _ _ ?_
    rw [h.indexGet c.u k hk, absSlots_get]
    cases hg : slotGet G k with
    | none => rfl
    | some l => simp only [Option.map_some, replyLength, Loc.sentry, Loc.entry, Loc.val, (h.getRec hg).len]
  | keytime =>
    refine ⟨G, rfl, h, (specSeqRead_fst _).symm, specSeqRead_case ha _ _ (fun n' k hn' he => ?_)⟩
    have hk := near_iff.1 (hn k (by rw [he]; rfl))
    refine seqReadChecks_spec n' k hn' _ _ ?_
    rw [h.indexGet c.u k hk, absSlots_get]
    cases slotGet G k <;> rfl
  | mget =>
    refine ⟨G, rfl, h, rfl, fun r' hr => ?_⟩
    have := seqMget_spec (c := c) (br := br) h n rest (fun k hk => near_iff.1 (hn k hk))
    simp only [specSeqCmd, List.tail_cons, Option.some.injEq] at hr
    rw [← hr, ← this]; rfl
  | dbsize =>
    refine ⟨G, rfl, h, rfl, fun r' hr => ?_⟩
    rw [← Option.some.inj hr, ← h.entries_eq]; rfl
  | scan => exact ⟨G, rfl, h, rfl, fun r' hr => by simp [specSeqCmd] at hr⟩
  | rscan => exact ⟨G, rfl, h, rfl, fun r' hr => by simp [specSeqCmd] at hr⟩
  | kscan => exact ⟨G, rfl, h, rfl, fun r' hr => by simp [specSeqCmd] at hr⟩
  | keycur => exact ⟨G, rfl, h, rfl, fun r' hr => by simp [specSeqCmd] at hr⟩
  | history => exact ⟨G, rfl, h, rfl, fun r' hr => by simp [specSeqCmd] at hr⟩
  | data => exact ⟨G, rfl, h, rfl, fun r' hr => by simp [specSeqCmd] at hr⟩
  | index =>
    refine ⟨G, rfl, ?_, rfl, fun r' hr => by simp [specSeqCmd] at hr⟩
    simp only [dsCommand]
    rcases cmdIndex_cases c s (n :: rest) with h' | h' <;> rw [h']
    · exact h
    · exact h.setDirty _

theorem CleanRun.nsRun {cfg : Option Mode} {u : Nat} {br br' : Branches} {s s' : Store}
    {tr : List (NsEvent × Reply)} (h : CleanRun cfg u br s tr br' s') : NsRun cfg u br s tr br' s' := by
  induction h with
  | nil br s => exact .nil br s
  | cmd c d argv hu h1 _ _ ih => exact .cmd c d argv hu h1 ih
  | foreign h1 _ ih => exact .foreign h1 ih
  | reload h1 _ _ ih => exact .reload h1 ih

/-- Every execution from a state satisfying the invariant follows the specification. -/
theorem SInv.run {cfg : Option Mode} (hcfg : cfg = none ∨ cfg = some .seq) {u : Nat} {br br' : Branches}
    {s s' : Store} {tr : List (NsEvent × Reply)} (hr : CleanRun cfg u br s tr br' s') {G : Log}
    (h : SInv s G) (hev : ∀ x ∈ tr, EvOK x.1) (hnear : NearRun (absSlots G) (tr.map (·.1)))
    (hroom : Room s.ifiles.length (totalData s) tr.length) :
    ∃ G', SInv s' G' ∧ absSlots G' = specSeqRun (absSlots G) (tr.map (·.1)) ∧ SeqAgrees (absSlots G) tr := by
  induction hr generalizing G with
  | nil br s => exact ⟨G, h, rfl, trivial⟩
  | @cmd c d argv br br1 br2 s s1 s2 r tr hu h1 hcl h2 ih =>
    subst hu
    obtain ⟨hc, ha⟩ := hev _ (List.mem_cons_self ..)
    obtain ⟨G1, i0, i1, i2, i3⟩ := h.command (br := br) hc d argv ha (hroom.mono (by simp)) hnear.1
      (by rw [h1]; exact hcl)
    have hg := dsCommand_grows c br s d argv (2 ^ 23) ha.size
    rw [h1] at i1 i3 hg
    have hnear2 := hnear.2
    simp only [specSeqEvent] at hnear2
    rw [← i2] at hnear2
    obtain ⟨G', j1, j2, j3⟩ := ih i1 (fun x hx => hev x (List.mem_cons_of_mem _ hx)) hnear2
      (hroom.step hg (by omega))
    refine ⟨G', j1, ?_, ?_⟩
    · rw [j2, i2]; rfl
    · exact ⟨i3, by rw [i2] at j3; exact j3⟩
  | @foreign br br1 br2 s s2 tr h1 h2 ih =>
    obtain ⟨G', j1, j2, j3⟩ := ih h (fun x hx => hev x (List.mem_cons_of_mem _ hx)) hnear.2
      (hroom.mono (by simp))
    exact ⟨G', j1, j2, fun r' hr => by simp [specSeqEvent] at hr, j3⟩
  | @reload br br1 br2 s s1 s2 tr h1 hcl h2 ih =>
    have hlen := h.irep.length
    have hlast : G.length = 1 ∨ 29 < logEnd G := by
      rcases hcl with hcl | hcl
      · left; have := h.iid; omega
      · right; rw [h.fileLen] at hcl; exact hcl
    obtain ⟨t, k1, k2, k3, k4, -⟩ := h.reload br u cfg hcfg (by have := hroom.1; omega) hlast
    rw [h1] at k1
    injection k1 with k1 k1'
    subst k1; subst k1'
    obtain ⟨G', j1, j2, j3⟩ := ih k2 (fun x hx => hev x (List.mem_cons_of_mem _ hx)) hnear.2
      (by rw [k3, totalData, k4]; exact hroom.mono (by simp))
    exact ⟨G', j1, j2, fun r' hr => by simp [specSeqEvent] at hr, j3⟩

theorem setMode_fresh : setMode (freshStore .user) .seq = freshStore .seq := by decide +kernel

theorem SeqStart.fresh {cfg : Option Mode} {u : Nat} {br : Branches} {s : Store} (h : SeqStart cfg u br s) :
    (cfg = none ∨ cfg = some .seq) ∧ s = freshStore .seq := by
  rcases h with ⟨rfl, br0, h⟩ | ⟨rfl, br0, s0, h, rfl⟩
  · rw [freshNs_eq] at h
    injection h with _ h
    exact ⟨Or.inr rfl, h.symm⟩
  · rw [freshNs_eq] at h
    injection h with _ h
    subst h
    exact ⟨Or.inl rfl, setMode_fresh⟩

theorem SeqRun.hcfg {cfg : Option Mode} {u : Nat} {tr : List (NsEvent × Reply)} {br' : Branches} {s' : Store}
    (h : SeqRun cfg u tr br' s') : cfg = none ∨ cfg = some .seq := by
  obtain ⟨br, s, h0, -⟩ := h.run
  exact h0.fresh.1

theorem SeqRun.fresh {cfg : Option Mode} {u : Nat} {tr : List (NsEvent × Reply)} {br' : Branches} {s' : Store}
    (h : SeqRun cfg u tr br' s') : ∃ br, CleanRun cfg u br (freshStore .seq) tr br' s' := by
  obtain ⟨br, s, h0, h1⟩ := h.run
  rw [h0.fresh.2] at h1
  exact ⟨br, h1⟩

theorem SeqRun.inv {cfg : Option Mode} {u : Nat} {tr : List (NsEvent × Reply)} {br' : Branches} {s' : Store}
    (h : SeqRun cfg u tr br' s') :
    ∃ G, SInv s' G ∧ absSlots G = specSeqRun [] (tr.map (·.1)) ∧ SeqAgrees [] tr := by
  obtain ⟨br, h1⟩ := h.fresh
  have hlen := h.len
  have hf : absSlots [[]] = [] := rfl
  have := SInv.run h.hcfg h1 freshStore_sinv h.ev (by rw [hf]; exact h.near) (by
    unfold maxEvents at hlen
    constructor
    · simp [freshStore]; omega
    · simp [freshStore, totalData]; omega)
  simpa [hf] using this

theorem CleanRun.append {cfg : Option Mode} {u : Nat} {br br' br'' : Branches} {s s' s'' : Store}
    {tr tr' : List (NsEvent × Reply)} (h : CleanRun cfg u br s tr br' s')
    (hx : CleanRun cfg u br' s' tr' br'' s'') : CleanRun cfg u br s (tr ++ tr') br'' s'' := by
  induction h with
  | nil => exact hx
  | cmd c d argv hu h1 hc _ ih => exact .cmd c d argv hu h1 hc (ih hx)
  | foreign h1 _ ih => exact .foreign h1 (ih hx)
  | reload h1 hc _ ih => exact .reload h1 hc (ih hx)

theorem nearRun_append (m : Slots) (a b : List NsEvent) :
    NearRun m (a ++ b) ↔ NearRun m a ∧ NearRun (specSeqRun m a) b := by
  induction a generalizing m with
  | nil => simp [NearRun, specSeqRun]
  | cons e a ih => simp only [List.cons_append, NearRun, specSeqRun, ih, and_assoc]

/-- Extending an execution. -/
theorem SeqRun.append {cfg : Option Mode} {u : Nat} {tr tr' : List (NsEvent × Reply)} {br' br'' : Branches}
    {s' s'' : Store} (h : SeqRun cfg u tr br' s') (hlen : tr.length + tr'.length ≤ maxEvents)
    (hx : ∀ x ∈ tr', EvOK x.1) (hn : NearRun (specSeqRun [] (tr.map (·.1))) (tr'.map (·.1)))
    (hr : CleanRun cfg u br' s' tr' br'' s'') : SeqRun cfg u (tr ++ tr') br'' s'' where
  run := by
    obtain ⟨br, s, h1, h2⟩ := h.run
    exact ⟨br, s, h1, h2.append hr⟩
  ev := by
    intro y hy
    rcases List.mem_append.1 hy with hy | hy
    · exact h.ev y hy
    · exact hx y hy
  near := by rw [List.map_append, nearRun_append]; exact ⟨h.near, hn⟩
  len := by simp; omega

/-- An execution never has more files than events plus one. -/
theorem CleanRun.files {cfg : Option Mode} (hcfg : cfg = none ∨ cfg = some .seq) {u : Nat} {br br' : Branches}
    {s s' : Store} {tr : List (NsEvent × Reply)} (hr : CleanRun cfg u br s tr br' s') {G : Log}
    (h : SInv s G) (hev : ∀ x ∈ tr, EvOK x.1) (hnear : NearRun (absSlots G) (tr.map (·.1)))
    (hroom : Room s.ifiles.length (totalData s) tr.length) :
    s'.ifiles.length ≤ s.ifiles.length + tr.length := by
  induction hr generalizing G with
  | nil br s => simp
  | @cmd c d argv br br1 br2 s s1 s2 r tr hu h1 hcl h2 ih =>
    subst hu
    obtain ⟨hc, ha⟩ := hev _ (List.mem_cons_self ..)
    obtain ⟨G1, -, i1, i2, i3⟩ := h.command (br := br) hc d argv ha (hroom.mono (by simp)) hnear.1 (by rw [h1]; exact hcl)
    have hg := dsCommand_grows c br s d argv (2 ^ 23) ha.size
    rw [h1] at i1 i3 hg
    have := ih i1 (fun x hx => hev x (List.mem_cons_of_mem _ hx)) (by rw [i2]; exact hnear.2)
      (hroom.step hg (by omega))
    have := hg.2
    simp only [List.length_cons] at *
    omega
  | @foreign br br1 br2 s s2 tr h1 h2 ih =>
    have := ih h (fun x hx => hev x (List.mem_cons_of_mem _ hx)) hnear.2 (hroom.mono (by simp))
    simp only [List.length_cons]; omega
  | @reload br br1 br2 s s1 s2 tr h1 hcl h2 ih =>
    have hlen := h.irep.length
    have hid := h.iid
    have hfl := h.fileLen
    obtain ⟨t, k1, k2, k3, k4, -⟩ := h.reload br u cfg hcfg (by have := hroom.1; omega) (by omega)
    rw [h1] at k1
    injection k1 with k1 k1'
    subst k1; subst k1'
    have := ih k2 (fun x hx => hev x (List.mem_cons_of_mem _ hx)) hnear.2
      (by rw [k3, totalData, k4]; exact hroom.mono (by simp))
    rw [k3] at this
    simp only [List.length_cons]; omega

theorem SeqRun.room {cfg : Option Mode} {u : Nat} {tr : List (NsEvent × Reply)} {br' : Branches}
    {s' : Store} (h : SeqRun cfg u tr br' s') {G : Log} (hi : SInv s' G)
    (hlen : tr.length < maxEvents) : G.length < 2 ^ 32 := by
  obtain ⟨br, h2⟩ := h.fresh
  have hroom : Room (freshStore .seq).ifiles.length (totalData (freshStore .seq)) tr.length := by
    unfold maxEvents at hlen
    constructor
    · simp [freshStore]; omega
    · simp [freshStore, totalData]; omega
  have := CleanRun.files h.hcfg h2 freshStore_sinv h.ev (by exact h.near) hroom
  have hl := hi.irep.length
  unfold maxEvents at hlen
  simp only [freshStore, Option.getD_some, List.length_cons, List.length_nil] at this
  omega

end Zdb
