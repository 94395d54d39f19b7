/-
Executions of a user-key namespace follow the specification.
-/
import Verif.Lemmas.UserCmd
import Verif.Lemmas.UserLoad
import Verif.Lemmas.Fresh
import Verif.Spec.Bounds
import Verif.Spec.UserTrace
namespace Zdb

theorem readChecks_args {c : Ctx} {argv : List Bytes} (f : Bytes → Reply)
    (hn : ∀ n k, argv ≠ [n, k]) : readChecks c argv f = .err "Unexpected arguments" := by
  have hlen : argv.length ≠ 2 := by
    intro h
    match argv, h with
    | [n, k], _ => exact hn n k rfl
  simp [readChecks, argsValidate, hlen, errArgs]

theorem specRead_case {c : Ctx} {m : KV} {argv : List Bytes} (ha : ArgsOK argv)
    (f : Bytes → Reply) (g : Option Val → Reply) (hfg : ∀ n k, n ≠ [] →
      readChecks c [n, k] f = specRead c.conf m k g) (r' : Reply)
    (h : (match argv with
      | [_, k] => (m, some (specRead c.conf m k g))
      | _ => (m, some (Reply.err "Unexpected arguments"))).2 = some r') :
    readChecks c argv f = r' := by
  obtain ⟨n, rest, rfl, hne⟩ := ha.name
  match rest, h with
  | [k], h => simp only [Option.some.injEq] at h; rw [← h]; exact hfg n k hne
  | [], h =>
    simp only [Option.some.injEq] at h; rw [← h]; exact readChecks_args f (by simp)
  | _ :: _ :: _, h =>
    simp only [Option.some.injEq] at h; rw [← h]; exact readChecks_args f (by simp)

theorem specRead_fst {c : Ctx} {m : KV} {argv : List Bytes} (g : Option Val → Reply) :
    (match argv with
      | [_, k] => (m, some (specRead c.conf m k g))
      | _ => (m, some (Reply.err "Unexpected arguments"))).1 = m := by
  split <;> rfl

/-- The keys written by an event, as its reply tells. -/
def Writes (x : NsEvent × Reply) (k : Bytes) : Prop := writeOf k x ≠ none

theorem writes_set {c : Ctx} {n k p : Bytes} {t : List Bytes} {r : Reply} (x : Bytes)
    (h : x = k ∧ r = Reply.bulk k) : Writes (.cmd c .set (n :: k :: p :: t), r) x := by
  obtain ⟨rfl, rfl⟩ := h; simp [Writes, writeOf]

theorem writes_del {c : Ctx} {n k : Bytes} {t : List Bytes} {r : Reply} (x : Bytes)
    (h : x = k ∧ r = Reply.ok) : Writes (.cmd c .del (n :: k :: t), r) x := by
  obtain ⟨rfl, rfl⟩ := h; simp [Writes, writeOf, Reply.ok]

/-- One command. -/
theorem UInv.command {c : Ctx} {br : Branches} {s : Store} {G : Log} (h : UInv br c.u s G)
    (hc : CtxOK c) (d : DsCmd) (argv : List Bytes) (ha : ArgsOK argv)
    (hroom : Room s.ifiles.length (totalData s) 1) :
    ∃ G', UInv (dsCommand c br s d argv).1 c.u (dsCommand c br s d argv).2.1 G' ∧
      absKV G' = (specCmd c (absKV G) d argv).1 ∧
      (∀ r', (specCmd c (absKV G) d argv).2 = some r' → (dsCommand c br s d argv).2.2 = r') ∧
      LogStep (Writes (.cmd c d argv, (dsCommand c br s d argv).2.2)) G G' := by
  have hcap : s.ifiles.length < 2 ^ 32 := by have := hroom.1; omega
  have htot : totalData s < 2 ^ 63 := by have := hroom.2; omega
  cases d with
  | set =>
    have key : ∀ k p, p ∈ argv → ∃ G', UInv (cmdSet.body c br s argv k p).1 c.u
          (cmdSet.body c br s argv k p).2.1 G' ∧
        (absKV G', (cmdSet.body c br s argv k p).2.2) =
        specSet c.conf c.writable (c.io.dhdr.ok && c.io.dpay.ok) (absKV G) k p
          (timestampFromSet c.now argv 3) ∧
        LogStep (fun x => x = k ∧ (cmdSet.body c br s argv k p).2.2 = Reply.bulk k) G G' := by
      intro k p hp
      have hl := ha.size p hp
      obtain ⟨G', h1, h2, h3⟩ := cmdSet_body_spec h hc.iapp hc.iflag hc.limit hcap htot hc.quota argv k p
        (by omega)
      exact ⟨G', h1, h2, h3⟩
    obtain ⟨n, rest, rfl, hne⟩ := ha.name
    unfold dsCommand cmdSet specCmd
    match rest with
    | [] => exact ⟨G, h, rfl, fun r' hr => Option.some.inj hr, LogStep.refl _ _⟩
    | [_] => exact ⟨G, h, rfl, fun r' hr => Option.some.inj hr, LogStep.refl _ _⟩
    | [k, p] =>
      obtain ⟨G', h1, h2, h3⟩ := key k p (by simp)
      rw [Prod.ext_iff] at h2
      exact ⟨G', h1, h2.1, fun r' hr => by rw [← Option.some.inj hr]; exact h2.2, h3.mono writes_set⟩
    | [k, p, t] =>
      by_cases had : c.admin = true
      · simp only [had, if_true]
        obtain ⟨G', h1, h2, h3⟩ := key k p (by simp)
        rw [Prod.ext_iff] at h2
        exact ⟨G', h1, h2.1, fun r' hr => by rw [← Option.some.inj hr]; exact h2.2, h3.mono writes_set⟩
      · simp only [had]
        exact ⟨G, h, rfl, fun r' hr => Option.some.inj hr, LogStep.refl _ _⟩
    | _ :: _ :: _ :: _ :: _ => exact ⟨G, h, rfl, fun r' hr => Option.some.inj hr, LogStep.refl _ _⟩
  | del =>
    have key : ∀ k, ∃ G', UInv (cmdDel.body c br s argv k).1 c.u (cmdDel.body c br s argv k).2.1 G' ∧
        (absKV G', (cmdDel.body c br s argv k).2.2) =
        specDel c.conf c.writable (c.io.dhdr.ok && c.io.dpay.ok) (absKV G) k ∧
        LogStep (fun x => x = k ∧ (cmdDel.body c br s argv k).2.2 = Reply.ok) G G' := by
      intro k
      obtain ⟨G', h1, h2, h3⟩ := cmdDel_body_spec h hc.iflag argv k
      exact ⟨G', h1, h2, h3⟩
    obtain ⟨n, rest, rfl, hne⟩ := ha.name
    unfold dsCommand cmdDel specCmd
    match rest with
    | [] => exact ⟨G, h, rfl, fun r' hr => Option.some.inj hr, LogStep.refl _ _⟩
    | [k] =>
      by_cases hk : k = []
      · subst hk
        simp only [argsValidate, errArg, List.length_cons, List.length_nil, List.any_cons, List.isEmpty_nil, if_true]
        simp only [Bool.true_or, Bool.or_true, ne_eq, not_true_eq_false, if_false, if_true]
        exact ⟨G, h, rfl, fun r' hr => Option.some.inj hr, LogStep.refl _ _⟩
      · have : argsValidate [n, k] 2 = none := by simp [argsValidate, hk, hne]
        simp only [this, if_neg hk]
        obtain ⟨G', h1, h2, h3⟩ := key k
        rw [Prod.ext_iff] at h2
        exact ⟨G', h1, h2.1, fun r' hr => by rw [← Option.some.inj hr]; exact h2.2, h3.mono writes_del⟩
    | [k, t] =>
      by_cases had : c.admin = true
      · simp only [had, if_true]
        obtain ⟨G', h1, h2, h3⟩ := key k
        rw [Prod.ext_iff] at h2
        exact ⟨G', h1, h2.1, fun r' hr => by rw [← Option.some.inj hr]; exact h2.2, h3.mono writes_del⟩
      · simp only [had]
        exact ⟨G, h, rfl, fun r' hr => Option.some.inj hr, LogStep.refl _ _⟩
    | k :: t :: x :: xs =>
      have : argsValidate (n :: k :: t :: x :: xs) 2 = some errArgs := by simp [argsValidate]
      simp only [this]
      exact ⟨G, h, rfl, fun r' hr => Option.some.inj hr, LogStep.refl _ _⟩
  | nsjump =>
    simp only [dsCommand, cmdNsjump, specCmd]
    by_cases had : c.admin = true
    · simp only [had, if_true]
      have hlen := h.irep.length
      exact ⟨logJump G, h.jump (by omega), absKV_jump G, fun r' hr => Option.some.inj hr, LogStep.jump _ _⟩
    · simp only [had]
      exact ⟨G, h, rfl, fun r' hr => Option.some.inj hr, LogStep.refl _ _⟩
  | get =>
    exact ⟨G, h, (specRead_fst _).symm, specRead_case ha _ _ (fun n k hn => cmdGet_spec h n k hn),
      LogStep.refl _ _⟩
  | «exists» =>
    exact ⟨G, h, (specRead_fst _).symm, specRead_case ha _ _ (fun n k hn => cmdExists_spec h n k hn),
      LogStep.refl _ _⟩
  | check =>
    exact ⟨G, h, (specRead_fst _).symm, specRead_case ha _ _ (fun n k hn => cmdCheck_spec h n k hn),
      LogStep.refl _ _⟩
  | length =>
    exact ⟨G, h, (specRead_fst _).symm, specRead_case ha _ _ (fun n k hn => cmdLength_spec h n k hn),
      LogStep.refl _ _⟩
  | keytime =>
    exact ⟨G, h, (specRead_fst _).symm, specRead_case ha _ _ (fun n k hn => cmdKeytime_spec h n k hn),
      LogStep.refl _ _⟩
  | mget =>
    obtain ⟨n, rest, rfl, hne⟩ := ha.name
    refine ⟨G, h, rfl, fun r' hr => ?_, LogStep.refl _ _⟩
    have := cmdMget_spec (c := c) h n rest
    simp only [specCmd, List.tail_cons, Option.some.injEq] at hr
    rw [← hr, ← this]; rfl
  | dbsize =>
    refine ⟨G, h, rfl, fun r' hr => ?_, LogStep.refl _ _⟩
    rw [← Option.some.inj hr, ← h.entries_eq]; rfl
  | scan => exact ⟨G, h, rfl, fun r' hr => by simp [specCmd] at hr, LogStep.refl _ _⟩
  | rscan => exact ⟨G, h, rfl, fun r' hr => by simp [specCmd] at hr, LogStep.refl _ _⟩
  | kscan => exact ⟨G, h, rfl, fun r' hr => by simp [specCmd] at hr, LogStep.refl _ _⟩
  | keycur => exact ⟨G, h, rfl, fun r' hr => by simp [specCmd] at hr, LogStep.refl _ _⟩
  | history => exact ⟨G, h, rfl, fun r' hr => by simp [specCmd] at hr, LogStep.refl _ _⟩
  | data => exact ⟨G, h, rfl, fun r' hr => by simp [specCmd] at hr, LogStep.refl _ _⟩
  | index =>
    refine ⟨G, ?_, rfl, fun r' hr => by simp [specCmd] at hr, LogStep.refl _ _⟩
    simp only [dsCommand]
    rcases cmdIndex_cases c s argv with h' | h' <;> rw [h']
    · exact h
    · exact h.setDirty _

/-- Changes of other namespaces in the shared table do not matter. -/
theorem UInv.foreign {br br' : Branches} {u : Nat} {s : Store} {G : Log} (h : UInv br u s G)
    (hb : ∀ h, nsBranch br' u h = nsBranch br u h) : UInv br' u s G :=
  { h with brs := fun k => by rw [hb k]; exact h.brs k }

theorem Room.mono {a b n m : Nat} (h : Room a b n) (hm : m ≤ n) : Room a b m := by
  unfold Room at *
  omega

theorem Room.step {s t : Store} {n k : Nat} (h : Room s.ifiles.length (totalData s) (n + 1))
    (hg : Grows s t k) (hk : k ≤ 2 ^ 24) : Room t.ifiles.length (totalData t) n := by
  constructor
  · have := h.1; have := hg.2; omega
  · have := h.2; have := hg.1; omega

/-- Every execution from a state satisfying the invariant follows the specification. -/
theorem UInv.run {cfg : Option Mode} (hcfg : cfg = none ∨ cfg = some .user) {u : Nat} {br br' : Branches}
    {s s' : Store} {tr : List (NsEvent × Reply)} (hr : NsRun cfg u br s tr br' s') {G : Log}
    (h : UInv br u s G) (hev : ∀ x ∈ tr, EvOK x.1)
    (hroom : Room s.ifiles.length (totalData s) tr.length) :
    ∃ G', UInv br' u s' G' ∧ absKV G' = specRun (absKV G) (tr.map (·.1)) ∧ Agrees (absKV G) tr := by
  induction hr generalizing G with
  | nil br s => exact ⟨G, h, rfl, trivial⟩
  | @cmd c d argv br br1 br2 s s1 s2 r tr hu h1 h2 ih =>
    subst hu
    obtain ⟨hc, ha⟩ := hev _ (List.mem_cons_self ..)
    obtain ⟨G1, i1, i2, i3, -⟩ := h.command hc d argv ha (hroom.mono (by simp))
    have hg := dsCommand_grows c br s d argv (2 ^ 23) ha.size
    rw [h1] at i1 i3 hg
    obtain ⟨G', j1, j2, j3⟩ := ih i1 (fun x hx => hev x (List.mem_cons_of_mem _ hx))
      (hroom.step hg (by omega))
    refine ⟨G', j1, ?_, ?_⟩
    · rw [j2, i2]; rfl
    · exact ⟨i3, by rw [i2] at j3; exact j3⟩
  | @foreign br br1 br2 s s2 tr h1 h2 ih =>
    obtain ⟨G', j1, j2, j3⟩ := ih (h.foreign h1) (fun x hx => hev x (List.mem_cons_of_mem _ hx))
      (hroom.mono (by simp))
    exact ⟨G', j1, j2, fun r' hr => by simp [specEvent] at hr, j3⟩
  | @reload br br1 br2 s s1 s2 tr h1 h2 ih =>
    have hlen := h.irep.length
    obtain ⟨b, t, k1, k2, k3, k4, -⟩ := h.reload cfg hcfg (by have := hroom.1; omega)
    rw [h1] at k1
    injection k1 with k1 k1'
    subst k1; subst k1'
    obtain ⟨G', j1, j2, j3⟩ := ih k2 (fun x hx => hev x (List.mem_cons_of_mem _ hx))
      (by rw [k3, totalData, k4]; exact hroom.mono (by simp))
    exact ⟨G', j1, j2, fun r' hr => by simp [specEvent] at hr, j3⟩

/-- The same from a new namespace. -/
theorem userRun_fresh {cfg : Option Mode} (hcfg : cfg = none ∨ cfg = some .user) {u : Nat}
    {br0 br br' : Branches} {s s' : Store} {tr : List (NsEvent × Reply)}
    (hbr : ∀ h, nsBranch br0 u h = []) (h0 : freshNs cfg br0 u = .ok br s)
    (hr : NsRun cfg u br s tr br' s') (hev : ∀ x ∈ tr, EvOK x.1) (hlen : tr.length ≤ maxEvents) :
    ∃ G', UInv br' u s' G' ∧ absKV G' = specRun [] (tr.map (·.1)) ∧ Agrees [] tr := by
  rw [freshNs_eq] at h0
  injection h0 with h0 h0'
  have hm : cfg.getD .user = .user := by rcases hcfg with rfl | rfl <;> rfl
  rw [hm] at h0'
  subst h0; subst h0'
  have := UInv.run hcfg hr (freshStore_uinv br0 u hbr) hev (by
    unfold maxEvents at hlen
    constructor
    · simp [freshStore]; omega
    · simp [freshStore, totalData]; omega)
  simpa [absKV, live, locs, locsFrom, locsIn] using this

/-- Executions of a new user-key namespace: it is created in a process in which the table has no entry
    tagged with its identity `u`, then the events of `tr` happen, at most `maxEvents` of them, each
    within the conditions of `EvOK`. -/
structure UserRun (cfg : Option Mode) (u : Nat) (tr : List (NsEvent × Reply)) (br' : Branches)
    (s' : Store) : Prop where
  hcfg : cfg = none ∨ cfg = some .user
  run : ∃ br0 br s, (∀ h, nsBranch br0 u h = []) ∧ freshNs cfg br0 u = .ok br s ∧
    NsRun cfg u br s tr br' s'
  ev : ∀ x ∈ tr, EvOK x.1
  len : tr.length ≤ maxEvents

theorem UserRun.inv {cfg : Option Mode} {u : Nat} {tr : List (NsEvent × Reply)} {br' : Branches}
    {s' : Store} (h : UserRun cfg u tr br' s') :
    ∃ G, UInv br' u s' G ∧ absKV G = specRun [] (tr.map (·.1)) ∧ Agrees [] tr := by
  obtain ⟨br0, br, s, h0, h1, h2⟩ := h.run
  exact userRun_fresh h.hcfg h0 h1 h2 h.ev h.len

theorem NsRun.snoc {cfg : Option Mode} {u : Nat} {br br' : Branches} {s s' : Store}
    {tr : List (NsEvent × Reply)} (h : NsRun cfg u br s tr br' s') {x : NsEvent × Reply} {br'' : Branches}
    {s'' : Store} (hx : NsRun cfg u br' s' [x] br'' s'') : NsRun cfg u br s (tr ++ [x]) br'' s'' := by
  induction h with
  | nil => exact hx
  | cmd c d argv hu h1 _ ih => exact .cmd c d argv hu h1 (ih hx)
  | foreign h1 _ ih => exact .foreign h1 (ih hx)
  | reload h1 _ ih => exact .reload h1 (ih hx)

/-- An execution never has more files than events plus one. -/
theorem NsRun.files {cfg : Option Mode} (hcfg : cfg = none ∨ cfg = some .user) {u : Nat} {br br' : Branches}
    {s s' : Store} {tr : List (NsEvent × Reply)} (hr : NsRun cfg u br s tr br' s') {G : Log}
    (h : UInv br u s G) (hev : ∀ x ∈ tr, EvOK x.1)
    (hroom : Room s.ifiles.length (totalData s) tr.length) :
    s'.ifiles.length ≤ s.ifiles.length + tr.length := by
  induction hr generalizing G with
  | nil br s => simp
  | @cmd c d argv br br1 br2 s s1 s2 r tr hu h1 h2 ih =>
    subst hu
    obtain ⟨hc, ha⟩ := hev _ (List.mem_cons_self ..)
    obtain ⟨G1, i1, i2, i3, -⟩ := h.command hc d argv ha (hroom.mono (by simp))
    have hg := dsCommand_grows c br s d argv (2 ^ 23) ha.size
    rw [h1] at i1 i3 hg
    have := ih i1 (fun x hx => hev x (List.mem_cons_of_mem _ hx)) (hroom.step hg (by omega))
    have := hg.2
    simp only [List.length_cons] at *
    omega
  | @foreign br br1 br2 s s2 tr h1 h2 ih =>
    have := ih (h.foreign h1) (fun x hx => hev x (List.mem_cons_of_mem _ hx)) (hroom.mono (by simp))
    simp only [List.length_cons]; omega
  | @reload br br1 br2 s s1 s2 tr h1 h2 ih =>
    have hlen := h.irep.length
    obtain ⟨b, t, k1, k2, k3, k4, -⟩ := h.reload cfg hcfg (by have := hroom.1; omega)
    rw [h1] at k1
    injection k1 with k1 k1'
    subst k1; subst k1'
    have := ih k2 (fun x hx => hev x (List.mem_cons_of_mem _ hx))
      (by rw [k3, totalData, k4]; exact hroom.mono (by simp))
    rw [k3] at this
    simp only [List.length_cons]; omega

theorem freshStore_room (n : Nat) (hn : n ≤ maxEvents) :
    Room (freshStore .user).ifiles.length (totalData (freshStore .user)) n := by
  unfold maxEvents at hn
  constructor
  · simp [freshStore]; omega
  · simp [freshStore, totalData]; omega

theorem UserRun.room {cfg : Option Mode} {u : Nat} {tr : List (NsEvent × Reply)} {br' : Branches}
    {s' : Store} (h : UserRun cfg u tr br' s') {G : Log} (hi : UInv br' u s' G)
    (hlen : tr.length < maxEvents) : G.length < 2 ^ 32 := by
  obtain ⟨br0, br, s, h0, h1, h2⟩ := h.run
  have hm : cfg.getD .user = .user := by rcases h.hcfg with rfl | rfl <;> rfl
  rw [freshNs_eq, hm] at h1
  injection h1 with h1 h1'
  subst h1; subst h1'
  have := NsRun.files h.hcfg h2 (freshStore_uinv br0 u h0) h.ev (freshStore_room _ h.len)
  have hl := hi.irep.length
  unfold maxEvents at hlen
  simp only [freshStore, List.length_cons, List.length_nil] at this
  omega

theorem UserRun.snoc {cfg : Option Mode} {u : Nat} {tr : List (NsEvent × Reply)} {br' br'' : Branches}
    {s' s'' : Store} (h : UserRun cfg u tr br' s') (hlen : tr.length < maxEvents) {x : NsEvent × Reply}
    (hx : EvOK x.1) (hr : NsRun cfg u br' s' [x] br'' s'') : UserRun cfg u (tr ++ [x]) br'' s'' where
  hcfg := h.hcfg
  run := by
    obtain ⟨br0, br, s, h0, h1, h2⟩ := h.run
    exact ⟨br0, br, s, h0, h1, h2.snoc hr⟩
  ev := by
    intro y hy
    rcases List.mem_append.1 hy with hy | hy
    · exact h.ev y hy
    · rw [List.mem_singleton.1 hy]; exact hx
  len := by simp; omega

theorem UserRun.reload {cfg : Option Mode} {u : Nat} {tr : List (NsEvent × Reply)} {br' br'' : Branches}
    {s' s'' : Store} (h : UserRun cfg u tr br' s') (hlen : tr.length < maxEvents)
    (hr : reloadNs cfg br' u s' = .ok br'' s'') : UserRun cfg u (tr ++ [(.reload, .ok)]) br'' s'' :=
  h.snoc hlen trivial (.reload hr (.nil _ _))

end Zdb
