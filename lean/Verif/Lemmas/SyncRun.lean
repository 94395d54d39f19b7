/-
Executions under `--sync` and what a power loss leaves of them.
-/
import Verif.Lemmas.SyncLoad
import Verif.Spec.Sync
import Verif.Lemmas.UserSpec
namespace Zdb

theorem UInv.lastOf_live {br : Branches} {u : Nat} {s : Store} {G : Log} (h : UInv br u s G) {k : Bytes} {l : Loc}
    (hl : liveGet G k = some l) : lastOf (locs G) k = some l := by
  obtain ⟨h1, h2⟩ := liveGet_some hl
  obtain ⟨A, B, hAB⟩ := List.append_of_mem (live_mem h1)
  have hn := h.newest
  rw [hAB, List.pairwise_append] at hn
  have hB : ∀ b ∈ B, l.id ≠ b.id := fun b hb => (List.pairwise_cons.1 hn.2.1).1 b hb (List.mem_filter.1 h1).2
  have hf : B.filter (fun l => l.id == k) = [] := by
    rw [List.filter_eq_nil_iff]
    intro b hb
    have := hB b hb
    rw [h2] at this
    simpa using fun x => this x.symm
  rw [lastOf, hAB, List.filter_append, List.filter_cons_of_pos (by simp [h2]), hf]
  simp

theorem liveGet_ne_none {G : Log} {k : Bytes} {l : Loc} (hl : l ∈ locs G) (hv : l.live = true) (hk : l.id = k) :
    liveGet G k ≠ none := by
  intro h
  rw [liveGet, List.find?_eq_none] at h
  exact h l (List.mem_filter.2 ⟨hl, hv⟩) (by simp [hk])

/-- The last payload of a key, deleted or not, after an event. -/
theorem LogStep.lastOf {br br' : Branches} {u : Nat} {s s' : Store} {G G' : Log} {x : NsEvent × Reply}
    (hs : LogStep (Writes x) G G') (h' : UInv br' u s' G') (k : Bytes)
    (hl : (liveGet G' k).map (fun l => l.r.payload) =
      (writeOf k x).getD ((liveGet G k).map (fun l => l.r.payload))) :
    (lastOf (locs G') k).map (fun l => l.r.payload) = match writeOf k x with
      | some (some p) => some p
      | _ => (lastOf (locs G) k).map (fun l => l.r.payload) := by
  obtain ⟨-, L, E, h1, h2, h3⟩ := hs
  have hsame : (∀ e ∈ E, e.id ≠ k) → (Zdb.lastOf (locs G') k).map (fun l => l.r.payload) =
      (Zdb.lastOf (locs G) k).map (fun l => l.r.payload) := by
    intro hE
    have hf : E.filter (fun l => l.id == k) = [] := by
      rw [List.filter_eq_nil_iff]
      intro b hb
      simpa using hE b hb
    have e1 : Zdb.lastOf (locs G') k = Zdb.lastOf L k := by
      rw [Zdb.lastOf, h1, List.filter_append, hf, List.append_nil]; rfl
    rw [e1]
    rcases h2.lastOf k with ⟨a, b⟩ | ⟨a, b, c, d, e, -⟩
    · rw [a, b]
    · rw [c, d]
      have := congrArg (fun x => x.r.payload) e
      simp only [Option.map_some]
      exact congrArg some this.symm
  cases hw : writeOf k x with
  | none =>
    refine hsame (fun e he hk => ?_)
    have := (h3 e he).1.1
    rw [hk, Writes] at this
    exact this hw
  | some o =>
    rw [hw, Option.getD_some] at hl
    cases o with
    | none =>
      refine hsame (fun e he hk => ?_)
      have := liveGet_ne_none (G := G') (by rw [h1]; simp [he]) (h3 e he).1.2 hk
      rw [Option.map_eq_none_iff] at hl
      exact this hl
    | some p =>
      cases hg : liveGet G' k with
      | none => rw [hg] at hl; cases hl
      | some l => rw [h'.lastOf_live hg, Option.map_some, ← hl, hg]; rfl

theorem LogStep.flagAt {P : Bytes → Prop} {G G' : Log} (h : LogStep P G G') {n p : Nat} (hf : FlagAt G n p) :
    FlagAt G' n p := by
  obtain ⟨-, L, E, h1, h2, -⟩ := h
  obtain ⟨l, hl, rfl, rfl⟩ := hf
  have key : ∀ (a b : List Loc), Kills P a b → l ∈ a → ∃ m ∈ b, m.file = l.file ∧ m.off = l.off := by
    intro a
    induction a with
    | nil => intro b _ h; cases h
    | cons x a ih =>
      intro b hk hx
      cases b with
      | nil => exact absurd hk id
      | cons y b =>
        simp only [List.mem_cons] at hx
        rcases hx with rfl | hx
        · refine ⟨y, by simp, ?_, ?_⟩
          · have := congrArg Loc.file hk.1.1
            exact this.symm
          · have := congrArg Loc.off hk.1.1
            exact this.symm
        · obtain ⟨m, hm, h⟩ := ih b hk.2 hx
          exact ⟨m, by simp [hm], h⟩
  obtain ⟨m, hm, h3, h4⟩ := key _ _ h2 hl
  exact ⟨m, by rw [h1]; simp [hm], h3, by rw [h4]⟩

/-- The step of `lastSet`. -/
def setStep (k : Bytes) (a : Option Bytes) (x : NsEvent × Reply) : Option Bytes :=
  match writeOf k x with
  | some (some p) => some p
  | _ => a

/-- Everything known at the end of an execution under `--sync`. -/
theorem DInv.run {cfg : Option Mode} (hcfg : cfg = none ∨ cfg = some .user) {cf : SyncConf} (hcf : cf.sync = true)
    {u : Nat} {br br' : Branches} {s s' : Store} {D D' : Disk} {tr : List (NsEvent × Reply)}
    (hr : DiskRun cfg cf u br s D tr br' s' D') {G : Log} (hu : UInv br u s G) (hd : DInv D s G)
    (hev : ∀ x ∈ tr, EvOK x.1 ∧ NoFault x.1) (hroom : Room s.ifiles.length (totalData s) tr.length) :
    ∃ G', UInv br' u s' G' ∧ DInv D' s' G' ∧ s'.ifiles.length ≤ s.ifiles.length + tr.length ∧
      ∀ k, (liveGet G' k).map (fun l => l.r.payload) =
          tr.foldl (fun a x => (writeOf k x).getD a) ((liveGet G k).map (fun l => l.r.payload)) ∧
        (lastOf (locs G') k).map (fun l => l.r.payload) =
          tr.foldl (setStep k) ((lastOf (locs G) k).map (fun l => l.r.payload)) := by
  induction hr generalizing G with
  | nil br s D => exact ⟨G, hu, hd, by simp, fun k => ⟨rfl, rfl⟩⟩
  | @cmd c d argv br br1 br2 s s1 s2 D D2 r tr hcu h1 h2 ih =>
    subst hcu
    obtain ⟨⟨hc, ha⟩, hio⟩ := hev _ (List.mem_cons_self ..)
    obtain ⟨G1, i1, i2, i3, i4⟩ := hu.command hc d argv ha (hroom.mono (by simp))
    have hg := dsCommand_grows c br s d argv (2 ^ 23) ha.size
    have hcap : s.ifiles.length < 2 ^ 32 := by have := hroom.1; omega
    have hd1 := (hd.command hu hcf c.now ⟨hio.1, hio.2.1, hio.2.2.1, hio.2.2.2.1⟩ hcap d argv).mono
      (fun n p hp => i4.flagAt hp)
    rw [h1] at i1 i3 i4 hg hd1
    have hlive : ∀ k, (liveGet G1 k).map (fun l => l.r.payload) =
        (writeOf k (.cmd c d argv, r)).getD ((liveGet G k).map (fun l => l.r.payload)) := by
      intro k
      have := agrees_get (absKV G) [(.cmd c d argv, r)] ⟨i3, trivial⟩ k
      simp only [List.map_cons, List.map_nil, specRun, specEvent, List.foldl_cons, List.foldl_nil, ← i2, absKV_get,
        Option.map_map] at this
      exact this
    obtain ⟨G', j1, j2, j3, j4⟩ := ih i1 hd1 (fun x hx => hev x (List.mem_cons_of_mem _ hx))
      (hroom.step hg (by omega))
    refine ⟨G', j1, j2, ?_, fun k => ⟨?_, ?_⟩⟩
    · have := hg.2
      simp only [List.length_cons] at *
      omega
    · rw [(j4 k).1, hlive k]; rfl
    · rw [(j4 k).2, i4.lastOf (br := br) (s := s) i1 k (hlive k)]; rfl
  | @foreign br br1 br2 s s2 D D2 tr h1 h2 ih =>
    obtain ⟨G', j1, j2, j3, j4⟩ := ih (hu.foreign h1) hd (fun x hx => hev x (List.mem_cons_of_mem _ hx))
      (hroom.mono (by simp))
    exact ⟨G', j1, j2, by simp only [List.length_cons]; omega, j4⟩
  | @reload t br br1 br2 s s1 s2 D D2 tr h1 h2 ih =>
    have hlen := hu.irep.length
    obtain ⟨b, s3, k1, k2, k3, k4, -⟩ := hu.reload cfg hcfg (by have := hroom.1; omega)
    rw [h1] at k1
    injection k1 with k1 k1'
    subst k1; subst k1'
    have hd0 : DInv { D with ilast := 0, dlast := 0 } s G := ⟨hd.d, hd.ilen, hd.idx⟩
    have hd1 := hd0.load (s' := s1) hu hcf t (by simp only [Store.files, k3, k4])
    obtain ⟨G', j1, j2, j3, j4⟩ := ih k2 hd1 (fun x hx => hev x (List.mem_cons_of_mem _ hx))
      (by rw [k3, totalData, k4]; exact hroom.mono (by simp))
    exact ⟨G', j1, j2, by rw [k3] at j3; simp only [List.length_cons]; omega, j4⟩

/-- What is loaded after a power loss, if all is on the disk but deleted flags. -/
theorem DInv.loaded {cfg : Option Mode} (hcfg : cfg = none ∨ cfg = some .user) {u : Nat} {tr : List (NsEvent × Reply)} {br : Branches}
    {s : Store} {D : Disk} {G : Log} (i2 : DInv D s G) (i1 : UInv br u s G) (hlen : tr.length < maxEvents)
    (hGlen : G.length ≤ tr.length + 1)
    (hlw : ∀ k, (liveGet G k).map (fun l => l.r.payload) = lastWrite k tr)
    (hls : ∀ k, (lastOf (locs G) k).map (fun l => l.r.payload) = lastSet k tr)
    {fi fd : List Bytes} (hp : PowerLoss D fi fd) {br0 : Branches} {v : Nat} (hbr : ∀ h, nsBranch br0 v h = []) :
    ∃ br' s', loadNs cfg br0 v fi fd = .ok br' s' ∧ s'.mode = .user ∧ InStep s' ∧ s'.indexid ≤ tr.length ∧
      ∀ k, ∃ w, MayKeep k tr w ∧ HasVal br' v s'.dfiles k w := by
  obtain ⟨rfl, G', j1, j2, j3, j4⟩ := i2.survivors i1 hp
  obtain ⟨br', s', k1, k2, k3, k4, k5, k6⟩ := i1.load_lossy j2 j1 j3 j4 cfg hcfg
    (by unfold maxEvents at hlen; omega) hbr
  refine ⟨br', s', k1, k2, k3, by omega, fun k => ⟨_, ?_, k6 k⟩⟩
  have hlw := hlw k
  have hls := hls k
  rcases j3.lastOf k with ⟨a, c⟩ | ⟨x, y, a, c, d, e⟩
  · left
    rw [a]
    cases hg : liveGet G k with
    | none => rw [← hlw, hg]; rfl
    | some l => rw [i1.lastOf_live hg] at c; cases c
  · have hpay : x.r.payload = y.r.payload := by
      have := congrArg (fun x => x.r.payload) d
      exact this
    rw [a]
    cases hg : liveGet G k with
    | some l =>
      rw [i1.lastOf_live hg] at c
      injection c with c
      subst c
      left
      have hlv : x.live = true := e (List.mem_filter.1 (liveGet_some hg).1).2
      rw [← hlw, hg]
      simp [Option.filter, hlv, hpay]
    | none =>
      rw [hg, Option.map_none] at hlw
      cases hxl : x.live with
      | true =>
        right
        refine ⟨hlw.symm, ?_⟩
        rw [← hls, c]
        simp [Option.filter, hxl, hpay]
      | false =>
        left
        rw [← hlw]
        simp [Option.filter, hxl]

/-- What is loaded after a power loss. -/
theorem SyncRun.loaded {cfg : Option Mode} {cf : SyncConf} (hcf : cf.sync = true) {u t : Nat}
    {tr : List (NsEvent × Reply)} {br : Branches} {s : Store} {D : Disk} (h : SyncRun cfg cf u t tr br s D)
    {fi fd : List Bytes} (hp : PowerLoss D fi fd) {br0 : Branches} {v : Nat} (hbr : ∀ h, nsBranch br0 v h = []) :
    ∃ br' s', loadNs cfg br0 v fi fd = .ok br' s' ∧ s'.mode = .user ∧ InStep s' ∧ s'.indexid ≤ tr.length ∧
      ∀ k, ∃ w, MayKeep k tr w ∧ HasVal br' v s'.dfiles k w := by
  obtain ⟨b0, b, s0, h0, h1, h2⟩ := h.run
  have hm : cfg.getD .user = .user := by rcases h.hcfg with rfl | rfl <;> rfl
  rw [freshNs_eq, hm] at h1
  injection h1 with h1 h1'
  subst h1; subst h1'
  have hlen := h.len
  obtain ⟨G, i1, i2, i3, i4⟩ := DInv.run h.hcfg hcf h2 (freshStore_uinv b0 u h0) (DInv.fresh hcf _ _ _) h.ev
    (freshStore_room _ (by omega))
  refine i2.loaded h.hcfg i1 h.len ?_ ?_ ?_ hp hbr
  · have := i1.irep.length
    simp only [freshStore, List.length_cons, List.length_nil] at i3
    omega
  · intro k
    rw [(i4 k).1]
    simp [lastWrite, liveGet, live, locs, locsFrom, locsIn]
  · intro k
    rw [(i4 k).2]
    simp only [lastSet, locs, locsFrom, locsIn, lastOf, List.append_nil, List.filter_nil, List.getLast?_nil, Option.map_none]
    rfl

end Zdb
