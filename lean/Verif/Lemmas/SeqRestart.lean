/-
A restart of a sequential namespace with a single pair of files under `--synctime`: everything is synced.
-/
import Verif.Lemmas.SyncRestart
import Verif.Lemmas.SecureSeq
namespace Zdb

/-- At the end of any execution, with restarts, overwrites and deletions: the invariant, the disk as it is read, the room
    left. -/
theorem SInv.diskRun {cfg : Option Mode} (hcfg : cfg = none ∨ cfg = some .seq) {cf : SyncConf} {u : Nat} {br br' : Branches}
    {s s' : Store} {D D' : Disk} {tr : List (NsEvent × Reply)} (hr : CleanDisk cfg cf u br s D tr br' s' D') {G : Log}
    (h : SInv s G) (hev : ∀ x ∈ tr, EvOK x.1) (hnear : NearRun (absSlots G) (tr.map (·.1)))
    (n : Nat) (hroom : Room s.ifiles.length (totalData s) (tr.length + n)) (hv : D.view = s.files) :
    D'.view = s'.files ∧ Room s'.ifiles.length (totalData s') n ∧
      ∃ G', SInv s' G' ∧ absSlots G' = specSeqRun (absSlots G) (tr.map (·.1)) ∧ SeqAgrees (absSlots G) tr := by
  induction hr generalizing G with
  | nil => exact ⟨hv, hroom.mono (by simp), G, h, rfl, trivial⟩
  | @cmd c d argv br br1 br2 s s1 s2 D D2 r tr hu h1 hcl h2 ih =>
    subst hu
    obtain ⟨hc, ha⟩ := hev _ (List.mem_cons_self ..)
    obtain ⟨G1, i0, i1, i2, i3⟩ := h.command (br := br) hc d argv ha (hroom.mono (by simp; omega)) hnear.1
      (by rw [h1]; exact hcl)
    have hg := dsCommand_grows c br s d argv (2 ^ 23) ha.size
    have hfiles := dsOps_files c br s d argv
    rw [h1] at i1 i3 hg hfiles
    have hnear2 := hnear.2
    simp only [specSeqEvent] at hnear2
    rw [← i2] at hnear2
    obtain ⟨j2, j3, G', j4, j5, j6⟩ := ih i1 (fun x hx => hev x (List.mem_cons_of_mem _ hx)) hnear2
      (Room.step (n := tr.length + n) (hroom.mono (by simp; omega)) hg (by omega))
      (by rw [view_runOps, hv]; exact hfiles)
    refine ⟨j2, j3, G', j4, ?_, i3, by rw [i2] at j6; exact j6⟩
    rw [j5, i2]; rfl
  | @foreign br br1 br2 s s2 D D2 tr h1 h2 ih =>
    obtain ⟨j2, j3, G', j4, j5, j6⟩ := ih h (fun x hx => hev x (List.mem_cons_of_mem _ hx)) hnear.2
      (hroom.mono (by simp)) hv
    exact ⟨j2, j3, G', j4, j5, fun r' hr => by simp [specSeqEvent] at hr, j6⟩
  | @reload t br br1 br2 s s1 s2 D D2 tr h1 hcl h2 ih =>
    have hlen := h.irep.length
    have hlast : G.length = 1 ∨ 29 < logEnd G := by
      rcases hcl with hcl | hcl
      · left; have := h.iid; omega
      · right; rw [h.fileLen] at hcl; exact hcl
    obtain ⟨t', k1, k2, k3, k4, -⟩ := h.reload br u cfg hcfg (by have := hroom.1; omega) hlast
    rw [h1] at k1
    injection k1 with k1 k1'
    subst k1; subst k1'
    have l2 := load_view cf t (by decide) h.toCore hv
    obtain ⟨j2, j3, G', j4, j5, j6⟩ := ih k2 (fun x hx => hev x (List.mem_cons_of_mem _ hx)) hnear.2
      (by rw [k3, totalData, k4]; exact hroom.mono (by simp)) (by rw [l2, Store.files, Store.files, k3, k4])
    exact ⟨j2, j3, G', j4, j5, fun r' hr => by simp [specSeqEvent] at hr, j6⟩

theorem AllSolid.leftSolid {D : Disk} (h : AllSolid D) (id : Nat) : LeftSolid D id :=
  ⟨fun _ x _ hx => h.1 x (List.mem_of_getElem? hx), fun _ x _ hx => h.2 x (List.mem_of_getElem? hx)⟩

/-- What was synced, at the end of an execution that goes on after a restart with a single pair of files. -/
theorem CleanDisk.restart_snap {cf : SyncConf} (hcf : cf.sync = false) (hT0 : 0 < cf.synctime) {u t : Nat}
    {tr0 : List (NsEvent × Reply)} {b0 b br : Branches} {s0 s : Store} {D : Disk} (h0 : freshNs (some .seq) b0 u = .ok b s0)
    (h : CleanDisk (some .seq) cf u b s0 (Disk.fresh cf t .seq) tr0 br s D) (hev0 : ∀ x ∈ tr0, EvOK x.1)
    {t' : Nat} (ht : cf.synctime < t') {br1 br2 : Branches} {s1 s2 : Store} {D2 : Disk}
    (hre : reloadNs (some .seq) br u s = .ok br1 s1) {tr : List (NsEvent × Reply)}
    (hr : CleanDisk (some .seq) cf u br1 s1 (runOps cf t' { D with ilast := 0, dlast := 0 } (loadOps s.ifiles s.dfiles)) tr br2 s2 D2)
    (hev : ∀ x ∈ tr, (EvOK x.1 ∧ NoFault x.1 ∧ OnlyNew x.1) ∧ NoReload x.1) {n : Nat}
    (hlen : tr0.length + tr.length + n < maxEvents) (hone : s.ifiles.length = 1)
    (hsec : cf.secure = true ∨ s2.ifiles.length = 1) (hnear : NearRun [] ((tr0 ++ (.reload, .ok) :: tr).map (·.1)))
    (hclock : Clock tr) (hlater : ∀ x ∈ tr, ∀ a, evTime x.1 = some a → t' ≤ a) :
    ∃ L tr1 tr2, tr = tr1 ++ tr2 ∧ SnapQ cf.synctime n D2 L (tr0 ++ (.reload, .ok) :: tr1) tr2 ∧
      SeqAgrees [] (tr0 ++ (.reload, .ok) :: tr) ∧ ∃ G', LeftSolid D2 s2.indexid ∧ SInv s2 G' ∧ D2.view = s2.files := by
  rw [freshNs_eq] at h0
  injection h0 with h0 h0'
  subst h0'
  have hf : absSlots [[]] = [] := rfl
  have hroom : Room (freshStore .seq).ifiles.length (totalData (freshStore .seq)) (tr0.length + (tr.length + n)) := by
    unfold maxEvents at hlen
    constructor
    · simp [freshStore]; omega
    · simp [freshStore, totalData]; omega
  rw [List.map_append, nearRun_append] at hnear
  obtain ⟨g2, g3, G, g1, g4, g5⟩ := SInv.diskRun (Or.inr rfl) h freshStore_sinv hev0 (by rw [hf]; exact hnear.1) (tr.length + n)
    hroom (fresh_view cf t .seq)
  rw [hf] at g4 g5
  have hG := g1.irep.length
  obtain ⟨w, k1, k2, k3, k4, -⟩ := g1.reload br u (some .seq) (Or.inr rfl) (by have := g3.1; omega) (by omega)
  rw [hre] at k1
  injection k1 with k1 k1'
  subst k1; subst k1'
  obtain ⟨f1, f2, f3, f4⟩ := load_one hcf hT0 ht (by decide) g1.toCore g2 hone
  have hview := load_view cf t' (by decide) g1.toCore g2
  have hview1 : (runOps cf t' { D with ilast := 0, dlast := 0 } (loadOps s.ifiles s.dfiles)).view = s1.files := by
    rw [hview, Store.files, Store.files, k3, k4]
  have hslots : absSlots G = specSeqRun [] ((tr0 ++ [(NsEvent.reload, Reply.ok)]).map (·.1)) := by
    rw [List.map_append, specSeqRun_append, g4]; rfl
  have hS : SnapQ cf.synctime n (runOps cf t' { D with ilast := 0, dlast := 0 } (loadOps s.ifiles s.dfiles)) t'
      (tr0 ++ [(.reload, .ok)]) [] :=
    ⟨f2, by simp, s, G, g1, f4.onDisk hview, hslots, g3.mono (by omega)⟩
  obtain ⟨L, a1, a2, ea, hSa, hA, hG', p, hp⟩ := SnapQ.run hcf rfl hT0 hr hsec k2 hview1 (f4.leftSolid _) (f2.trans f3.symm) hev
    (by rw [k3, totalData, k4]; exact g3) hclock hS hlater (by simpa using hslots)
    (by rw [g4]; exact hnear.2.2)
  subst hp
  refine ⟨L, p, a2, by simpa using ea, by simpa using hSa, ?_, hG'⟩
  rw [seqAgrees_append]
  refine ⟨g5, fun r' hr => by simp [specSeqEvent] at hr, ?_⟩
  rw [g4] at hA
  exact hA

end Zdb
