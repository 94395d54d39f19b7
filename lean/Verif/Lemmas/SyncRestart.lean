/-
A restart with a single pair of files under `--synctime`: everything is synced.
-/
import Verif.Lemmas.SyncSeq
import Verif.Lemmas.SyncTime
import Verif.Lemmas.Stop
namespace Zdb

/-- Loading writes back the headers that are there. -/
theorem load_files {mode : Nat} (hmode : mode < 256) {df : Loc → Nat} {s : Store} {G : Log} (hc : Core mode df s G) :
    opsFiles s.files (loadOps s.ifiles s.dfiles) = s.files := by
  have hcur : ∀ l : List Bytes, (l.map DFile.solid).map DFile.cur = l := by
    intro l
    induction l with
    | nil => rfl
    | cons a l ih => simp only [List.map_cons, ih]; rfl
  have hsol : ∀ l : List Bytes, ∀ x ∈ l.map DFile.solid, x = DFile.solid x.cur := by
    intro l x hx
    obtain ⟨b, -, rfl⟩ := List.mem_map.1 hx
    rfl
  have hv : Disk.view { i := s.ifiles.map DFile.solid, d := s.dfiles.map DFile.solid, ilast := 0, dlast := 0 } = s.files := by
    simp only [Disk.view, hcur, Store.files]
  have := (load_solid (cf := { sync := true, synctime := 0, secure := false }) rfl 0 ⟨hsol _, hsol _⟩ hmode hc hv).2
  rw [view_runOps, hv] at this
  exact this

theorem load_view (cf : SyncConf) (now : Nat) {mode : Nat} (hmode : mode < 256) {df : Loc → Nat} {s : Store} {G : Log}
    (hc : Core mode df s G) {D : Disk} (hv : D.view = s.files) :
    (runOps cf now { D with ilast := 0, dlast := 0 } (loadOps s.ifiles s.dfiles)).view = s.files := by
  rw [view_runOps]
  exact (congrArg (fun x => opsFiles x _) hv).trans (load_files hmode hc)

/-- A restart with a single pair of files, more than `T` seconds after 1970: both are synced. -/
theorem load_one {cf : SyncConf} (hcf : cf.sync = false) (hT0 : 0 < cf.synctime) {now : Nat} (hnow : cf.synctime < now)
    {mode : Nat} (hmode : mode < 256) {df : Loc → Nat} {s : Store} {G : Log} (hc : Core mode df s G) {D : Disk}
    (hv : D.view = s.files) (h1 : s.ifiles.length = 1) :
    (runOps cf now { D with ilast := 0, dlast := 0 } (loadOps s.ifiles s.dfiles)).safe =
        (s.ifiles.map some, s.dfiles.map some) ∧
      (runOps cf now { D with ilast := 0, dlast := 0 } (loadOps s.ifiles s.dfiles)).ilast = now ∧
      (runOps cf now { D with ilast := 0, dlast := 0 } (loadOps s.ifiles s.dfiles)).dlast = now ∧
      AllSolid (runOps cf now { D with ilast := 0, dlast := 0 } (loadOps s.ifiles s.dfiles)) := by
  have hview := load_view cf now hmode hc hv
  have hd1 : s.dfiles.length = 1 := by rw [hc.dlen, ← hc.irep.length]; exact h1
  have hdue : cf.due 0 now = true := by
    simp only [SyncConf.due, hcf, Bool.false_or, Bool.and_eq_true, decide_eq_true_eq]; omega
  obtain ⟨li, ld, a, b⟩ := D
  have e1 : li.map DFile.cur = s.ifiles := congrArg Prod.fst hv
  have e2 : ld.map DFile.cur = s.dfiles := congrArg Prod.snd hv
  have hli : li.length = 1 := by rw [← h1, ← e1, List.length_map]
  have hld : ld.length = 1 := by rw [← hd1, ← e2, List.length_map]
  obtain ⟨fi, hfi⟩ := List.length_eq_one_iff.1 h1
  obtain ⟨fd, hfd⟩ := List.length_eq_one_iff.1 hd1
  obtain ⟨x, rfl⟩ := List.length_eq_one_iff.1 hli
  obtain ⟨y, rfl⟩ := List.length_eq_one_iff.1 hld
  rw [hfi, hfd] at hview ⊢
  have hrun : ∃ p q : DFile, runOps cf now { i := [x], d := [y], ilast := 0, dlast := 0 } (loadOps [fi] [fd]) =
      { i := [p.sync], d := [q.sync], ilast := now, dlast := now } := by
    refine ⟨x.put 0 (encIHeader { decIHeader fi with opened := 0 }), y.put 0 (encDFHeader (freshDFHeader 0)), ?_⟩
    have hops : loadOps [fi] [fd] =
        [.write .index 0 0 (encIHeader { decIHeader fi with opened := 0 }), .check .index 0,
          .write .data 0 0 (encDFHeader (freshDFHeader 0)), .check .data 0] := rfl
    rw [hops]
    simp only [runOps, List.foldl_cons, List.foldl_nil, Op.run, Disk.last, Disk.on, Disk.fsync, hdue, if_true]
    rfl
  obtain ⟨p, q, hrun⟩ := hrun
  simp only at hview ⊢
  rw [hrun] at hview ⊢
  simp only [Disk.view, Store.files, hfi, hfd, List.map_cons, List.map_nil, Prod.mk.injEq, List.cons.injEq, and_true] at hview
  refine ⟨?_, rfl, rfl, ?_, ?_⟩
  · simp only [Disk.safe, List.map_cons, List.map_nil, Prod.mk.injEq, List.cons.injEq, and_true]
    exact ⟨congrArg some hview.1, congrArg some hview.2⟩
  · intro z hz
    simp only [List.mem_singleton] at hz
    subst hz; rfl
  · intro z hz
    simp only [List.mem_singleton] at hz
    subst hz; rfl

/-- At the end of any execution, with restarts and deletions: the invariant, the disk as it is read, the room left. -/
theorem UInv.diskRun {cfg : Option Mode} (hcfg : cfg = none ∨ cfg = some .user) {cf : SyncConf} {u : Nat}
    {br br' : Branches} {s s' : Store} {D D' : Disk} {tr : List (NsEvent × Reply)}
    (hr : DiskRun cfg cf u br s D tr br' s' D') {G : Log} (hu : UInv br u s G) (hv : D.view = s.files)
    (hev : ∀ x ∈ tr, EvOK x.1) {n : Nat} (hroom : Room s.ifiles.length (totalData s) (tr.length + n)) :
    ∃ G', UInv br' u s' G' ∧ D'.view = s'.files ∧ Room s'.ifiles.length (totalData s') n ∧
      ∀ k, (liveGet G' k).map (fun l => l.r.payload) =
        tr.foldl (fun a x => (writeOf k x).getD a) ((liveGet G k).map (fun l => l.r.payload)) := by
  induction hr generalizing G with
  | nil br s D => exact ⟨G, hu, hv, by simpa using hroom, fun k => rfl⟩
  | @cmd c d argv br br1 br2 s s1 s2 D D2 r tr hcu h1 h2 ih =>
    subst hcu
    obtain ⟨hc, ha⟩ := hev _ (List.mem_cons_self ..)
    obtain ⟨G1, i1, i2, i3, i4⟩ := hu.command hc d argv ha (hroom.mono (by simp only [List.length_cons]; omega))
    have hg := dsCommand_grows c br s d argv (2 ^ 23) ha.size
    have hview : (runOps cf c.now D (dsOps c br s d argv)).view = (dsCommand c br s d argv).2.1.files := by
      rw [view_runOps, hv, dsOps_files]
    rw [h1] at i1 i3 hg hview
    obtain ⟨G', j1, j2, j3, j4⟩ := ih i1 hview (fun x hx => hev x (List.mem_cons_of_mem _ hx))
      (Room.step (hroom.mono (by simp only [List.length_cons]; omega)) hg (by omega))
    refine ⟨G', j1, j2, j3, ?_⟩
    intro k
    have := agrees_get (absKV G) [(.cmd c d argv, r)] ⟨i3, trivial⟩ k
    simp only [List.map_cons, List.map_nil, specRun, specEvent, List.foldl_cons, List.foldl_nil, ← i2, absKV_get,
      Option.map_map] at this
    rw [j4 k, List.foldl_cons]
    exact congrArg (fun z => tr.foldl (fun a x => (writeOf k x).getD a) z) this
  | @foreign br br1 br2 s s2 D D2 tr h1 h2 ih =>
    obtain ⟨G', j1, j2, j3, j4⟩ := ih (hu.foreign h1) hv (fun x hx => hev x (List.mem_cons_of_mem _ hx))
      (hroom.mono (by simp only [List.length_cons]; omega))
    exact ⟨G', j1, j2, j3, fun k => by rw [j4 k]; rfl⟩
  | @reload t br br1 br2 s s1 s2 D D2 tr h1 h2 ih =>
    have hlen := hu.irep.length
    obtain ⟨b, w, k1, k2, k3, k4, -⟩ := hu.reload cfg hcfg (by have := hroom.1; omega)
    rw [h1] at k1
    injection k1 with k1 k1'
    subst k1; subst k1'
    have hview := load_view cf t (by decide) hu.toCore hv
    obtain ⟨G', j1, j2, j3, j4⟩ := ih k2 (by rw [hview, Store.files, Store.files, k3, k4])
      (fun x hx => hev x (List.mem_cons_of_mem _ hx))
      (by rw [k3, totalData, k4]; exact hroom.mono (by simp only [List.length_cons]; omega))
    exact ⟨G', j1, j2, j3, fun k => by rw [j4 k]; rfl⟩

/-- What was synced, at the end of an execution that goes on after a restart with a single pair of files. -/
theorem SyncRun.restart_snap {cfg : Option Mode} {cf : SyncConf} (hcf : cf.sync = false) (hT0 : 0 < cf.synctime)
    {u t : Nat} {tr0 : List (NsEvent × Reply)} {br : Branches} {s : Store} {D : Disk} (h : SyncRun cfg cf u t tr0 br s D)
    {t' : Nat} (ht : cf.synctime < t') {br1 br2 : Branches} {s1 s2 : Store} {D2 : Disk}
    (hre : reloadNs cfg br u s = .ok br1 s1) {tr : List (NsEvent × Reply)}
    (hr : DiskRun cfg cf u br1 s1 (runOps cf t' { D with ilast := 0, dlast := 0 } (loadOps s.ifiles s.dfiles)) tr br2 s2 D2)
    (hev : ∀ x ∈ tr, (EvOK x.1 ∧ NoFault x.1) ∧ NoDel x.1) (hlen : tr0.length + tr.length < maxEvents)
    (h1 : s2.ifiles.length = 1) (hclock : Clock tr) (hlater : ∀ x ∈ tr, ∀ a, evTime x.1 = some a → t' ≤ a) :
    ∃ L tr1 tr2, tr = tr1 ++ tr2 ∧ Snap cf.synctime u D2 L (tr0 ++ (.reload, .ok) :: tr1) tr2 := by
  obtain ⟨b0, b, s0, h0, e1, e2⟩ := h.run
  have hm : cfg.getD .user = .user := by rcases h.hcfg with rfl | rfl <;> rfl
  rw [freshNs_eq, hm] at e1
  injection e1 with e1 e1'
  subst e1; subst e1'
  have hlw : ∀ k, (liveGet [[]] k).map (fun l => l.r.payload) = lastWrite k [] := by
    intro k; simp [lastWrite, liveGet, live, locs, locsFrom, locsIn]
  obtain ⟨G, g1, g2, g3, g4⟩ := UInv.diskRun h.hcfg e2 (freshStore_uinv b0 u h0) (fresh_view cf t .user)
    (fun x hx => (h.ev x hx).1) (n := tr.length) (freshStore_room _ (by omega))
  have hG := g1.irep.length
  obtain ⟨b', w, k1, k2, k3, k4, -⟩ := g1.reload cfg h.hcfg (by have := g3.1; omega)
  rw [hre] at k1
  injection k1 with k1 k1'
  subst k1; subst k1'
  have hpos : 0 < G.length := List.length_pos_iff.2 g1.ne
  have hone : s.ifiles.length = 1 := by
    have := hr.len (fun x hx => (hev x hx).2)
    rw [k3] at this
    omega
  obtain ⟨f1, f2, f3, -⟩ := load_one hcf hT0 ht (by decide) g1.toCore g2 hone
  have hview := load_view cf t' (by decide) g1.toCore g2
  have hlast : ∀ k, (liveGet G k).map (fun l => l.r.payload) = lastWrite k (tr0 ++ [(.reload, .ok)]) := by
    intro k
    rw [g4 k, lastWrite_snoc, hlw k]
    rfl
  have hS : Snap cf.synctime u (runOps cf t' { D with ilast := 0, dlast := 0 } (loadOps s.ifiles s.dfiles)) t'
      (tr0 ++ [(.reload, .ok)]) [] := by
    have hd1 : s.dfiles.length = 1 := by rw [g1.dlen, ← hG]; exact hone
    obtain ⟨fi, hfi⟩ := List.length_eq_one_iff.1 hone
    obtain ⟨fd, hfd⟩ := List.length_eq_one_iff.1 hd1
    exact ⟨f2, f3, ⟨some fi, some fd, by rw [f1, hfi, hfd]; rfl⟩, by simp, br, s, G, g1, hone, f1, hlast⟩
  obtain ⟨L, a1, a2, ea, hSa, p, hp⟩ := Snap.run hcf rfl hT0 hr k2 (by rw [hview, Store.files, Store.files, k3, k4]) hev
    (by rw [k3, totalData, k4]; exact g3) (by rw [k3]; exact hone) h1 hclock hS hlater (by simpa using hlast)
  subst hp
  refine ⟨L, p, a2, ?_, by simpa using hSa⟩
  simpa using ea

end Zdb
