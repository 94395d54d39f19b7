/-
Power losses under `--synctime` with `--secure` (C64), with any number of files; power losses in a change of files (C63, C64).
-/
import Verif.Lemmas.SecureTime
import Verif.Props.Sync
namespace Zdb

/-- C64 with `--secure`, user-key mode.  Under `--synctime T` the power is lost after any execution without deletion,
    whatever files it left, and what is found is each file as it was when it was last synced, if it ever was.  The
    execution is cut in two: after a restart each key has the value of its last SET in the first part, and the SETs
    acknowledged in the second part are all within `T` seconds of the time `L`.
    Missing: pending writes of which a part reached the disk (`C64_torn_refuted`), among them a new file found empty
    (`C64_empty_refuted`), deletions (`C64_del_refuted`), sequential mode; false after a RELOAD
    (`C64_reload_refuted`). -/
theorem C64_secure_partial {cfg : Option Mode} {cf : SyncConf} (hcf : cf.sync = false) (hT : 0 < cf.synctime)
    (hsec : cf.secure = true) {u t : Nat} {tr : List (NsEvent × Reply)} {br : Branches} {s : Store} {D : Disk}
    (h : SyncRun cfg cf u t tr br s D) (hnd : ∀ x ∈ tr, NoDel x.1) (hlen : tr.length + 2 < maxEvents)
    (hclock : Clock tr) (ht : cf.synctime < t) (hlater : ∀ x ∈ tr, ∀ a, evTime x.1 = some a → t ≤ a)
    {br0 : Branches} {v : Nat} (hbr : ∀ h, (br0 h).filter (fun e => e.ns == v) = []) :
    PowerLoss D (D.i.filterMap DFile.safe) (D.d.filterMap DFile.safe) ∧
    ∃ L tr1 tr2, tr = tr1 ++ tr2 ∧
      (∀ x ∈ tr2, Acked x → ∃ a, evTime x.1 = some a ∧ L ≤ a ∧ a ≤ L + cf.synctime) ∧
      ∃ br1 s1, loadNs cfg br0 v (D.i.filterMap DFile.safe) (D.d.filterMap DFile.safe) = .ok br1 s1 ∧
        ∀ (c : Ctx) (name k : Bytes), c.u = v → name ≠ [] → k ≠ [] → k.length ≤ 255 → c.conf.lock ≠ .frozen →
          cmdGet c br1 s1 [name, k] = getReply (lastWrite k tr1) := by
  obtain ⟨L, tr1, tr2, e, hS, G, g1, g2, g3⟩ := h.snapS hcf hsec rfl hT hnd hclock ht hlater
  refine ⟨g1.powerLoss g2 g3, L, tr1, tr2, e, hS.recent, ?_⟩
  obtain ⟨br1, s1, k1, k2, -, k4⟩ := hS.loaded h.hcfg (fun x hx => hnd x (by rw [e]; simp [hx]))
    (by rw [e, List.length_append] at hlen; omega) hbr
  refine ⟨br1, s1, k1, ?_⟩
  intro c name k hu hn hk hl hf
  subst hu
  exact ((k4 k).reads k2 name hn hk hl hf).1

/-! ### witnesses -/

/-- The options `--synctime 5 --secure`. -/
def secure5 : SyncConf := { sync := false, synctime := 5, secure := true }

theorem secure5_run (l : List (Ctx × DsCmd × List Bytes)) (h : ∀ x ∈ l, ∃ n, x.1 = later n)
    (ha : ∀ x ∈ l, ArgsOK x.2.2) (hl : l.length < maxEvents) :
    SyncRun none secure5 7 exCtx.now (traceOf (fun _ => []) (freshStore .user) l)
      (runCmds (fun _ => []) (freshStore .user) l).1 (runCmds (fun _ => []) (freshStore .user) l).2.1
      (freshDisk .user secure5 l) := by
  refine syncRun_of_cmds secure5 l ?_ ?_ hl
  · intro x hx
    obtain ⟨n, e⟩ := h x hx
    rw [e]; rfl
  · intro x hx
    obtain ⟨n, e⟩ := h x hx
    refine ⟨by rw [e]; exact later_ok n, ha x hx, ?_⟩
    rw [e]; exact ⟨rfl, rfl, rfl, rfl, rfl⟩

/-- A key stored, the files changed, the key stored again, then another one an hour later, twice. -/
def secureCmds : List (Ctx × DsCmd × List Bytes) :=
  [(later 1, .set, [str "SET", str "a", str "one"]),
   (later 2, .nsjump, [str "NSJUMP"]),
   (later 3, .set, [str "SET", str "a", str "two"]),
   (later 3600, .set, [str "SET", str "b", str "three"]),
   (later 3601, .set, [str "SET", str "b", str "four"])]

theorem secureCmds_run (n : Nat) : SyncRun none secure5 7 exCtx.now
    (traceOf (fun _ => []) (freshStore .user) (secureCmds.take n))
    (runCmds (fun _ => []) (freshStore .user) (secureCmds.take n)).1
    (runCmds (fun _ => []) (freshStore .user) (secureCmds.take n)).2.1
    (freshDisk .user secure5 (secureCmds.take n)) := by
  have hm : ∀ x ∈ secureCmds.take n, x ∈ secureCmds := fun x hx => List.mem_of_mem_take hx
  refine secure5_run (secureCmds.take n) ?_ ?_ ?_
  · intro x hx
    have hx := hm x hx
    simp only [secureCmds, List.mem_cons, List.not_mem_nil, or_false] at hx
    rcases hx with rfl | rfl | rfl | rfl | rfl
    all_goals exact ⟨_, rfl⟩
  · intro x hx
    have hx := hm x hx
    simp only [secureCmds, List.mem_cons, List.not_mem_nil, or_false] at hx
    rcases hx with rfl | rfl | rfl | rfl | rfl
    all_goals exact ⟨⟨_, _, rfl, by decide⟩, by decide⟩
  · have : (secureCmds.take n).length ≤ 5 := by rw [List.length_take]; exact Nat.min_le_right _ _
    unfold maxEvents; omega

/-- The replies to GET of `a` and `b` from the files synced once. -/
def readSynced (D : Disk) : Option (Nat × List Reply) :=
  match loadNs none (fun _ => []) 7 (D.i.filterMap DFile.safe) (D.d.filterMap DFile.safe) with
  | .ok br s => some (s.ifiles.length,
      [cmdGet exCtx br s [str "GET", str "a"], cmdGet exCtx br s [str "GET", str "b"]])
  | _ => none

set_option maxRecDepth 100000 in
/-- A case meeting the hypotheses of `C64_secure_partial`: `a` is kept in the file left, its second SET is lost with
    the new file if the power fails soon, and is kept, as the first SET of `b`, an hour later; the second SET of `b`
    is lost. -/
theorem C64_secure_example :
    (∀ n, SyncRun none secure5 7 exCtx.now (traceOf (fun _ => []) (freshStore .user) (secureCmds.take n))
      (runCmds (fun _ => []) (freshStore .user) (secureCmds.take n)).1
      (runCmds (fun _ => []) (freshStore .user) (secureCmds.take n)).2.1
      (freshDisk .user secure5 (secureCmds.take n))) ∧
    (∀ x ∈ traceOf (fun _ => []) (freshStore .user) secureCmds, NoDel x.1) ∧
    Clock (traceOf (fun _ => []) (freshStore .user) secureCmds) ∧
    (∀ x ∈ traceOf (fun _ => []) (freshStore .user) secureCmds, ∀ a, evTime x.1 = some a → exCtx.now ≤ a) ∧
    readSynced (freshDisk .user secure5 (secureCmds.take 3)) = some (1, [.bulk (str "one"), .nil]) ∧
    readSynced (freshDisk .user secure5 secureCmds) = some (2, [.bulk (str "two"), .bulk (str "three")]) :=
  ⟨secureCmds_run, by simp [traceOf, secureCmds, NoDel], by simp [Clock, traceOf, secureCmds, evTime, later],
   by simp [traceOf, secureCmds, evTime, later], rfl, rfl⟩

/-- The reply to a SET after a power loss that left the new files empty, the reply to a GET of its key, and whether
    the namespace can be loaded once more. -/
def afterEmpty (D : Disk) : Option (List Reply × Bool) :=
  match loadNs none (fun _ => []) 7 (D.i.map fun f => f.safe.getD []) (D.d.map fun f => f.safe.getD []) with
  | .ok br s =>
    let x := dsCommand exCtx br s .set [str "SET", str "k", str "v"]
    some ([x.2.2, cmdGet exCtx x.1 x.2.1 [str "GET", str "k"]],
      match loadNs none (fun _ => []) 7 x.2.1.ifiles x.2.1.dfiles with
      | .ok _ _ => true
      | _ => false)
  | _ => none

set_option maxRecDepth 100000 in
/-- C64 is false, even with `--secure`, if the new index file is found without its header: the server starts and
    acknowledges SETs, which go to a file without header, and once stopped it does not start any more. -/
theorem C64_empty_refuted :
    SyncRun none secure5 7 exCtx.now (traceOf (fun _ => []) (freshStore .user) (secureCmds.take 3))
      (runCmds (fun _ => []) (freshStore .user) (secureCmds.take 3)).1
      (runCmds (fun _ => []) (freshStore .user) (secureCmds.take 3)).2.1
      (freshDisk .user secure5 (secureCmds.take 3)) ∧
    PowerLoss (freshDisk .user secure5 (secureCmds.take 3))
      ((freshDisk .user secure5 (secureCmds.take 3)).i.map fun f => f.safe.getD [])
      ((freshDisk .user secure5 (secureCmds.take 3)).d.map fun f => f.safe.getD []) ∧
    afterEmpty (freshDisk .user secure5 (secureCmds.take 3)) = some ([.bulk (str "k"), .bulk (str "v")], false) :=
  ⟨secureCmds_run 3, powerLoss_safe _, rfl⟩

/-- The disk in the middle of NSJUMP under `--sync`: the new index file is created, its header is not yet synced. -/
def midJump : Disk :=
  runOps syncOn exCtx.now (freshDisk .user syncOn twoCmds)
    ((dsOps exCtx (runCmds (fun _ => []) (freshStore .user) twoCmds).1 (runCmds (fun _ => []) (freshStore .user) twoCmds).2.1
      .nsjump [str "NSJUMP"]).take 2)

set_option maxRecDepth 100000 in
/-- C63 is false for a power loss in a change of files: under `--sync`, the power is lost while NSJUMP creates the new
    index file, which is found empty.  The server starts, acknowledges a SET, all writes of which are synced, answers
    its payload, and once stopped it does not start any more. -/
theorem C63_jump_refuted :
    SyncRun none syncOn 7 exCtx.now (traceOf (fun _ => []) (freshStore .user) twoCmds)
      (runCmds (fun _ => []) (freshStore .user) twoCmds).1 (runCmds (fun _ => []) (freshStore .user) twoCmds).2.1
      (freshDisk .user syncOn twoCmds) ∧
    PowerLoss midJump (midJump.i.map fun f => f.safe.getD []) (midJump.d.map fun f => f.safe.getD []) ∧
    (midJump.i.map fun f => (f.safe.getD []).length) = [99, 0] ∧
    afterEmpty midJump = some ([.bulk (str "k"), .bulk (str "v")], false) := by
  refine ⟨syncRun_of_cmds syncOn twoCmds (by decide) ?_ (by decide), powerLoss_safe _, by decide +kernel, rfl⟩
  intro x hx
  simp only [twoCmds, List.mem_cons, List.not_mem_nil, or_false] at hx
  rcases hx with rfl | rfl
  all_goals exact ⟨exCtx_ok, ⟨⟨_, _, rfl, by decide⟩, by decide⟩, rfl, rfl, rfl, rfl, rfl⟩

/-! ### a restart before the loss -/

theorem DiskRun.append {cfg : Option Mode} {cf : SyncConf} {u : Nat} {br br1 br2 : Branches} {s s1 s2 : Store} {D D1 D2 : Disk}
    {tr tr' : List (NsEvent × Reply)} (h : DiskRun cfg cf u br s D tr br1 s1 D1) (h' : DiskRun cfg cf u br1 s1 D1 tr' br2 s2 D2) :
    DiskRun cfg cf u br s D (tr ++ tr') br2 s2 D2 := by
  induction h with
  | nil => exact h'
  | cmd c d argv hu e1 _ ih => exact .cmd c d argv hu e1 (ih h')
  | foreign e1 _ ih => exact .foreign e1 (ih h')
  | reload t e1 _ ih => exact .reload t e1 (ih h')

/-- The commands `l1`, RELOAD 100 seconds after the creation, the commands `l2`: trace, state and disk. -/
def reloadRun (cf : SyncConf) (l1 l2 : List (Ctx × DsCmd × List Bytes)) :
    Option (List (NsEvent × Reply) × Branches × Store × Disk) :=
  match reloadNs none (runCmds (fun _ => []) (freshStore .user) l1).1 7 (runCmds (fun _ => []) (freshStore .user) l1).2.1 with
  | .ok br s =>
    let s1 := (runCmds (fun _ => []) (freshStore .user) l1).2.1
    let D := runOps cf (exCtx.now + 100) { freshDisk .user cf l1 with ilast := 0, dlast := 0 } (loadOps s1.ifiles s1.dfiles)
    some (traceOf (fun _ => []) (freshStore .user) l1 ++ (.reload, .ok) :: traceOf br s l2,
      (runCmds br s l2).1, (runCmds br s l2).2.1, diskCmds cf br s D l2)
  | _ => none

theorem reloadRun_sync {cf : SyncConf} {l1 l2 : List (Ctx × DsCmd × List Bytes)}
    {x : List (NsEvent × Reply) × Branches × Store × Disk} (h : reloadRun cf l1 l2 = some x)
    (hn : ∀ y ∈ l1 ++ l2, ∃ n, y.1 = later n) (ha : ∀ y ∈ l1 ++ l2, ArgsOK y.2.2)
    (hl : l1.length + l2.length + 1 < maxEvents) : SyncRun none cf 7 exCtx.now x.1 x.2.1 x.2.2.1 x.2.2.2 := by
  unfold reloadRun at h
  split at h
  · rename_i br s hr
    cases h
    have hu1 : ∀ y ∈ l1, y.1.u = 7 := by
      intro y hy
      obtain ⟨n, e⟩ := hn y (by simp [hy])
      rw [e]; rfl
    have hu2 : ∀ y ∈ l2, y.1.u = 7 := by
      intro y hy
      obtain ⟨n, e⟩ := hn y (by simp [hy])
      rw [e]; rfl
    have hev : ∀ y ∈ l1 ++ l2, EvOK (.cmd y.1 y.2.1 y.2.2) ∧ NoFault (.cmd y.1 y.2.1 y.2.2) := by
      intro y hy
      obtain ⟨n, e⟩ := hn y hy
      refine ⟨⟨by rw [e]; exact later_ok n, ha y hy⟩, ?_⟩
      rw [e]; exact ⟨rfl, rfl, rfl, rfl, rfl⟩
    refine ⟨Or.inl rfl, ⟨fun _ => [], fun _ => [], freshStore .user, fun _ => rfl, freshNs_eq none _ 7, ?_⟩, ?_, ?_⟩
    · exact (diskCmds_run none cf 7 l1 hu1 _ _ _).append (.reload (exCtx.now + 100) hr (diskCmds_run none cf 7 l2 hu2 _ _ _))
    · intro y hy
      rcases List.mem_append.1 hy with hy | hy
      · obtain ⟨z, hz, e⟩ := mem_traceOf hy
        rw [e]; exact hev z (by simp [hz])
      · rcases List.mem_cons.1 hy with rfl | hy
        · exact ⟨trivial, trivial⟩
        · obtain ⟨z, hz, e⟩ := mem_traceOf hy
          rw [e]; exact hev z (by simp [hz])
    · simp only [List.length_append, List.length_cons, traceOf_length]
      omega
  · cases h

def earlyCmds : List (Ctx × DsCmd × List Bytes) :=
  [(later 1, .set, [str "SET", str "a", str "one"]),
   (later 2, .nsjump, [str "NSJUMP"]),
   (later 10, .set, [str "SET", str "b", str "two"]),
   (later 11, .set, [str "SET", str "b", str "three"])]

def lateCmds : List (Ctx × DsCmd × List Bytes) := [(later 103, .set, [str "SET", str "a", str "four"])]

def reloadLoss : Option (List (NsEvent × Reply) × Branches × Store × Disk) := reloadRun secure5 earlyCmds lateCmds

set_option maxRecDepth 100000 in
/-- C64 is false with a RELOAD (or a kill and a restart) before the loss, even with `--secure`: the time of the last sync is forgotten, the header
    of the first index file is the first write, this file is synced and the time is noted; the current index file, which is
    another one, is not.  The SET acknowledged at second 11 and the one at second 103 are both lost. -/
theorem C64_reload_refuted :
    (∃ x, reloadLoss = some x ∧ SyncRun none secure5 7 exCtx.now x.1 x.2.1 x.2.2.1 x.2.2.2) ∧
    reloadLoss.map (fun x => x.1.map (fun y => (evTime y.1, y.2))) = some
      [(some (exCtx.now + 1), .bulk (str "a")), (some (exCtx.now + 2), .ok), (some (exCtx.now + 10), .bulk (str "b")),
       (some (exCtx.now + 11), .bulk (str "b")), (none, .ok), (some (exCtx.now + 103), .bulk (str "a"))] ∧
    (reloadLoss.bind fun x => readSynced x.2.2.2) = some (2, [.bulk (str "one"), .bulk (str "two")]) := by
  refine ⟨?_, rfl, rfl⟩
  have h : reloadLoss.isSome = true := rfl
  obtain ⟨x, hx⟩ := Option.isSome_iff_exists.1 h
  refine ⟨x, hx, reloadRun_sync hx ?_ ?_ (by decide)⟩
  · intro y hy
    simp only [earlyCmds, lateCmds, List.cons_append, List.nil_append, List.mem_cons, List.not_mem_nil, or_false] at hy
    rcases hy with rfl | rfl | rfl | rfl | rfl
    all_goals exact ⟨_, rfl⟩
  · intro y hy
    simp only [earlyCmds, lateCmds, List.cons_append, List.nil_append, List.mem_cons, List.not_mem_nil, or_false] at hy
    rcases hy with rfl | rfl | rfl | rfl | rfl
    all_goals exact ⟨⟨_, _, rfl, by decide⟩, by decide⟩

end Zdb
