/-
Power losses under `--synctime` some time after a restart (C64).
-/
import Verif.Lemmas.SyncRestart
import Verif.Props.SyncSecure
namespace Zdb

/-- C64 after a restart, in user-key mode, as far as the namespace has not left the first files.  Under `--synctime T`
    any execution, with restarts and deletions in it, is followed by a RELOAD (or a kill and a restart) at time `t'`, by
    an execution without deletion, and by a power loss that leaves only what was synced.  Nothing from before the RELOAD is
    lost; the execution after it is cut in two: each key has the value of its last SET or DEL before the cut, and the SETs
    acknowledged after the cut are all within `T` seconds of the time `L`.
    Missing: pending writes of which a part reached the disk (`C64_torn_refuted`), deletions after the last restart
    (`C64_del_refuted`), several files (false even with `--secure`: `C64_reload_refuted`), sequential mode. -/
theorem C64_restart_partial {cfg : Option Mode} {cf : SyncConf} (hcf : cf.sync = false) (hT : 0 < cf.synctime)
    {u t : Nat} {tr0 : List (NsEvent × Reply)} {br : Branches} {s : Store} {D : Disk} (h : SyncRun cfg cf u t tr0 br s D)
    {t' : Nat} (ht : cf.synctime < t') {br1 br2 : Branches} {s1 s2 : Store} {D2 : Disk}
    (hre : reloadNs cfg br u s = .ok br1 s1) {tr : List (NsEvent × Reply)}
    (hr : DiskRun cfg cf u br1 s1 (runOps cf t' { D with ilast := 0, dlast := 0 } (loadOps s.ifiles s.dfiles)) tr br2 s2 D2)
    (hev : ∀ x ∈ tr, (EvOK x.1 ∧ NoFault x.1) ∧ NoDel x.1) (hlen : tr0.length + tr.length < maxEvents)
    (h1 : s2.ifiles.length = 1) (hclock : Clock tr) (hlater : ∀ x ∈ tr, ∀ a, evTime x.1 = some a → t' ≤ a)
    {br0 : Branches} {v : Nat} (hbr : ∀ h, (br0 h).filter (fun e => e.ns == v) = []) :
    ∃ L tr1 tr2, tr = tr1 ++ tr2 ∧
      (∀ x ∈ tr2, Acked x → ∃ a, evTime x.1 = some a ∧ L ≤ a ∧ a ≤ L + cf.synctime) ∧
      ∃ br3 s3, loadNs cfg br0 v (D2.i.map fun f => f.safe.getD []) (D2.d.map fun f => f.safe.getD []) = .ok br3 s3 ∧
        ∀ (c : Ctx) (name k : Bytes), c.u = v → name ≠ [] → k ≠ [] → k.length ≤ 255 → c.conf.lock ≠ .frozen →
          cmdGet c br3 s3 [name, k] = getReply (lastWrite k (tr0 ++ (.reload, .ok) :: tr1)) := by
  obtain ⟨L, tr1, tr2, e, hS⟩ := h.restart_snap hcf hT ht hre hr hev hlen h1 hclock hlater
  obtain ⟨b, t, G, g1, g2, g3, g4⟩ := hS.state
  have hG := g1.irep.length
  obtain ⟨br3, s3, j1, j2, -⟩ := g1.load' (br0 := br0) (u := v) cfg h.hcfg (by omega) hbr
  have hfiles : ∀ (l : List DFile) (m : List Bytes), l.map DFile.safe = m.map some →
      l.map (fun f => f.safe.getD []) = m := by
    intro l m hlm
    have : l.map (fun f => f.safe.getD []) = (l.map DFile.safe).map (fun o => o.getD []) := by simp
    rw [this, hlm, List.map_map]
    exact List.map_id m
  refine ⟨L, tr1, tr2, e, hS.recent, br3, s3, ?_, ?_⟩
  · rw [hfiles _ _ (congrArg Prod.fst g3), hfiles _ _ (congrArg Prod.snd g3)]
    exact j1
  · intro c name k hu hn hk hl hf
    subst hu
    rw [cmdGet_spec j2 name k hn, specRead, if_neg hk, if_neg (by omega), if_neg hf, absKV_get, ← g4 k]
    cases liveGet G k <;> rfl

/-! ### a concrete case -/

/-- Two keys stored, one of them deleted, the other stored again, all within five seconds. -/
def preCmds : List (Ctx × DsCmd × List Bytes) :=
  [(later 1, .set, [str "SET", str "a", str "one"]),
   (later 2, .set, [str "SET", str "b", str "two"]),
   (later 3, .del, [str "DEL", str "a"]),
   (later 4, .set, [str "SET", str "b", str "three"])]

/-- After the restart at second 100: a SET at once, another one after the delay, a third at once. -/
def postCmds : List (Ctx × DsCmd × List Bytes) :=
  [(later 101, .set, [str "SET", str "a", str "four"]),
   (later 110, .set, [str "SET", str "c", str "five"]),
   (later 111, .set, [str "SET", str "b", str "six"])]

/-- The state and the disk after the commands and the restart. -/
def preState : LoadRes :=
  reloadNs none (runCmds (fun _ => []) (freshStore .user) preCmds).1 7 (runCmds (fun _ => []) (freshStore .user) preCmds).2.1

def preDisk : Disk :=
  runOps sync5 (exCtx.now + 100) { freshDisk .user sync5 preCmds with ilast := 0, dlast := 0 }
    (loadOps (runCmds (fun _ => []) (freshStore .user) preCmds).2.1.ifiles
      (runCmds (fun _ => []) (freshStore .user) preCmds).2.1.dfiles)

/-- The number of files at the end of the first `n` of the later commands, and the replies to GET of `a`, `b` and `c` from
    what was synced. -/
def postReads (n : Nat) : Option (Nat × List Reply) :=
  match preState with
  | .ok br s =>
    let D := diskCmds sync5 br s preDisk (postCmds.take n)
    match loadNs none (fun _ => []) 7 (D.i.map fun f => f.safe.getD []) (D.d.map fun f => f.safe.getD []) with
    | .ok br' s' => some ((runCmds br s (postCmds.take n)).2.1.ifiles.length,
        [cmdGet exCtx br' s' [str "GET", str "a"], cmdGet exCtx br' s' [str "GET", str "b"],
          cmdGet exCtx br' s' [str "GET", str "c"]])
    | _ => none
  | _ => none

set_option maxRecDepth 100000 in
/-- A case meeting the hypotheses of `C64_restart_partial`.  The deletion and the SETs from before the restart, none of which
    was synced then, are kept; the SET at second 101 is lost if the power fails soon, and kept after the one at second
    110; the last one is lost. -/
theorem C64_restart_example :
    SyncRun none sync5 7 exCtx.now (traceOf (fun _ => []) (freshStore .user) preCmds)
      (runCmds (fun _ => []) (freshStore .user) preCmds).1 (runCmds (fun _ => []) (freshStore .user) preCmds).2.1
      (freshDisk .user sync5 preCmds) ∧
    (∃ br s, preState = .ok br s ∧
      DiskRun none sync5 7 br s preDisk (traceOf br s postCmds) (runCmds br s postCmds).1 (runCmds br s postCmds).2.1
        (diskCmds sync5 br s preDisk postCmds) ∧
      (∀ x ∈ traceOf br s postCmds, (EvOK x.1 ∧ NoFault x.1) ∧ NoDel x.1) ∧ Clock (traceOf br s postCmds) ∧
      (∀ x ∈ traceOf br s postCmds, ∀ a, evTime x.1 = some a → exCtx.now + 100 ≤ a)) ∧
    ((freshDisk .user sync5 preCmds).i.map fun f => (f.safe.getD []).length) = [29] ∧
    postReads 1 = some (1, [.nil, .bulk (str "three"), .nil]) ∧
    postReads 2 = some (1, [.bulk (str "four"), .bulk (str "three"), .bulk (str "five")]) ∧
    postReads 3 = some (1, [.bulk (str "four"), .bulk (str "three"), .bulk (str "five")]) := by
  refine ⟨sync5_run preCmds ?_ ?_ (by decide), ?_, rfl, rfl, rfl, rfl⟩
  · intro y hy
    simp only [preCmds, List.mem_cons, List.not_mem_nil, or_false] at hy
    rcases hy with rfl | rfl | rfl | rfl
    all_goals exact ⟨_, rfl⟩
  · intro y hy
    simp only [preCmds, List.mem_cons, List.not_mem_nil, or_false] at hy
    rcases hy with rfl | rfl | rfl | rfl
    all_goals exact ⟨⟨_, _, rfl, by decide⟩, by decide⟩
  · have hk : ∃ br s, preState = .ok br s := ⟨_, _, rfl⟩
    obtain ⟨br, s, hk⟩ := hk
    refine ⟨br, s, hk, diskCmds_run none sync5 7 postCmds ?_ _ _ _, ?_, ?_, ?_⟩
    · intro y hy
      simp only [postCmds, List.mem_cons, List.not_mem_nil, or_false] at hy
      rcases hy with rfl | rfl | rfl
      all_goals rfl
    · intro x hx
      obtain ⟨z, hz, e⟩ := mem_traceOf hx
      rw [e]
      simp only [postCmds, List.mem_cons, List.not_mem_nil, or_false] at hz
      rcases hz with rfl | rfl | rfl
      all_goals
        refine ⟨⟨⟨later_ok _, ⟨⟨_, _, rfl, by decide⟩, by decide⟩⟩, rfl, rfl, rfl, rfl, rfl⟩, ?_⟩
        show DsCmd.set ≠ DsCmd.del
        decide
    · simp [Clock, traceOf, postCmds, evTime, later]
    · simp [traceOf, postCmds, evTime, later]

end Zdb
