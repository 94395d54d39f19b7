/-
Power losses in the middle of a command under `--sync` (C63).
-/
import Verif.Lemmas.SyncMid
import Verif.Props.Sync
import Verif.Lemmas.ReplyEq
namespace Zdb

/-- C63 for a power loss in the middle of a command, user-key mode, as far as it is true.  Under `--sync`, after any
    execution, a command makes the first system calls `pre` of its list and the power is lost, whatever part of the writes not
    followed by an `fsync` reached the disk.  The files are loaded without error.  A key that is not the one of the command has what
    `C63_partial` says; the one of the command has what it had before or what it has once the command is done, or, if the command is a
    SET, nothing.  From there every execution goes on from that value.
    Missing: a loss between the `write` of an index item and its `fsync` (`C63_torn_refuted`), a command that starts new files, the key
    of an interrupted SET, which may lose the payload it had (`C63_lost_refuted`), sequential mode. -/
theorem C63_mid_partial {cfg : Option Mode} {cf : SyncConf} (hcf : cf.sync = true) {u t : Nat}
    {tr : List (NsEvent × Reply)} {br : Branches} {s : Store} {D : Disk} (h : SyncRun cfg cf u t tr br s D)
    (c : Ctx) (d : DsCmd) (argv : List Bytes) (hu : c.u = u) (hev : EvOK (.cmd c d argv)) (hnf : NoFault (.cmd c d argv))
    (hlen : tr.length + 1 < maxEvents) (hnc : NoCreate (dsOps c br s d argv)) {pre : List Op}
    (hpre : pre <+: dsOps c br s d argv) (ht : NotTorn pre)
    {fi fd : List Bytes} (hp : PowerLoss (runOps cf c.now D pre) fi fd) {br0 : Branches} {v : Nat}
    (hbr : ∀ h, (br0 h).filter (fun e => e.ns == v) = []) :
    ∃ br1 s1, loadNs cfg br0 v fi fd = .ok br1 s1 ∧ ∀ k, ∃ w,
      (argv[1]? ≠ some k → MayKeep k tr w) ∧
      (MayKeep k tr w ∨ MayKeep k (tr ++ [(.cmd c d argv, (dsCommand c br s d argv).2.2)]) w ∨ (d = .set ∧ w = none)) ∧
      ∀ tr' br' s', NsRun cfg v br1 s1 tr' br' s' → (∀ x ∈ tr', FaultOK x.1) →
        tr.length + 1 + tr'.length < maxEvents → Spared k w tr' →
        ∀ (c : Ctx) (name : Bytes), c.u = v → name ≠ [] → k ≠ [] → k.length ≤ 255 → c.conf.lock ≠ .frozen →
          cmdGet c br' s' [name, k] = getReply (tr'.foldl (fun a x => (writeOf k x).getD a) w) ∧
          cmdExists c br' s' [name, k] = existsReply (tr'.foldl (fun a x => (writeOf k x).getD a) w) ∧
          cmdLength c br' s' [name, k] = lengthReply (tr'.foldl (fun a x => (writeOf k x).getD a) w) ∧
          cmdCheck c br' s' [name, k] = checkReply (tr'.foldl (fun a x => (writeOf k x).getD a) w) := by
  obtain ⟨br1, s1, h1, h2, h3, h4, h5⟩ := h.loaded_mid hcf c d argv hu hev hnf hlen hnc hpre ht hp hbr
  refine ⟨br1, s1, h1, fun k => ?_⟩
  obtain ⟨w, hw, hv⟩ := h5 k
  refine ⟨w, fun hk => ?_, ?_, ?_⟩
  · rcases hw with hw | hw | ⟨-, hw, -⟩
    · exact hw
    · have e := writeOf_other c d argv (dsCommand c br s d argv).2.2 hk
      simpa only [MayKeep, lastWrite, lastSet, List.foldl_append, List.foldl_cons, List.foldl_nil, e, Option.getD_none] using hw
    · exact absurd hw hk
  · rcases hw with hw | hw | ⟨hd, -, hw⟩
    · exact Or.inl hw
    · exact Or.inr (Or.inl hw)
    · exact Or.inr (Or.inr ⟨hd, hw⟩)
  intro tr' br' s' hr hev hlen hsp c name hu hn hk hl hf
  subst hu
  unfold maxEvents at hlen
  obtain ⟨j1, -, -, j2⟩ := faultRun_val hr hev h2 h3 (by omega) hv hsp
  exact j2.reads j1 name hn hk hl hf

/-! ### witnesses -/

/-- The branches and the store after `twoCmds`, and the system calls of a command that comes then. -/
def twoOps (d : DsCmd) (argv : List Bytes) : List Op :=
  dsOps exCtx (runCmds (fun _ => []) (freshStore .user) twoCmds).1 (runCmds (fun _ => []) (freshStore .user) twoCmds).2.1 d argv

/-- The disk after the first `n` of these system calls. -/
def twoMid (d : DsCmd) (argv : List Bytes) (n : Nat) : Disk :=
  runOps syncOn exCtx.now (freshDisk .user syncOn twoCmds) ((twoOps d argv).take n)

theorem twoCmds_sync : SyncRun none syncOn 7 exCtx.now (traceOf (fun _ => []) (freshStore .user) twoCmds)
    (runCmds (fun _ => []) (freshStore .user) twoCmds).1 (runCmds (fun _ => []) (freshStore .user) twoCmds).2.1
    (freshDisk .user syncOn twoCmds) := C63_torn_refuted.1

/-- The replies to some commands after a power loss that kept the first `n` bytes of the first pending write of each index file. -/
def afterTorn (n : Nat) (D : Disk) (l : List (Ctx × DsCmd × List Bytes)) : Option (List Reply) :=
  match loadNs none (fun _ => []) 7 (D.i.map (DFile.torn n)) (D.d.map fun f => f.safe.getD []) with
  | .ok br s => some (runCmds br s l).2.2
  | _ => none

/-- System calls without their contents: 1 for an `append`, 2 for a `write` in the middle, 3 for the place of an `fsync`. -/
def opNames (l : List Op) : List (Nat × Kind) := l.map fun
  | .create k _ => (0, k)
  | .append k _ _ => (1, k)
  | .write k _ _ _ => (2, k)
  | .check k _ => (3, k)
  | .secure k _ => (4, k)

set_option maxRecDepth 100000 in
/-- The hypotheses of `C63_mid_partial` are met in the middle of a SET of the existing key `b`: the power is lost when the record is in
    the data file, before its `fsync`.  The value of `b` is the one it had.  The whole SET would be: two writes to the data file, `fsync`,
    the deleted flag, the index item, `fsync`. -/
theorem C63_mid_example :
    NoCreate (twoOps .set [str "SET", str "b", str "three"]) ∧
    (twoOps .set [str "SET", str "b", str "three"]).take 2 <+: twoOps .set [str "SET", str "b", str "three"] ∧
    NotTorn ((twoOps .set [str "SET", str "b", str "three"]).take 2) ∧
    opNames (twoOps .set [str "SET", str "b", str "three"]) =
      [(1, .data), (1, .data), (3, .data), (2, .index), (1, .index), (3, .index)] ∧
    (twoMid .set [str "SET", str "b", str "three"] 2).d.map (fun f => f.pend.length) = [2] ∧
    afterTorn 40 (twoMid .set [str "SET", str "b", str "three"] 2)
      [(exCtx, .get, [str "GET", str "a"]), (exCtx, .get, [str "GET", str "b"])] = some [.bulk (str "one"), .bulk (str "two")] := by
  refine ⟨?_, List.take_prefix _ _, ?_, by decide +kernel, by decide +kernel, by decide +kernel⟩
  · intro k b hb
    have : (0, k) ∈ opNames (twoOps .set [str "SET", str "b", str "three"]) := List.mem_map.2 ⟨_, hb, rfl⟩
    have h2 : ∀ x ∈ opNames (twoOps .set [str "SET", str "b", str "three"]), x.1 ≠ 0 := by decide +kernel
    exact h2 _ this rfl
  · intro n b hb
    have : (opNames ((twoOps .set [str "SET", str "b", str "three"]).take 2)).getLast? = some (1, .data) := by decide +kernel
    rw [opNames, List.getLast?_map, hb] at this
    cases this

set_option maxRecDepth 100000 in
/-- A power loss in the middle of a SET may lose the payload the key had: `b` was stored and acknowledged under `--sync`.  Another
    payload is being stored; the power is lost when its record is synced and the deleted flag is written over the old index item, before
    the new item.  If the flag reached the disk, `b` has neither payload. -/
theorem C63_lost_refuted :
    SyncRun none syncOn 7 exCtx.now (traceOf (fun _ => []) (freshStore .user) twoCmds)
      (runCmds (fun _ => []) (freshStore .user) twoCmds).1 (runCmds (fun _ => []) (freshStore .user) twoCmds).2.1
      (freshDisk .user syncOn twoCmds) ∧
    lastWrite (str "b") (traceOf (fun _ => []) (freshStore .user) twoCmds) = some (str "two") ∧
    PowerLoss (twoMid .set [str "SET", str "b", str "three"] 4)
      ((twoMid .set [str "SET", str "b", str "three"] 4).i.map (DFile.torn 14))
      ((twoMid .set [str "SET", str "b", str "three"] 4).d.map fun f => f.safe.getD []) ∧
    afterTorn 14 (twoMid .set [str "SET", str "b", str "three"] 4)
      [(exCtx, .get, [str "GET", str "a"]), (exCtx, .get, [str "GET", str "b"])] = some [.bulk (str "one"), .nil] := by
  refine ⟨twoCmds_sync, by decide +kernel, ⟨by simp, by simp, ?_, ?_⟩, by decide +kernel⟩
  · intro n f h
    rw [List.getElem?_map, h]
    exact .kept (torn_partly _ _)
  · intro n f h
    rw [List.getElem?_map, h]
    exact .kept (partly_none _ _)

end Zdb
