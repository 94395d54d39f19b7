/-
Writes that fail: C42.
-/
import Verif.Lemmas.Fault
import Verif.Props.Crash
namespace Zdb

/-- What the reading commands answer for a key that has the value `w`. -/
theorem HasVal.reads {c : Ctx} {br : Branches} {s : Store} {k : Bytes} {w : Option Bytes}
    (h : HasVal br c.u s.dfiles k w) (hm : s.mode = .user) (name : Bytes) (hn : name ≠ []) (hk : k ≠ [])
    (hl : k.length ≤ 255) (hf : c.conf.lock ≠ .frozen) :
    cmdGet c br s [name, k] = getReply w ∧ cmdExists c br s [name, k] = existsReply w ∧
      cmdLength c br s [name, k] = lengthReply w ∧ cmdCheck c br s [name, k] = checkReply w := by
  have hr : ∀ f : Bytes → Reply, readChecks c [name, k] f = f k := by
    intro f
    have hl' : ¬ 255 < k.length := by omega
    simp [readChecks, argsValidate, hn, hk, hl', NsConf.isFrozen, hf]
  unfold cmdGet cmdExists cmdLength cmdCheck
  rw [hr, hr, hr, hr, getSingle]
  rcases h.get hm with ⟨rfl, hg⟩ | ⟨e, p, rfl, hg, -, hst⟩
  · rw [hg]; exact ⟨rfl, rfl, rfl, rfl⟩
  · rw [hg]
    have h1 := hst.ok.dataGet
    have h2 := hst.ok.dataCheck
    have h3 := hst.ok.len
    simp only [entryRec, itemOf] at h1 h2 h3
    simp only [h1, h2]
    exact ⟨rfl, rfl, by rw [h3]; rfl, rfl⟩

theorem FaultRun.val {cfg : Option Mode} {u : Nat} {tr : List (NsEvent × Reply)} {br : Branches} {s : Store}
    (h : FaultRun cfg u tr br s) {k : Bytes} (hsp : Spared k none tr) :
    s.mode = .user ∧ InStep s ∧ s.indexid ≤ tr.length ∧ HasVal br u s.dfiles k (lastWrite k tr) := by
  obtain ⟨br0, b, t, hb, hf, hm, hr⟩ := h.start
  rw [freshNs_eq] at hf
  injection hf with h1 h2
  subst h1; subst h2
  have hlen := h.len
  unfold maxEvents at hlen
  have := faultRun_val hr h.ev hm ⟨rfl, rfl, rfl⟩ (by simp only [freshStore]; omega) (q := k) (w := none)
    (by
      have : nsBranch br0 u (keyHash k) = [] := hb _
      simp [HasVal, keyEnts, this]) hsp
  simpa [freshStore, lastWrite] using this

/-- C42, user-key mode, as far as it is true.  Any of the writes of any command may fail or be cut after any
    number of bytes.  A key no overwrite or deletion of which was answered with an index write error
    reads the payload of its last acknowledged SET, or nothing if there is none or it was deleted since.
    Missing: the keys left out (`C42_overwrite_refuted`, `C42_delete_refuted`,
    `C42_stuck_refuted`), restarts (`C42_restart_refuted`) and sequential mode (`C42_seq_refuted`). -/
theorem C42_partial {cfg : Option Mode} {u : Nat} {tr : List (NsEvent × Reply)} {br : Branches} {s : Store}
    (h : FaultRun cfg u tr br s) (k : Bytes) (hsp : Spared k none tr) (c : Ctx) (hu : c.u = u) (name : Bytes)
    (hn : name ≠ []) (hk : k ≠ []) (hl : k.length ≤ 255) (hf : c.conf.lock ≠ .frozen) :
    cmdGet c br s [name, k] = getReply (lastWrite k tr) ∧
    cmdExists c br s [name, k] = existsReply (lastWrite k tr) ∧
    cmdLength c br s [name, k] = lengthReply (lastWrite k tr) ∧
    cmdCheck c br s [name, k] = checkReply (lastWrite k tr) := by
  subst hu
  obtain ⟨h1, -, -, h2⟩ := h.val hsp
  exact h2.reads h1 name hn hk hl hf

/-- A command answered with an error leaves every key as it was, but for a key whose overwrite or deletion
    it was, when the error is one of the two index write errors. -/
theorem C42_error_partial {cfg : Option Mode} {u : Nat} {tr : List (NsEvent × Reply)} {br br' : Branches}
    {s s' : Store} (h : FaultRun cfg u tr br s) (hlen : tr.length < maxEvents) (c : Ctx) (hu : c.u = u)
    (d : DsCmd) (argv : List Bytes) (m : String) (hok : FaultOK (.cmd c d argv))
    (hd : dsCommand c br s d argv = (br', s', .err m)) (k : Bytes) (hsp : Spared k none tr)
    (hdm : damages k (lastWrite k tr) (.cmd c d argv, .err m) = false)
    (c' : Ctx) (hu' : c'.u = u) (name : Bytes) (hn : name ≠ []) (hk : k ≠ []) (hl : k.length ≤ 255)
    (hf : c'.conf.lock ≠ .frozen) :
    cmdGet c' br' s' [name, k] = cmdGet c' br s [name, k] ∧
    cmdExists c' br' s' [name, k] = cmdExists c' br s [name, k] ∧
    cmdLength c' br' s' [name, k] = cmdLength c' br s [name, k] ∧
    cmdCheck c' br' s' [name, k] = cmdCheck c' br s [name, k] := by
  subst hu
  obtain ⟨h1, h2, h3, h4⟩ := h.val hsp
  unfold maxEvents at hlen
  have e2 := dsCommand_val h1 h2 (by omega) hok.1 d hok.2 h4 (by rw [hd]; exact hdm)
  have e3 := (dsCommand_calm c br s d argv).1.1
  rw [hd] at e2 e3
  have hw : writeOf k (.cmd c d argv, .err m) = none := by
    unfold writeOf; split <;> simp_all
  rw [hw, Option.getD_none] at e2
  obtain ⟨a1, a2, a3, a4⟩ := HasVal.reads (c := c') (by rw [hu']; exact e2) (e3.trans h1) name hn hk hl hf
  obtain ⟨b1, b2, b3, b4⟩ := HasVal.reads (c := c') (by rw [hu']; exact h4) h1 name hn hk hl hf
  exact ⟨a1.trans b1.symm, a2.trans b2.symm, a3.trans b3.symm, a4.trans b4.symm⟩

/-! ### witnesses -/

/-- Appending an index item fails after `n` bytes. -/
def appFails (n : Nat) : Ctx := { exCtx with io := { iapp := some n } }
/-- Rewriting the flag of an index item fails after `n` bytes. -/
def flagFails (n : Nat) : Ctx := { exCtx with io := { iflag := some n } }
/-- Writing a payload fails after `n` bytes. -/
def payFails (n : Nat) : Ctx := { exCtx with io := { dpay := some n } }
/-- Overwriting a sequential item fails after `n` bytes. -/
def overFails (n : Nat) : Ctx := { exCtx with io := { iover := some n } }

/-- Replies to some commands in a new namespace. -/
def freshReplies (m : Mode) (l : List (Ctx × DsCmd × List Bytes)) : List Reply :=
  (runCmds (fun _ => []) (freshStore m) l).2.2

set_option maxRecDepth 100000 in
/-- C42 is false for a failed overwrite: the SET answers an error and the previous payload is gone. -/
theorem C42_overwrite_refuted : freshReplies .user
    [(exCtx, .set, [str "SET", str "a", str "one"]),
     (appFails 0, .set, [str "SET", str "a", str "two"]),
     (exCtx, .get, [str "GET", str "a"])] =
    [.bulk (str "a"), .err "Cannot write index right now", .nil] := rfl

set_option maxRecDepth 100000 in
/-- C42 is false for a failed deletion: the DEL answers an error and the key is gone. -/
theorem C42_delete_refuted : freshReplies .user
    [(exCtx, .set, [str "SET", str "a", str "one"]),
     (flagFails 0, .del, [str "DEL", str "a"]),
     (exCtx, .get, [str "GET", str "a"])] =
    [.bulk (str "a"), .err "Cannot delete key (index)", .nil] := rfl

set_option maxRecDepth 100000 in
/-- After such a failure the key cannot be stored again before a restart: every later SET is acknowledged and
    GET still answers nothing. -/
theorem C42_stuck_refuted : freshReplies .user
    [(exCtx, .set, [str "SET", str "a", str "one"]),
     (appFails 0, .set, [str "SET", str "a", str "two"]),
     (exCtx, .set, [str "SET", str "a", str "three"]),
     (exCtx, .get, [str "GET", str "a"]),
     (exCtx, .set, [str "SET", str "a", str "four"]),
     (exCtx, .get, [str "GET", str "a"])] =
    [.bulk (str "a"), .err "Cannot write index right now", .bulk (str "a"), .nil, .bulk (str "a"), .nil] := rfl

/-- What a restart finds after some commands in a new namespace. -/
def freshRestart (m : Mode) (l : List (Ctx × DsCmd × List Bytes)) : LoadRes :=
  let x := runCmds (fun _ => []) (freshStore m) l
  reloadNs none x.1 7 x.2.1

set_option maxRecDepth 100000 in
/-- C42 is false across a restart: after an index item was written in part (the SET answered an error) the
    index file of an untouched key cannot be loaded any more. -/
theorem C42_restart_refuted :
    freshReplies .user
      [(exCtx, .set, [str "SET", str "a", str "one"]),
       (appFails 5, .set, [str "SET", str "b", str "two"]),
       (exCtx, .get, [str "GET", str "a"])] =
      [.bulk (str "a"), .err "Cannot write index right now", .bulk (str "one")] ∧
    (freshRestart .user
      [(exCtx, .set, [str "SET", str "a", str "one"]),
       (appFails 5, .set, [str "SET", str "b", str "two"])]).kind = 2 := ⟨rfl, rfl⟩

set_option maxRecDepth 100000 in
/-- Sequential mode: a deletion whose rewrite of the item fails late answers an error and the key is gone; a
    failed SET that left part of an item behind shifts the items of later ids, which are
    acknowledged and unreadable; an overwrite whose item is not written is acknowledged and the old
    payload stays. -/
theorem C42_seq_refuted :
    freshReplies .seq
      [(exCtx, .set, [str "SET", [], str "one"]),
       (flagFails 14, .del, [str "DEL", toLE 8 0]),
       (exCtx, .get, [str "GET", toLE 8 0])] =
      [.bulk (toLE 8 0), .err "Cannot delete key (index)", .nil] ∧
    freshReplies .seq
      [(exCtx, .set, [str "SET", [], str "one"]),
       (appFails 5, .set, [str "SET", [], str "two"]),
       (exCtx, .set, [str "SET", [], str "three"]),
       (exCtx, .get, [str "GET", toLE 8 1])] =
      [.bulk (toLE 8 0), .err "Cannot write index right now", .bulk (toLE 8 1), .err "Internal Error"] ∧
    freshReplies .seq
      [(exCtx, .set, [str "SET", [], str "one"]),
       (overFails 0, .set, [str "SET", toLE 8 0, str "two"]),
       (exCtx, .get, [str "GET", toLE 8 0])] =
      [.bulk (toLE 8 0), .bulk (toLE 8 0), .bulk (str "one")] := ⟨rfl, rfl, rfl⟩

/-- A namespace with a quota of 100 bytes. -/
def quotaCtx (io : Io) : Ctx := { exCtx with io := io, conf := { exCtx.conf with maxsize := 100 } }

set_option maxRecDepth 100000 in
/-- Sequential mode with a quota: two overwrites whose item is not written take the size of the old payload from the
    total twice, which goes below zero; from then on a namespace of 7 bytes refuses one byte more, for lack of space. -/
theorem C42_quota_refuted : freshReplies .seq
    [(quotaCtx {}, .set, [str "SET", [], str "payload"]),
     (quotaCtx { iover := some 0 }, .set, [str "SET", toLE 8 0, str "x"]),
     (quotaCtx { iover := some 0 }, .set, [str "SET", toLE 8 0, str "x"]),
     (quotaCtx {}, .get, [str "GET", toLE 8 0]),
     (quotaCtx {}, .set, [str "SET", [], str "y"])] =
    [.bulk (toLE 8 0), .bulk (toLE 8 0), .bulk (toLE 8 0), .bulk (str "payload"),
     .err "No space left on this namespace"] := rfl

/-- A run with failing writes of three kinds. -/
def exFault : List (Ctx × DsCmd × List Bytes) :=
  [(exCtx, .set, [str "SET", str "a", str "one"]),
   (payFails 2, .set, [str "SET", str "a", str "two"]),
   (appFails 7, .set, [str "SET", str "b", str "new"]),
   (flagFails 3, .set, [str "SET", str "a", str "three"]),
   (exCtx, .set, [str "SET", str "c", str "see"]),
   (flagFails 0, .del, [str "DEL", str "c"])]

theorem exFault_ok : ∀ x ∈ exFault, FaultOK (.cmd x.1 x.2.1 x.2.2) ∧ x.1.u = 7 := by
  have key : ∀ x : Ctx × DsCmd × List Bytes, x.1.u = 7 → x.1.limit ≤ 2 ^ 31 →
      (match x.2.2 with | [] => False | n :: _ => n ≠ []) → (∀ b ∈ x.2.2, b.length ≤ 2 ^ 23) →
      FaultOK (.cmd x.1 x.2.1 x.2.2) ∧ x.1.u = 7 := by
    rintro ⟨c, d, argv⟩ h1 h2 h3 h4
    refine ⟨⟨h2, ?_, h4⟩, h1⟩
    cases argv with
    | nil => exact h3.elim
    | cons n rest => exact ⟨n, rest, rfl, h3⟩
  intro x hx
  simp only [exFault, List.mem_cons, List.not_mem_nil, or_false] at hx
  rcases hx with rfl | rfl | rfl | rfl | rfl | rfl <;>
    exact key _ rfl (by decide) (by decide) (by decide)

theorem traceOf_mem {br : Branches} {s : Store} {l : List (Ctx × DsCmd × List Bytes)} {x : NsEvent × Reply}
    (h : x ∈ traceOf br s l) : ∃ y ∈ l, x.1 = .cmd y.1 y.2.1 y.2.2 := by
  induction l generalizing br s with
  | nil => cases h
  | cons a l ih =>
    obtain ⟨c, d, argv⟩ := a
    rcases List.mem_cons.1 h with rfl | h
    · exact ⟨_, List.mem_cons_self .., rfl⟩
    · obtain ⟨y, hy, hxy⟩ := ih h
      exact ⟨y, List.mem_cons_of_mem _ hy, hxy⟩

theorem exFault_run : FaultRun none 7 (traceOf (fun _ => []) (freshStore .user) exFault)
    (runCmds (fun _ => []) (freshStore .user) exFault).1
    (runCmds (fun _ => []) (freshStore .user) exFault).2.1 := by
  refine ⟨⟨fun _ => [], fun _ => [], freshStore .user, fun _ => rfl, freshNs_eq none _ 7, rfl,
    runCmds_run none 7 exFault (fun x hx => (exFault_ok x hx).2) _ _⟩, ?_, ?_⟩
  · intro x hx
    obtain ⟨y, hy, hxy⟩ := traceOf_mem hx
    rw [hxy]
    exact (exFault_ok y hy).1
  · rw [traceOf_length]; decide

set_option maxRecDepth 100000 in
/-- Its replies; keys `a` and `b` meet the hypotheses of `C42_partial`, and `a` reads its last acknowledged
    payload, `b` nothing. -/
example : freshReplies .user exFault =
    [.bulk (str "a"), .err "Cannot write data right now", .err "Cannot write index right now",
     .bulk (str "a"), .bulk (str "c"), .err "Cannot delete key (index)"] := rfl

set_option maxRecDepth 100000 in
example : Spared (str "a") none (traceOf (fun _ => []) (freshStore .user) exFault) :=
  ⟨rfl, rfl, rfl, rfl, rfl, rfl, trivial⟩

set_option maxRecDepth 100000 in
example : Spared (str "b") none (traceOf (fun _ => []) (freshStore .user) exFault) :=
  ⟨rfl, rfl, rfl, rfl, rfl, rfl, trivial⟩

set_option maxRecDepth 100000 in
example : cmdGet exCtx (runCmds (fun _ => []) (freshStore .user) exFault).1
    (runCmds (fun _ => []) (freshStore .user) exFault).2.1 [str "GET", str "a"] = .bulk (str "three") := rfl

end Zdb
