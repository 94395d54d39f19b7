/-
C81: a server that goes to the background keeps its files and its locks; its log.
-/
import Verif.Model.Daemon
namespace Zdb.Daemon

/-! ### specification -/

/-- The three standard descriptors are open. -/
def Standard (T : Table) : Prop := ∀ n, n < 3 → T n = some (.std n)

/-- A file is open. -/
def Open (T : Table) (o : Obj) : Prop := ∃ n, T n = some o

/-- What was to be written to the log. -/
def Msg.bytes : Msg → List Nat
  | .out b => b
  | .err b => b

/-- What went to standard output. -/
def outBytes (ms : List Msg) : List Nat := ms.flatMap fun m => match m with | .out b => b | .err _ => []
/-- What went to standard error. -/
def errBytes (ms : List Msg) : List Nat := ms.flatMap fun m => match m with | .out _ => [] | .err b => b

/-! ### descriptors -/

theorem set_self (T : Table) (n : Nat) (o : Obj) : T.set n o n = some o := by simp [Table.set]
theorem set_ne (T : Table) {n m : Nat} (o : Obj) (h : m ≠ n) : T.set n o m = T m := by simp [Table.set, h]

theorem toNull_some {K : Kernel} {i fd : Nat} {T T' : Table} (h : toNull K i fd T = some T') :
    ∃ n, T n = none ∧ T' = (T.set n .null).set fd .null := by
  unfold toNull at h
  cases e : K.pick i T with
  | none => simp [e] at h
  | some n =>
    simp only [e] at h
    by_cases hd : K.dup i = true
    · simp only [hd, if_true, Option.some.injEq] at h
      exact ⟨n, K.free i T n e, h.symm⟩
    · simp [hd] at h

theorem toLog_some {K : Kernel} {i fd : Nat} {T T' : Table} (h : toLog K i fd T = some T') : T' = T.set fd (.log fd) := by
  unfold toLog at h
  by_cases hd : K.reopen i = true
  · simp only [hd, if_true, Option.some.injEq] at h
    exact h.symm
  · simp [hd] at h

/-- **C81**, the descriptors. If the process was started with its three standard descriptors, the server that goes on in
    the background has standard input on `/dev/null`, output and error on the log (or on `/dev/null`), and every other
    descriptor is as before, but for one more on `/dev/null` (three without log), which no variable holds. Missing: that
    there are no such ones (`C81_left_refuted`), a process started without the three (`C81_lock_refuted`). -/
theorem C81_partial (K : Kernel) (log : Bool) (T T' : Table) (hs : Standard T) (h : daemonize K log T = .child T') :
    T' 0 = some .null ∧ T' 1 = some (if log then .log 1 else .null) ∧ T' 2 = some (if log then .log 2 else .null) ∧
    ∃ left : List Nat, left.length = (if log then 1 else 3) ∧ left.Nodup ∧ (∀ n ∈ left, 3 ≤ n ∧ T n = none) ∧
      ∀ n, 3 ≤ n → T' n = if n ∈ left then some .null else T n := by
  have h0 := hs 0 (by omega)
  have h1 := hs 1 (by omega)
  have h2 := hs 2 (by omega)
  have big : ∀ n, T n = none → 3 ≤ n := by
    intro n hn
    have : n ≠ 0 := by rintro rfl; simp [h0] at hn
    have : n ≠ 1 := by rintro rfl; simp [h1] at hn
    have : n ≠ 2 := by rintro rfl; simp [h2] at hn
    omega
  unfold daemonize at h
  cases hf : K.fork with
  | none => simp [hf] at h
  | some c =>
    cases c with
    | false => simp [hf] at h
    | true =>
      simp only [hf] at h
      cases ha : toNull K 0 0 T with
      | none => simp [ha] at h
      | some Ta =>
        obtain ⟨a, hTa, rfl⟩ := toNull_some ha
        simp only [ha] at h
        have ga := big a hTa
        cases log with
        | true =>
          simp only [if_true] at h
          cases hb : toLog K 0 1 ((T.set a .null).set 0 .null) with
          | none => simp [hb] at h
          | some Tb =>
            have eb := toLog_some hb
            subst eb
            simp only [hb] at h
            cases hc : toLog K 1 2 (((T.set a .null).set 0 .null).set 1 (.log 1)) with
            | none => simp [hc] at h
            | some Tc =>
              have ec := toLog_some hc
              subst ec
              simp only [hc, Fate.child.injEq] at h
              subst h
              refine ⟨by simp [Table.set], by simp [Table.set], by simp [Table.set], [a], rfl, by simp, ?_, ?_⟩
              · intro n hn
                rw [List.mem_singleton] at hn
                subst hn
                exact ⟨ga, hTa⟩
              · intro n hn
                rw [set_ne _ _ (by omega), set_ne _ _ (by omega), set_ne _ _ (by omega)]
                simp only [List.mem_singleton, Table.set]
        | false =>
          simp only [Bool.false_eq_true, if_false] at h
          cases hb : toNull K 1 1 ((T.set a .null).set 0 .null) with
          | none => simp [hb] at h
          | some Tb =>
            obtain ⟨b, hTb, rfl⟩ := toNull_some hb
            simp only [hb] at h
            cases hc : toNull K 2 2 ((((T.set a .null).set 0 .null).set b .null).set 1 .null) with
            | none => simp [hc] at h
            | some Tc =>
              obtain ⟨c, hTc, rfl⟩ := toNull_some hc
              simp only [hc, Fate.child.injEq] at h
              subst h
              have nb0 : b ≠ 0 := by rintro rfl; simp [Table.set] at hTb
              have nba : b ≠ a := by rintro rfl; simp [Table.set, nb0] at hTb
              have fb : T b = none := by simpa [Table.set, nb0, nba] using hTb
              have gb := big b fb
              have nc0 : c ≠ 0 := by rintro rfl; simp [Table.set] at hTc
              have nc1 : c ≠ 1 := by rintro rfl; simp [Table.set] at hTc
              have ncb : c ≠ b := by rintro rfl; simp [Table.set, nc1] at hTc
              have nca : c ≠ a := by rintro rfl; simp [Table.set, nc0, nc1, ncb] at hTc
              have fc : T c = none := by simpa [Table.set, nc0, nc1, nca, ncb] using hTc
              have gc := big c fc
              have n0b : (0 : Nat) ≠ b := fun e => nb0 e.symm
              have n0c : (0 : Nat) ≠ c := fun e => nc0 e.symm
              have n1c : (1 : Nat) ≠ c := fun e => nc1 e.symm
              refine ⟨by simp [Table.set, n0b, n0c], by simp [Table.set, n1c], by simp [Table.set], [a, b, c], rfl, ?_, ?_, ?_⟩
              · simp [nba.symm, nca.symm, ncb.symm]
              · intro n hn
                simp only [List.mem_cons, List.not_mem_nil, or_false] at hn
                rcases hn with rfl | rfl | rfl
                · exact ⟨ga, hTa⟩
                · exact ⟨gb, fb⟩
                · exact ⟨gc, fc⟩
              · intro n hn
                have n0 : n ≠ 0 := by omega
                have n1 : n ≠ 1 := by omega
                have n2 : n ≠ 2 := by omega
                simp only [Table.set, n0, n1, n2, if_false, List.mem_cons, List.not_mem_nil, or_false]
                by_cases e1 : n = c
                · simp [e1]
                · by_cases e2 : n = b
                  · simp [e2]
                  · simp [e1, e2]

/-- **C81**, the locks: then whatever was open is open on the same number, so both directories stay locked. -/
theorem C81_locks_partial (K : Kernel) (log : Bool) (T T' : Table) (hs : Standard T) (h : daemonize K log T = .child T')
    (n : Nat) (o : Obj) (hn : T n = some o) (ho : ∀ k, o ≠ .std k) : T' n = some o := by
  obtain ⟨-, -, -, left, -, -, hl, hT⟩ := C81_partial K log T T' hs h
  have hb : 3 ≤ n := by
    rcases Nat.lt_or_ge n 3 with h3 | h3
    · rw [hs n h3, Option.some.injEq] at hn
      exact absurd hn.symm (ho n)
    · exact h3
  rw [hT n hb]
  by_cases e : n ∈ left
  · rw [(hl n e).2] at hn
    cases hn
  · simp [e, hn]

/-- **C81** is false for the descriptors behind: whenever the server has gone to the background, at least one descriptor is
    open on `/dev/null` that was not open before and that nothing uses. -/
theorem C81_left_refuted (K : Kernel) (log : Bool) (T T' : Table) (hs : Standard T) (h : daemonize K log T = .child T') :
    ∃ n, 3 ≤ n ∧ T n = none ∧ T' n = some .null := by
  obtain ⟨-, -, -, left, hlen, -, hl, hT⟩ := C81_partial K log T T' hs h
  cases left with
  | nil =>
    simp only [List.length_nil] at hlen
    split at hlen <;> omega
  | cons a l =>
    have ha := hl a (by simp)
    exact ⟨a, ha.1, ha.2, by rw [hT a ha.1]; simp⟩

/-- A kernel in which all goes well, and `open` answers the lowest number below 64 that is free. -/
def lowKernel (fork : Option Bool) : Kernel where
  fork := fork
  pick := fun _ T => (List.range 64).find? fun n => (T n).isNone
  free := by
    intro i T n h
    have := List.find?_some h
    simpa using this
  dup := fun _ => true
  reopen := fun _ => true

/-- The standard descriptors and nothing else. -/
def freshTable : Table := fun n => if n < 3 then some (.std n) else none
/-- The same without standard input. -/
def noStdin : Table := fun n => if n = 1 ∨ n = 2 then some (.std n) else none
/-- What a server opens: two lock files, the files of one namespace, a socket. -/
def opened : List Obj := [.lock 0, .lock 1, .file 0, .file 1, .file 2]
/-- The descriptors of a server started with the standard three. -/
def fullTable : Table := ((((freshTable.set 3 (.lock 0)).set 4 (.lock 1)).set 5 (.file 0)).set 6 (.file 1)).set 7 (.file 2)
/-- The descriptors of a server started without standard input. -/
def lackTable : Table := ((((noStdin.set 0 (.lock 0)).set 3 (.lock 1)).set 4 (.file 0)).set 5 (.file 1)).set 6 (.file 2)

theorem fullTable_opens : Opens opened freshTable fullTable := by
  refine .cons _ _ _ 3 _ (by decide) (by decide) ?_
  refine .cons _ _ _ 4 _ (by decide) (by decide) ?_
  refine .cons _ _ _ 5 _ (by decide) (by decide) ?_
  refine .cons _ _ _ 6 _ (by decide) (by decide) ?_
  refine .cons _ _ _ 7 _ (by decide) (by decide) ?_
  exact .nil _

/-- A case that meets the hypotheses, with a log and without. -/
theorem C81_example : Opens opened freshTable fullTable ∧ Standard fullTable ∧ ∀ log, ∃ T',
    daemonize (lowKernel (some true)) log fullTable = .child T' ∧ T' 3 = some (.lock 0) ∧ T' 8 = some .null ∧
      (T' 9).isSome = !log := by
  refine ⟨fullTable_opens, ?_, ?_⟩
  · intro n hn
    match n, hn with
    | 0, _ => rfl
    | 1, _ => rfl
    | 2, _ => rfl
  · intro log
    cases log with
    | true => exact ⟨_, rfl, by decide, by decide, by decide⟩
    | false => exact ⟨_, rfl, by decide, by decide, by decide⟩

/-- **C81** is false for a server started without standard input (`<&-`): its first lock file gets number 0, over which
    `/dev/null` is put. The index directory is locked before, and is no more after: a second server can be started on it. -/
theorem C81_lock_refuted : Opens opened noStdin lackTable ∧ Open lackTable (.lock 0) ∧ ∀ log, ∃ T',
    daemonize (lowKernel (some true)) log lackTable = .child T' ∧ ¬ Open T' (.lock 0) := by
  refine ⟨?_, ⟨0, rfl⟩, ?_⟩
  · refine .cons _ _ _ 0 _ (by decide) (by decide) ?_
    refine .cons _ _ _ 3 _ (by decide) (by decide) ?_
    refine .cons _ _ _ 4 _ (by decide) (by decide) ?_
    refine .cons _ _ _ 5 _ (by decide) (by decide) ?_
    refine .cons _ _ _ 6 _ (by decide) (by decide) ?_
    exact .nil _
  · intro log
    have key : ∀ T' : Table, (∀ n, 10 ≤ n → T' n = none) → (∀ n, n < 10 → T' n ≠ some (.lock 0)) → ¬ Open T' (.lock 0) := by
      rintro T' h1 h2 ⟨n, hn⟩
      rcases Nat.lt_or_ge n 10 with h | h
      · exact h2 n h hn
      · rw [h1 n h] at hn
        cases hn
    cases log with
    | true =>
      refine ⟨((lackTable.set 7 .null).set 0 .null |>.set 1 (.log 1)).set 2 (.log 2), rfl, key _ ?_ (by decide)⟩
      intro n hn
      have : n ≠ 0 ∧ n ≠ 1 ∧ n ≠ 2 ∧ n ≠ 3 ∧ n ≠ 4 ∧ n ≠ 5 ∧ n ≠ 6 ∧ n ≠ 7 := by omega
      simp [Table.set, lackTable, noStdin, this]
    | false =>
      refine ⟨((((lackTable.set 7 .null).set 0 .null |>.set 8 .null).set 1 .null).set 9 .null).set 2 .null, rfl, key _ ?_ (by decide)⟩
      intro n hn
      have : n ≠ 0 ∧ n ≠ 1 ∧ n ≠ 2 ∧ n ≠ 3 ∧ n ≠ 4 ∧ n ≠ 5 ∧ n ≠ 6 ∧ n ≠ 7 := by omega
      by_cases e8 : n = 8
      · omega
      · by_cases e9 : n = 9
        · omega
        · simp [Table.set, lackTable, noStdin, this, e8, e9]

/-- **C81** is false for the status: the first process has ended with success, whatever becomes of the second one. -/
theorem C81_status_refuted (K : Kernel) (log : Bool) (T : Table) (hn : K.pick 0 T = none) :
    daemonize { K with fork := some false } log T = .parent ∧ daemonize { K with fork := some true } log T = .failed := by
  refine ⟨rfl, ?_⟩
  simp [daemonize, toNull, hn]

/-- A kernel without free descriptors. -/
def noRoom : Kernel where
  fork := none
  pick := fun _ _ => none
  free := fun _ _ _ h => nomatch h
  dup := fun _ => true
  reopen := fun _ => true

/-- It meets the hypothesis. -/
theorem C81_status_example : noRoom.pick 0 fullTable = none := rfl

/-! ### the log -/

/-- Positions are in the file, and its end is the farther one. -/
structure LogOk (l : Log) (o e : Nat) : Prop where
  out : l.out = o
  err : l.err = e
  len : l.bytes.length = max o e

theorem overwrite_length (f : List Nat) (pos : Nat) (b : List Nat) (h : pos ≤ f.length) :
    (overwrite f pos b).length = max f.length (pos + b.length) := by
  simp only [overwrite, List.length_append, List.length_take, List.length_drop]
  omega

theorem outBytes_cons (m : Msg) (ms : List Msg) : (outBytes (m :: ms)).length =
    (match m with | .out b => b.length | .err _ => 0) + (outBytes ms).length := by
  cases m <;> simp [outBytes]

theorem errBytes_cons (m : Msg) (ms : List Msg) : (errBytes (m :: ms)).length =
    (match m with | .out _ => 0 | .err b => b.length) + (errBytes ms).length := by
  cases m <;> simp [errBytes]

theorem LogOk.run : ∀ (ms : List Msg) {l : Log} {o e : Nat}, LogOk l o e →
    LogOk (l.run ms) (o + (outBytes ms).length) (e + (errBytes ms).length) := by
  intro ms
  induction ms with
  | nil => intro l o e h; exact h
  | cons m ms ih =>
    intro l o e h
    have h1 := h.out
    have h2 := h.err
    have h3 := h.len
    rw [outBytes_cons, errBytes_cons]
    cases m with
    | out b =>
      have := ih (l := l.write (.out b)) (o := o + b.length) (e := e) ⟨by simp [Log.write, h1], h2, by
        simp only [Log.write]
        rw [overwrite_length _ _ _ (by omega), h3, h1]
        omega⟩
      have e1 : o + (b.length + (outBytes ms).length) = o + b.length + (outBytes ms).length := by omega
      simp only [Nat.zero_add, e1]
      exact this
    | err b =>
      have := ih (l := l.write (.err b)) (o := o) (e := e + b.length) ⟨h1, by simp [Log.write, h2], by
        simp only [Log.write]
        rw [overwrite_length _ _ _ (by omega), h3, h2]
        omega⟩
      have e1 : e + (b.length + (errBytes ms).length) = e + b.length + (errBytes ms).length := by omega
      simp only [Nat.zero_add, e1]
      exact this

/-- **C81** is false for the log: as soon as something went to standard output and something to standard error, whatever
    the messages and their order, the log is shorter than what was written to it. -/
theorem C81_log_refuted (ms : List Msg) (ho : outBytes ms ≠ []) (he : errBytes ms ≠ []) :
    (Log.start.run ms).bytes.length < (ms.flatMap Msg.bytes).length := by
  have h := (LogOk.run ms (l := .start) (o := 0) (e := 0) ⟨rfl, rfl, rfl⟩).len
  have hs : (ms.flatMap Msg.bytes).length = (outBytes ms).length + (errBytes ms).length := by
    clear h ho he
    induction ms with
    | nil => rfl
    | cons m ms ih =>
      rw [outBytes_cons, errBytes_cons, List.flatMap_cons, List.length_append, ih]
      cases m <;> simp only [Msg.bytes] <;> omega
  have h1 := List.length_pos_iff.2 ho
  have h2 := List.length_pos_iff.2 he
  omega

/-- **C81** is false for the log: a message to standard error replaces what stood at the start of the log. -/
theorem C81_overwrite_refuted (a b : List Nat) (h : a.length ≤ b.length) :
    (Log.start.run [.out a, .err b]).bytes = b := by
  simp only [Log.run, Log.start, List.foldl_cons, List.foldl_nil, Log.write, overwrite, List.take_nil, List.drop_nil,
    List.nil_append, List.append_nil, List.take_zero, Nat.zero_add]
  rw [List.drop_eq_nil_of_le h, List.append_nil]

theorem run_out : ∀ (bs : List (List Nat)) (l : Log), l.out = l.bytes.length →
    (l.run (bs.map .out)).bytes = l.bytes ++ bs.flatten := by
  intro bs
  induction bs with
  | nil => intro l _; simp [Log.run]
  | cons b bs ih =>
    intro l h
    have e : (l.write (.out b)).bytes = l.bytes ++ b := by
      simp [Log.write, overwrite, h]
    have := ih (l.write (.out b)) (by rw [e]; simp [Log.write, h])
    rw [e] at this
    simpa [Log.run] using this

/-- **C81**, the log of a server that writes nothing to standard error: all messages, in their order. Missing: messages to
    standard error (`C81_log_refuted`). -/
theorem C81_log_partial (bs : List (List Nat)) : (Log.start.run (bs.map .out)).bytes = bs.flatten := by
  rw [run_out bs .start rfl]
  rfl

/-- Messages as in the theorems: two lines, and a warning that replaces the first and a part of the second. -/
theorem C81_log_example : (Log.start.run [.out [1, 1, 10], .out [2, 2, 10], .err [7, 7, 7, 10]]).bytes =
    [7, 7, 7, 10, 2, 10] := by decide

end Zdb.Daemon
