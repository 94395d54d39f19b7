/-
Sequential namespaces with empty index files or with ids never given out: what goes wrong for C08, C09, C12 and C25.

A file change (NSJUMP) leaves an empty index file behind.  While the process runs, the map of first ids holds one pair per
file, repeated when a file is empty; a reload leaves out the empty files.  In both cases the file looked at for an id can
be the wrong one.
-/
import Verif.Props.FarIds
namespace Zdb

/-- Requests of an administrator, with words. -/
def adm (l : List String) : Event := .request 5 (exE 1) (l.map str)

/-- The start of the executions below: an administrator creates a namespace `priv`. -/
def exPriv : List Event :=
  [.connect 5, adm ["AUTH", "pw"], .request 5 (exE 2) [str "NSNEW", str "priv"], adm ["SELECT", "priv"]]

/-- Client 6 goes to it. -/
def exGo : List Event := [.connect 6, .request 6 (exE 1) [str "SELECT", str "priv"]]

/-- An execution with given bulk strings and nils as its answers. -/
theorem said_run {evs : List Event} {a : List (Option (Option Bytes))}
    (h : reaches exSeqS evs (fun _ l => l.map (fun y => said y.2) == a) = true) :
    ∃ l n, FreeRun exSeqS (exNode exSeqS) l n ∧ l.map (·.1) = evs ∧ l.map (fun y => said y.2) = a := by
  obtain ⟨l, n, h1, h2, h3⟩ := reaches_run h
  exact ⟨l, n, h1, h2, by simpa using h3⟩

/-! ### C25 -/

/-- C25 is false in sequential mode: just after the SET of `exFar07` was acknowledged with id 0, CHECK of id 0 finds no key. -/
theorem C25_seq_refuted : ∃ l n, FreeRun exSeqS (exNode exSeqS) l n ∧
    l.map (·.1) = exFar07 ++ [.request 6 (exE 1) [str "CHECK", sid 0]] ∧
    l.map (fun y => said y.2) = [none, none, none, none, none, some (some (sid 0)), some none] :=
  said_run (by decide +kernel)

/-! ### C09 -/

/-- In worm mode: two file changes, a value, a file change, a read, two file changes, a read. -/
def exJump09 : List Event :=
  exPriv ++ [adm ["NSSET", "priv", "worm", "1"], adm ["NSJUMP"], adm ["NSJUMP"]] ++ exGo ++
    [farSet [] (str "one"), adm ["NSJUMP"], farGet (sid 0), adm ["NSJUMP"], adm ["NSJUMP"], farGet (sid 0)]

/-- C09 is false in sequential mode: a value read by GET in worm mode is not found by a later GET, after file changes. -/
theorem C09_seq_refuted : ∃ l n, FreeRun exSeqS (exNode exSeqS) l n ∧ l.map (·.1) = exJump09 ∧
    l.map (fun y => said y.2) = [none, none, none, none, none, none, none, none, none, some (some (sid 0)), none,
      some (some (str "one")), none, none, some none] :=
  said_run (by decide +kernel)

/-! ### C12 -/

/-- The namespace gets a password, a file change and a reload; client 6 enters with the password and stores a value,
    client 7 enters without it while that is allowed; GET, FLUSH by client 7, GET. -/
def exJump12 : List Event :=
  exPriv ++ [adm ["NSSET", "priv", "password", "secret"], adm ["NSSET", "priv", "public", "1"], adm ["NSJUMP"],
    adm ["RELOAD", "priv"], .connect 6, .request 6 (exE 1) [str "SELECT", str "priv", str "secret"], farSet [] (str "one"),
    .connect 7, .request 7 (exE 1) [str "SELECT", str "priv"], adm ["NSSET", "priv", "public", "0"], farGet (sid 0),
    .request 7 (exE 1) [str "FLUSH"], farGet (sid 0)]

/-- C12 is false in sequential mode: FLUSH asks for no right; it deletes nothing (the names it looks for are not those of
    the files) but reloads the namespace, after which GET finds a value that was not found before.  Client 7 never gave
    the password and is read-only. -/
theorem C12_seq_refuted : ∃ l n, FreeRun exSeqS (exNode exSeqS) l n ∧ l.map (·.1) = exJump12 ∧
    (∃ c, getClient n 7 = some c ∧ c.writable = false) ∧
    l.map (fun y => said y.2) = [none, none, none, none, none, none, none, none, none, none, some (some (sid 0)), none, none,
      none, some none, none, some (some (str "one"))] := by
  have h : reaches exSeqS exJump12 (fun n l =>
      (match getClient n 7 with | some c => !c.writable | none => false) &&
      (l.map (fun y => said y.2) == [none, none, none, none, none, none, none, none, none, none, some (some (sid 0)), none,
        none, none, some none, none, some (some (str "one"))])) = true := by decide +kernel
  obtain ⟨l, n, h1, h2, h3⟩ := reaches_run h
  simp only [Bool.and_eq_true, beq_iff_eq] at h3
  refine ⟨l, n, h1, h2, ?_, h3.2⟩
  have h4 := h3.1
  split at h4
  · exact ⟨_, by assumption, by simpa using h4⟩
  · cases h4

/-! ### C08 -/

/-- A namespace of 12 bytes, filled; a SET of an id never given out with 40 bytes; GET. -/
def exFar08 : List Event :=
  exPriv ++ [adm ["NSSET", "priv", "maxsize", "12"]] ++ exGo ++ List.replicate 6 (farSet [] (str "vv")) ++
    [farSet [] (str "w"), farSet (sid 204522257) (List.replicate 40 7), farGet (sid 0)]

/-- C08 is false in sequential mode: with a maximum of 12 bytes a SET is refused, but a SET of an id which points into the
    middle of an item, where a large length is found, is not; a payload of 40 bytes is stored and read back. -/
theorem C08_seq_refuted : ∃ l n, FreeRun exSeqS (exNode exSeqS) l n ∧ l.map (·.1) = exFar08 ∧
    (∃ r, nsDeref n 1002 = some r ∧ r.conf.maxsize = 12) ∧
    l.map (fun y => said y.2) = [none, none, none, none, none, none, none, some (some (sid 0)), some (some (sid 1)),
      some (some (sid 2)), some (some (sid 3)), some (some (sid 4)), some (some (sid 5)), none, some (some (sid 0)),
      some (some (List.replicate 40 7))] := by
  have h : reaches exSeqS exFar08 (fun n l =>
      (match nsDeref n 1002 with | some r => r.conf.maxsize == 12 | none => false) &&
      (l.map (fun y => said y.2) == [none, none, none, none, none, none, none, some (some (sid 0)), some (some (sid 1)),
        some (some (sid 2)), some (some (sid 3)), some (some (sid 4)), some (some (sid 5)), none, some (some (sid 0)),
        some (some (List.replicate 40 7))])) = true := by decide +kernel
  obtain ⟨l, n, h1, h2, h3⟩ := reaches_run h
  simp only [Bool.and_eq_true, beq_iff_eq] at h3
  refine ⟨l, n, h1, h2, ?_, h3.2⟩
  have h4 := h3.1
  split at h4
  · exact ⟨_, by assumption, by simpa using h4⟩
  · cases h4

end Zdb
