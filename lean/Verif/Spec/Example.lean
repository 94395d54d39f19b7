/-
A concrete context and a function running a list of commands, used by the examples next to the theorems.
-/
import Verif.Spec.Bounds
namespace Zdb

/-- Settings of an ordinary namespace. -/
def exConf : NsConf :=
  { name := [110, 115], password := none, isPublic := true, worm := false, maxsize := 0, lock := .unlocked }

/-- An ordinary administrator client, no disk error, 256 MiB files. -/
def exCtx : Ctx :=
  { limit := 2 ^ 28, now := 1700000000, u := 7, conf := exConf, admin := true, writable := true,
    io := Io.good, slice := 100 }

theorem exCtx_ok : CtxOK exCtx := ⟨rfl, rfl, rfl, by decide, by decide⟩

/-- Running commands one after the other. -/
def runCmds (br : Branches) (s : Store) : List (Ctx × DsCmd × List Bytes) → Branches × Store × List Reply
  | [] => (br, s, [])
  | (c, d, argv) :: l =>
    let x := dsCommand c br s d argv
    let y := runCmds x.1 x.2.1 l
    (y.1, y.2.1, x.2.2 :: y.2.2)

/-- The trace of such a run. -/
def traceOf (br : Branches) (s : Store) : List (Ctx × DsCmd × List Bytes) → List (NsEvent × Reply)
  | [] => []
  | (c, d, argv) :: l =>
    let x := dsCommand c br s d argv
    (.cmd c d argv, x.2.2) :: traceOf x.1 x.2.1 l

/-- Every list of commands has an execution. -/
theorem runCmds_run (cfg : Option Mode) (u : Nat) (l : List (Ctx × DsCmd × List Bytes))
    (hu : ∀ x ∈ l, x.1.u = u) (br : Branches) (s : Store) :
    NsRun cfg u br s (traceOf br s l) (runCmds br s l).1 (runCmds br s l).2.1 := by
  induction l generalizing br s with
  | nil => exact .nil _ _
  | cons x l ih =>
    obtain ⟨c, d, argv⟩ := x
    exact .cmd c d argv (hu _ (List.mem_cons_self ..)) rfl
      (ih (fun x hx => hu x (List.mem_cons_of_mem _ hx)) _ _)

/-- Bytes of an ASCII string. -/
def str (s : String) : Bytes := s.toList.map (fun c => UInt8.ofNat c.toNat)

/-- Two keys, an overwrite, a jump, a deletion. -/
def exCmds : List (Ctx × DsCmd × List Bytes) :=
  [(exCtx, .set, [str "SET", str "a", str "one"]),
   (exCtx, .set, [str "SET", str "b", str "two"]),
   (exCtx, .nsjump, [str "NSJUMP"]),
   (exCtx, .set, [str "SET", str "a", str "three"]),
   (exCtx, .del, [str "DEL", str "b"]),
   (exCtx, .get, [str "GET", str "a"]),
   (exCtx, .get, [str "GET", str "b"]),
   (exCtx, .dbsize, [str "DBSIZE"])]

end Zdb
