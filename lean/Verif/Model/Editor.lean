/-
The tool that changes the settings of a namespace while the server is stopped: tools/namespace-editor/namespace-editor.c.
-/
import Verif.Model.Node
namespace Zdb

/-- The options of the tool, tools/namespace-editor/namespace-editor.c:9-18, as `getopt_long_only` gives them (its
    words and abbreviations are in Model/EditorWords).  Values are C strings.  `--index` is left out: the directory is the one of
    the server.  `--help` and unknown options end the tool. -/
inductive EdOpt where
  | ns (v : Bytes)
  | password (v : Bytes)
  | maxsize (v : Bytes)
  | isPublic (v : Bytes)
  | worm (v : Bytes)
  | other

/-- `nsname` and the fields of `namespace` in `main`, lines 91-99. -/
structure EdArgs where
  ns : Option Bytes
  password : Option Bytes
  maxsize : Nat
  isPublic : Bool
  worm : Bool

/-- Lines 90-99: everything is zero but the public flag. -/
def EdArgs.start : EdArgs := { ns := none, password := none, maxsize := 0, isPublic := true, worm := false }

/-- `yes` and `no` -/
def wordYes : Bytes := [121, 101, 115]
def wordNo : Bytes := [110, 111]

/-- One turn of the loop, lines 101-160; `none`: the tool ends with a failure. -/
def EdArgs.take (a : EdArgs) : EdOpt → Option EdArgs
  | .ns v => some { a with ns := some v }
  | .password v => some { a with password := some v }
  | .maxsize v => some { a with maxsize := (atoll v % 2 ^ 64).toNat }
  | .isPublic v =>
    if v = wordYes then some { a with isPublic := true }
    else if v = wordNo then some { a with isPublic := false }
    else none
  | .worm v =>
    if v = wordYes then some { a with worm := true }
    else if v = wordNo then some { a with worm := false }
    else none
  | .other => none

/-- The loop. -/
def EdArgs.takeAll : EdArgs → List EdOpt → Option EdArgs
  | a, [] => some a
  | a, o :: os =>
    match a.take o with
    | none => none
    | some a => a.takeAll os

/-- The settings written, lines 55-59. -/
def EdArgs.conf (a : EdArgs) (name : Bytes) : NsConf :=
  { name := name, password := a.password, isPublic := a.isPublic, worm := a.worm, maxsize := a.maxsize, lock := .unlocked }

/-- `namespace_edit` on the descriptor of the namespace, lines 35-62: `namespace_load_light` (libzdb/namespace.c:236-272) reads
    it, or writes it if it is shorter than its header; `namespace_commit` (libzdb/namespace.c:173-188) writes the new one
    over it.  `none`: the version is not supported, the tool returns 1. -/
def editDesc (a : EdArgs) (name desc : Bytes) : Option Bytes :=
  match loadDesc name desc with
  | none => none
  | some (_, desc) => some (pwrite desc 0 (encDesc (a.conf name)))

/-- The same on one of the namespaces of the stopped process. -/
def editRec (a : EdArgs) (name : Bytes) (r : NsRec) : NsRec :=
  if r.conf.name = name then { r with desc := (editDesc a name r.desc).getD r.desc } else r

/-- The tool: its exit status, and the namespaces of the stopped process afterwards.  A name which is not the one of a namespace
    has no directory, and the descriptor cannot be opened (libzdb/namespace.c:102-114); names which are paths are not
    modelled.  Writes succeed. -/
def editMain (n : Node) (os : List EdOpt) : Nat × Node :=
  match EdArgs.start.takeAll os with
  | none => (1, n)
  | some a =>
    match a.ns with
    | none => (1, n)
    | some name =>
      match (n.slots.filterMap id).find? (fun r => r.conf.name == name) with
      | none => (1, n)
      | some r =>
        match editDesc a name r.desc with
        | none => (1, n)
        | some _ => (0, { n with slots := n.slots.map (Option.map (editRec a name)) })

end Zdb
