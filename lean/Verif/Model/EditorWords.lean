/-
The command line of the namespace editor: tools/namespace-editor/namespace-editor.c.
-/
import Verif.Model.Editor
import Verif.Model.Options
namespace Zdb.Editor
open Options

inductive EdKey where
  | index | ns | password | maxsize | isPublic | worm | help
deriving DecidableEq

/-- `long_options`, tools/namespace-editor/namespace-editor.c:9-18. -/
def edOptions : List (LongOpt EdKey) :=
  [⟨text "index", true, .index⟩, ⟨text "namespace", true, .ns⟩, ⟨text "password", true, .password⟩, ⟨text "maxsize", true, .maxsize⟩,
   ⟨text "public", true, .isPublic⟩, ⟨text "worm", true, .worm⟩, ⟨text "help", false, .help⟩]

/-- The cases of the `switch`, tools/namespace-editor/namespace-editor.c:108-160; the directory is kept apart. -/
def edTake : Got EdKey → Option EdOpt
  | .opt .index _ => none
  | .opt .ns v => some (.ns v)
  | .opt .password v => some (.password v)
  | .opt .maxsize v => some (.maxsize v)
  | .opt .isPublic v => some (.isPublic v)
  | .opt .worm v => some (.worm v)
  | .opt .help _ => some .other
  | .bad => some .other

def isIndex : Got EdKey → Bool
  | .opt .index _ => true
  | _ => false

/-- `main`, tools/namespace-editor/namespace-editor.c:88-177, from the words of its command line.  The directory named, if
    one is, is the one of the stopped server.  Every failure before `namespace_edit` ends the tool with status 1. -/
def editProgram (n : Node) (argv : List Bytes) : Nat × Node :=
  let gs := getopt edOptions argv
  if gs.any isIndex then editMain n (gs.filterMap edTake) else (1, n)

end Zdb.Editor
