/-
The words that ask the namespace editor for something.
-/
import Verif.Model.EditorWords
import Verif.Spec.Editor
import Verif.Spec.Options
namespace Zdb.Editor
open Options (text spell Plain)

def edNames : List Bytes :=
  [text "index", text "namespace", text "password", text "maxsize", text "public", text "worm", text "help"]

/-- The name of an option, and its value. -/
def optName : EdOpt → Bytes
  | .ns _ => text "namespace" | .password _ => text "password" | .maxsize _ => text "maxsize" | .isPublic _ => text "public"
  | .worm _ => text "worm" | .other => text "help"

def optValue : EdOpt → Option Bytes
  | .ns v => some v | .password v => some v | .maxsize v => some v | .isPublic v => some v | .worm v => some v | .other => none

/-- A name can be shortened as long as no other option begins so. -/
def Spells (used name : Bytes) : Prop := used = name ∨ (used <+: name ∧ ∀ o ∈ edNames, used <+: o → o = name)

/-- The words of a command line, the options in them, and whether a directory is named. -/
inductive Words : List Bytes → List EdOpt → Bool → Prop where
  | nil : Words [] [] false
  | plain {w ws os d} : Plain w → Words ws os d → Words (w :: ws) os d
  | index {used v ws os d} (two joined : Bool) : Spells used (text "index") → Words ws os d →
      Words (spell two joined used (some v) ++ ws) os true
  | opt {used o ws os d} (two joined : Bool) : Spells used (optName o) → Words ws os d →
      Words (spell two joined used (optValue o) ++ ws) (o :: os) d

end Zdb.Editor
