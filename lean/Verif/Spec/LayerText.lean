import Verif.LayerText
import Verif.Spec.Literals

/-!
# How layers and waypoints are shown

What a reader sees in the text of a layer or a waypoint, apart from how it is made.
-/

namespace Sang.Spec

/-- The text `s` shows a layer of class `c` that is inside `depth` others, and the pieces of text
`strings`: a bracket, so many dashes, the symbol of the class, its name in small letters, the pieces
as Python literals with a space before each, and a bracket. -/
def Shows (F : Fl) (s : Str) (depth : ℕ) (c : LClass) (strings : List Str) : Prop :=
  ∃ literals : List Str, List.Forall₂ (fun t x => LiteralFor F t (.str x)) literals strings ∧
    s = "[".toList ++ List.replicate depth '-' ++ symbolOf c ++ lower c.name.toList ++
      literals.flatMap (fun t => " ".toList ++ t) ++ "]".toList

/-- A description that is absent and one that is empty aren't shown. -/
def shownDesc : Option Str → List Str
  | none => []
  | some s => if s = [] then [] else [s]

/-- The interpolations a waypoint can have, and how each is shown. -/
def shownInterp : List (String × Char) :=
  [("tcb", '🟢'), ("clamped", '🔶'), ("constant", '🟥'), ("linear", '🌽'), ("ease", '🫐')]

end Sang.Spec
