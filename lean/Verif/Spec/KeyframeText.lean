import Verif.Spec.LayerText

/-!
# What the text of keyframes shows
-/

namespace Sang.Spec

/-- The text `s` shows an animation and what its description is, if it isn't empty: as a layer is shown, with the symbol
of a group. -/
def ShowsAnimation (F : Fl) (s : Str) (desc : List Str) : Prop :=
  ∃ literals : List Str, List.Forall₂ (fun t x => LiteralFor F t (.str x)) literals desc ∧
    s = "[📂animation".toList ++ literals.flatMap (fun t => " ".toList ++ t) ++ "]".toList

/-- The text `s` shows a keyframe: its time, its name as a Python literal, and whether it isn't active. -/
def ShowsKeyframe (F : Fl) (s : Str) (time name : Str) (active : Bool) : Prop :=
  ∃ literal, LiteralFor F literal (.str name) ∧
    s = time ++ " ".toList ++ literal ++ (if active then [] else " (inactive)".toList)

/-- The text `s` shows a list of things with the texts `lines`: a heading, and each of them on a line of its own. -/
def ShowsList (s heading : Str) (lines : List Str) : Prop :=
  s = "Keyframes of ".toList ++ heading ++ ":".toList ++
    if lines = [] then "\n  (none)".toList else lines.flatMap fun t => "\n  - ".toList ++ t

end Sang.Spec
