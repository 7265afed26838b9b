import Verif.Animation
import Verif.LayerText

/-!
# The text of an animation and of its keyframes

`sangfroid/keyframe.py:24-31,51-61`, `sangfroid/layer/layer.py:75-89`, `sangfroid/animation.py:36,103-107`.
-/

namespace Sang

/-- `repr(animation)` (also `str(animation)`): `Layer.__repr__`, `sangfroid/layer/layer.py:75-89`. An animation is a
`Group`, with its symbol; it is in no layer; its description is the one of `sangfroid/animation.py:103-107`. -/
def animRepr (pr : Char → Bool) (n : Node) : Str :=
  '[' :: (symbolOf lcGroup ++ ("animation".toList ++ ((match animDesc n with
    | none => []
    | some [] => []
    | some (c :: s) => ' ' :: pyRepr pr (c :: s)) ++ [']'])))

/-- `str(animation.keyframes)`, `sangfroid/keyframe.py:51-61`. -/
def keyframesStr (F : Fl) (pr : Char → Bool) (n : Node) : Res Str :=
  if keyframesLen n = 0 then .ok ("Keyframes of ".toList ++ (animRepr pr n ++ ":\n  (none)".toList))
  else match mapRes (Keyframe.str F (pyRepr pr)) (keyframes n) with
    | .error e => .error e
    | .ok l => .ok ("Keyframes of ".toList ++ (animRepr pr n ++ (':' :: l.flatMap fun s => "\n  - ".toList ++ s)))

end Sang
