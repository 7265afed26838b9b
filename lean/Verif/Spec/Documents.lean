import Verif.Spec.Dom

/-!
# Specification of programs that work on one document and not on another
-/

namespace Sang.Spec

/-- The objects an operation is given. -/
def given : DOp → List ℕ
  | .make _ => []
  | .append _ g x => [g, x]
  | .insert _ g _ x => [g, x]
  | .assign a _ v => [a, v.2]
  | .plain _ a _ _ => [a]
  | .set v _ _ _ => [v]
  | .unanimate v _ => [v]

/-- Memory after several operations, whichever of them raise exceptions. -/
def runAll (os : List DOp) (h : Dom) : Dom := os.foldl (fun h o => run o h) h

/-- None of them puts anything inside itself, or is given something that doesn't exist. -/
def ProperAll : Dom → List DOp → Prop
  | _, [] => True
  | h, o :: r => Proper h o ∧ ProperAll (run o h) r

/-- `b` looks as `a` did, but that `y` is where `x` was: they are these elements, or they are elements with
the same name and attributes, and alike but for one thing in them, for which this holds again. -/
inductive Swapped (x y : Node) : Node → Node → Prop
  | here : Swapped x y x y
  | inside {n : String} {at' : Attrs} {l r : List Node} {a b : Node} :
      Swapped x y a b → Swapped x y (.tag n at' (l ++ a :: r)) (.tag n at' (l ++ b :: r))

end Sang.Spec
