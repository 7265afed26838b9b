import Verif.Spec.Dom
import Verif.Spec.Program
import Verif.Value

/-!
# What assigning to a parameter of several layers comes to
-/

namespace Sang.Spec

/-- None of them is in another, nor is any of them listed twice. -/
def NoneInside (h : Dom) (l : List ℕ) : Prop := l.Pairwise fun x y => ¬ Within h x y ∧ ¬ Within h y x

/-- `x[f]` can be read, and shows the value `m`, an element of class `c`. -/
def ShowsParam (h : Dom) (x : ℕ) (f : Str) (c : VCls) (m : Node) : Prop := ∃ o, h.getItem x f = .ok (c, o) ∧ h.node o = m

/-- `x[f] = v` can be done: `x[f]` is of the class `c`, and that class makes `m` of `v`. -/
def TakesParam (F : Fl) (h : Dom) (x : ℕ) (f : Str) (v : PV) (c : VCls) (m : Node) : Prop :=
  (∃ o, h.getItem x f = .ok (c, o)) ∧ newValue F c v = .ok m

/-- The first parameter `f` that is below `x` is `p`, which is the layer's own. -/
def OwnFirst (h : Dom) (x : ℕ) (f : Str) (p : ℕ) : Prop := h.find? (isParam f) x = some p ∧ h.parent p = some x

/-- The place is inside a parameter named `k`. -/
def InsideParam (k : String) (n : Node) (r : List ℕ) : Prop :=
  ∃ q i s, r = q ++ i :: s ∧ ∃ y, nodeAt q n = some y ∧ IsParam k y

end Sang.Spec
