import Verif.Spec.BywordsProgram
import Verif.Program

/-!
# Specification of running bywords again and again
-/

namespace Sang.Spec

/-- The values of params called "text" (and "type_") are plain: there are no layers or params in them. -/
def PlainParams (n : Node) : Prop :=
  ∀ p y, nodeAt p n = some y → IsParam "text" y ∨ IsParam "type_" y →
    ∀ q z, q ≠ [] → nodeAt q y = some z → z.name ≠ "layer" ∧ z.name ≠ "param"

/-- A use of bywords: whether letters are shown one at a time, the subtitles, and the order in which Python happens
to go through a set. -/
structure BywordsUse where
  letters : Bool
  lines : List SubLine
  perm : List (ℕ × ℕ) → List (ℕ × ℕ)
  perm_perm : ∀ l, (perm l).Perm l

/-- Several uses of it on an animation, one after another, until one fails. -/
def useAll (F : Fl) (d : Defaults) : List BywordsUse → Node → Node × Res Unit
  | [], n => (n, .ok ())
  | u :: us, n => match adjust F d u.perm u.letters u.lines n with
    | (m, .error e) => (m, .error e)
    | (m, .ok ()) => useAll F d us m

end Sang.Spec
