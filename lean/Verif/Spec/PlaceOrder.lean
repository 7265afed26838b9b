import Verif.Program

/-!
# The order of a document
-/

namespace Sang.Spec

/-- One place comes before another: the second is inside the first, or there is an element in which the first is (in)
an earlier child and the second is (in) a later one. -/
def Earlier (p q : Place) : Prop :=
  (∃ r, r ≠ [] ∧ q = p ++ r) ∨ ∃ a i j r s, i < j ∧ p = a ++ i :: r ∧ q = a ++ j :: s

/-- Places in the order of the document, each once. -/
def InOrder (l : List Place) : Prop := l.Pairwise Earlier

end Sang.Spec
