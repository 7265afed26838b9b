import Verif.DomLoop
import Verif.Spec.GroupLists

/-!
# Specification of loops
-/

namespace Sang.Spec

/-- What is done to each thing in a list, until something is raised. -/
def forList (body : ℕ → Dom → Dom × Res Unit) : List ℕ → Dom → Dom × Res Unit
  | [], h => (h, .ok ())
  | x :: l, h => match body x h with
    | (h, .error e) => (h, .error e)
    | (h, .ok ()) => forList body l h

end Sang.Spec
