import Verif.Group

/-! # What C148 speaks of -/

namespace Sang.Spec

/-- Assigning to shortcuts of a group, one after another, going on after exceptions. -/
def assignShortcuts (F : Fl) (n : Node) : List (String × PV) → Node
  | [] => n
  | (key, v) :: r => assignShortcuts F (setShortcut F key v n).1 r

/-- The shortcuts of a group. -/
def shortcuts : List String := ["offset", "angle", "skew_angle", "scale"]

end Sang.Spec
