import Verif.Value
import Mathlib.Data.List.Perm.Basic

/-!
# Values as Synfig writes them
-/

namespace Sang.Spec

/-- The child elements of `n` each hold one piece of text: these names and texts, in any order, whatever white
space is between them. -/
def HasTexts (n : Node) (l : List (String × Str)) : Prop :=
  ∃ l', List.Perm l' l ∧ List.Forall₂ (fun x p => ∃ a, x = Node.tag p.1 a [.text p.2]) n.tagKids l'

/-- The child elements of `n` each hold one element: these names and elements, in any order. -/
def HasParts (n : Node) (l : List (String × Node)) : Prop :=
  ∃ l', List.Perm l' l ∧ List.Forall₂ (fun x p => x.name = p.1 ∧ x.tagKids = [p.2]) n.tagKids l'

/-- The elements Synfig uses for values, and the classes for them. -/
def valueElements : List (String × VCls) :=
  [("real", .real), ("integer", .integer), ("bool", .bool), ("angle", .angle), ("time", .time),
   ("string", .string), ("color", .color), ("gradient", .gradient), ("canvas", .canvas)]

/-- The Python objects that compare as the number `q`: `float`s, `int`s and `bool`s. -/
inductive IsNumber : PV → ℚ → Prop
  | float (q : ℚ) : IsNumber (.float q) q
  | int (i : ℤ) : IsNumber (.int i) i
  | bool (b : Bool) : IsNumber (.bool b) (if b then 1 else 0)

end Sang.Spec
