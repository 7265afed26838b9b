import Verif.Py

/-!
# Specification of name equivalence and registration histories

Independent of the model: names are equivalent when one can be turned into the other by
changing the case of letters and putting in or leaving out underscores.
-/

namespace Sang.Spec

/-- Two names which differ only in letter case and underscores. -/
inductive SameName : Str → Str → Prop
  | nil : SameName [] []
  | char {a b : Char} {s t : Str} : a.toLower = b.toLower → SameName s t → SameName (a :: s) (b :: t)
  | left {s t : Str} : SameName s t → SameName ('_' :: s) t
  | right {s t : Str} : SameName s t → SameName s ('_' :: t)

/-- A name in lower case and without underscores. -/
def bareName (s : Str) : Str := (s.filter fun c => c ≠ '_').map Char.toLower

/-- One use of the decorator: the class `cls`, whose own name is `className`, registered with
the optional explicit name `explicit`. -/
structure Registration (α : Type) where
  explicit : Option Str
  className : Str
  cls : α

/-- The name it counts under: the explicit name if there is one and it isn't empty. -/
def Registration.name {α : Type} (r : Registration α) : Str :=
  match r.explicit with
  | some n => if n = [] then r.className else n
  | none => r.className

end Sang.Spec
