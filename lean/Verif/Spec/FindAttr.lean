import Verif.Value

/-!
# Searching by the attributes that every layer has

What such an attribute says, in terms of how it is written in the file.
-/

namespace Sang.Spec

/-- The element's flag `k`: on if it is written `true` (in capitals or not), off if it is written in any other
way, and `usual` if it isn't written at all. -/
def FlagIs (F : Fl) (k : String) (usual : Bool) (b : Bool) (x : Node) : Prop :=
  (x.attrs.get k = none ∧ b = usual) ∨
    ∃ a, x.attrs.get k = some a ∧ (b = true ↔ lower (a.str' F) = "true".toList)

/-- The element has a description, and it is this. -/
def DescribedAs (F : Fl) (s : Str) (x : Node) : Prop := ∃ a, x.attrs.get "desc" = some a ∧ a.str' F = s

/-- The element's version is this number; `usual` is that of elements which don't say. -/
def VersionIs (F : Fl) (usual : Option ℚ) (q : ℚ) (x : Node) : Prop :=
  (x.attrs.get "version" = none ∧ usual = some q) ∨
    ∃ a, x.attrs.get "version" = some a ∧ a.toFloat F = .ok q

end Sang.Spec
