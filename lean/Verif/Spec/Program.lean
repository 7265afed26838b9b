import Verif.Xml
import Verif.Spec.Groups
import Verif.Spec.Bywords

/-!
# The same document, except in some places

A place is a list of the numbers of the children to go to.
-/

namespace Sang.Spec

/-- What is at a place in a document. -/
def nodeAt : List ℕ → Node → Option Node
  | [], n => some n
  | i :: p, n => match n.kids[i]? with
    | none => none
    | some x => nodeAt p x

/-- What something is, apart from what is in it: a text, or an element's name, attributes and number of
children. -/
inductive Shape where
  | text (s : Str)
  | element (name : String) (attrs : Attrs) (children : ℕ)

/-- What something is, apart from what is in it. -/
def shape : Node → Shape
  | .text s => .text s
  | .tag n a ks => .element n a ks.length

/-- What is at a place, apart from what is in it; `none` if there is nothing. -/
def shapeAt (p : List ℕ) (d : Node) : Option Shape := (nodeAt p d).map shape

/-- Two documents are the same, except in some places. -/
def SameBut (except : List ℕ → Prop) (d e : Node) : Prop :=
  ∀ p, ¬ except p → shapeAt p e = shapeAt p d

/-- A layer of some type, as the file has it. -/
def IsLayer (type : String) (n : Node) : Prop :=
  n.name = "layer" ∧ n.attrs.get "type" = some (.str type.toList)

/-- A parameter of some name, as the file has it. -/
def IsParam (f : String) (n : Node) : Prop :=
  n.name = "param" ∧ n.attrs.get "name" = some (.str f.toList)

/-- At this place is something such as `want` says. -/
def Here (want : Node → Prop) (d : Node) (p : List ℕ) : Prop := ∃ x, nodeAt p d = some x ∧ want x

/-- The place is in the value of a parameter `f` of a layer which is where `at'` says. -/
def InParam (f : String) (at' : List ℕ → Prop) (d : Node) (p : List ℕ) : Prop :=
  ∃ q r i s, p = q ++ r ++ i :: s ∧ at' q ∧ ∃ y, nodeAt (q ++ r) d = some y ∧ IsParam f y

/-- Two places, neither of which is in the other. -/
def NotNested (p q : List ℕ) : Prop := ¬ p <+: q ∧ ¬ q <+: p

end Sang.Spec
