import Verif.Xml

/-!
# Specification of layers: where their params are in the file, and where they are in the document

Independent of the model of layers.
-/

namespace Sang.Spec

/-- `p` is a param named `s`, whose value's element is `v`. -/
def Holds (p : Node) (s : Str) (v : Node) : Prop :=
  p.name = "param" ∧ p.attrs.get "name" = some (.str s) ∧ p.tagKids = [v]

/-- Everything about a layer's element except the value of one of its own params: the element's name
and attributes, what comes before and after the param, the param's attributes, and the white space
around the value. -/
structure Slot where
  name : String
  attrs : Attrs
  pre : List Node
  post : List Node
  pattrs : Attrs
  wpre : List Node
  wpost : List Node

/-- The layer's element, with `v` as the value of the param. -/
def Slot.plug (s : Slot) (v : Node) : Node :=
  .tag s.name s.attrs (s.pre ++ .tag "param" s.pattrs (s.wpre ++ v :: s.wpost) :: s.post)

/-- The param is named `f`; there is only text around its value; and nothing before it, at any depth,
is a param of the same name. -/
structure Slot.Ok (s : Slot) (f : Str) : Prop where
  named : s.pattrs.get "name" = some (.str f)
  wpre : ∀ x ∈ s.wpre, x.isTag = false
  wpost : ∀ x ∈ s.wpost, x.isTag = false
  first : ∀ x ∈ Node.nodesIn s.pre, ¬ (x.name = "param" ∧ x.attrs.get "name" = some (.str f))

/-- `Inside root anc x`: `x` is in the document `root`, and the elements around it are `anc`, innermost
first. -/
inductive Inside (root : Node) : List Node → Node → Prop where
  | root : Inside root [] root
  | kid {anc x y} : Inside root anc x → y ∈ x.kids → Inside root (x :: anc) y

end Sang.Spec
