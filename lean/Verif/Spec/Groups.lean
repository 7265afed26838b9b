import Verif.Xml

/-!
# Specification of groups: where their layers are in the file

Independent of the model of layers and groups.
-/

namespace Sang.Spec

/-- A `<layer>` element. -/
def isLayerElt : Node → Bool
  | .text _ => false
  | .tag n _ _ => n = "layer"

/-- The layers directly in a list of nodes, in file order. -/
def layersIn (ks : List Node) : List Node := ks.filter isLayerElt

mutual
/-- All the layers in a node, itself included, in document order. -/
def allLayers : Node → List Node
  | .text _ => []
  | .tag n a ks => (if n = "layer" then [.tag n a ks] else []) ++ allLayersIn ks

/-- All the layers in a list of nodes, in document order. -/
def allLayersIn : List Node → List Node
  | [] => []
  | x :: r => allLayers x ++ allLayersIn r
end

/-- All the layers strictly below an element, at any depth. -/
def layersBelow (n : Node) : List Node := allLayersIn n.kids

/-- Everything about a group's element except what is in its canvas: the element's name and
attributes, what comes before and after the param that holds the canvas, that param's attributes, what
surrounds the canvas in it, and the canvas's attributes. -/
structure Frame where
  name : String
  attrs : Attrs
  pre : List Node
  post : List Node
  pattrs : Attrs
  ppre : List Node
  ppost : List Node
  cattrs : Attrs

/-- The group's element, with `ks` in its canvas. -/
def Frame.plug (f : Frame) (ks : List Node) : Node :=
  .tag f.name f.attrs (f.pre ++
    .tag "param" f.pattrs (f.ppre ++ .tag "canvas" f.cattrs ks :: f.ppost) :: f.post)

/-- The param is named "canvas", and nothing earlier in the element could be mistaken for it: there is
no other such param before it, and no other canvas before the canvas. -/
structure Frame.Ok (f : Frame) : Prop where
  named : f.pattrs.get "name" = some (.str "canvas".toList)
  first : ∀ x ∈ Node.nodesIn f.pre, ¬ (x.name = "param" ∧
    x.attrs.get "name" = some (.str "canvas".toList))
  canvas : ∀ x ∈ Node.nodesIn f.ppre, x.name ≠ "canvas"

/-- A thing that holds layers: a group, or an animation (whose layers are directly in its element). -/
inductive Holder where
  | group (f : Frame)
  | animation (name : String) (attrs : Attrs)

/-- Its element, with `ks` in the canvas. -/
def Holder.plug : Holder → List Node → Node
  | .group f, ks => f.plug ks
  | .animation n a, ks => .tag n a ks

/-- It is as a group should be. -/
def Holder.Ok : Holder → Prop
  | .group f => f.Ok
  | .animation _ _ => True

/-- It has no layers other than those in the canvas. -/
def Holder.NoLayersOutside : Holder → Prop
  | .group f => allLayersIn f.pre = [] ∧ allLayersIn f.post = [] ∧ allLayersIn f.ppre = [] ∧
      allLayersIn f.ppost = []
  | .animation _ _ => True

/-- Where Python's `l[i]` and `l.insert(i, x)` look: `i`, counted from the end if negative. -/
def position (len : ℕ) (i : ℤ) : ℤ := if i < 0 then len + i else i

end Sang.Spec
