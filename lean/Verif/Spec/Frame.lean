import Verif.Spec.Legal
import Verif.Spec.Layers
import Verif.Spec.Program
import Verif.Program

/-!
# Values without layers in them, and changes to values

In a file, only params, keyframes and such have an attribute `name`; nothing in a value has one, unless
the value is a canvas, which holds layers.
-/

namespace Sang.Spec

/-- An element with nothing in it that has an attribute `name`, so with no params and no layers in it. -/
def Nameless (n : Node) : Prop := n.isTag = true ∧ ∀ x ∈ n.subtree, x.attrs.get "name" = none

/-- Arguments such that the value objects in them are without names. -/
inductive NamelessArg : PV → Prop
  | none : NamelessArg .none
  | float (q : ℚ) : NamelessArg (.float q)
  | int (i : ℤ) : NamelessArg (.int i)
  | bool (b : Bool) : NamelessArg (.bool b)
  | t (v : T) : NamelessArg (.t v)
  | other : NamelessArg .other
  | str (s : Str) : NamelessArg (.str s)
  | tuple {l : List PV} (h : ∀ v ∈ l, NamelessArg v) : NamelessArg (.tuple l)
  | dict {l : List (String × PV)} (h : ∀ p ∈ l, NamelessArg p.2) : NamelessArg (.dict l)
  | stops {l : List (ℚ × PV)} (h : ∀ p ∈ l, NamelessArg p.2) : NamelessArg (.stops l)
  | val {c : VCls} {r : Option Attrs} {n : Node} (h : Nameless n) : NamelessArg (.val c r n)

/-- What can be done to a value (see `Change`), with arguments that are without names. -/
def Change.OnValue : Change → Prop
  | .value _ v => NamelessArg v
  | .animated _ _ _ => True
  | .setItem _ _ _ (.wp w) => Nameless w.val
  | .setItem _ _ _ (.py v) => NamelessArg v
  | .delItem _ _ => True
  | .add _ _ ws _ => ∀ w ∈ ws, Nameless w.val
  | .iadd _ _ ws => ∀ w ∈ ws, Nameless w.val
  | .timeline _ (.list ws) => ∀ w ∈ ws, Nameless w.val
  | .timeline _ (.ofValue _ m) => Nameless m
  | .timeline _ _ => True
  | _ => False

/-! ## Things about a layer, and steps which change one of them -/

/-- What can be set about a layer: one of its params, or one of its attributes. -/
inductive Thing where
  | param (f : Str)
  | attr (k : String)

/-- The layer has a param `f` of its own, no param of that name comes before it in the layer, and its value
is without names (so isn't a canvas with layers in it). -/
def Own (f : Str) (n : Node) : Prop := ∃ s v, Slot.Ok s f ∧ Nameless v ∧ n = s.plug v

/-- Statements about a layer. -/
inductive Step where
  /-- `layer[f] = x` -/
  | subscript (f : Str) (x : PV)
  /-- `layer.k = x`, where `k` is a field of the layer's class -/
  | field (k : String) (c : VCls) (d : Lit) (x : PV)
  /-- something done to the value `layer[f]`, which may depend on its class -/
  | value (f : Str) (g : VCls → Change)
  /-- `layer.desc = x` -/
  | desc (x : PV)
  /-- `layer.active = x` -/
  | active (x : PV)
  /-- `layer.exclude_from_rendering = x` -/
  | exclude (x : PV)
  /-- `layer.version = x` -/
  | version (x : PV)

/-- What a statement does: the layer afterwards, and the exception if there is one. -/
def Step.run (F : Fl) : Step → Node → Node × Res Unit
  | .subscript f x => setParam F f x
  | .field k c d x => setField F k (.param c d) x
  | .value f g => onParam f fun c => (g c).run F
  | .desc x => setDesc F x
  | .active x => setActive F x
  | .exclude x => setExclude F x
  | .version x => setVersion F x

/-- What a statement is about. -/
def Step.about : Step → Thing
  | .subscript f _ => .param f
  | .field k _ _ _ => .param k.toList
  | .value f _ => .param f
  | .desc _ => .attr "desc"
  | .active _ => .attr "active"
  | .exclude _ => .attr "exclude_from_rendering"
  | .version _ => .attr "version"

/-- The statement can be about this layer: the param it's about is the layer's own, and what's put there
is without names. -/
def Step.Fits (n : Node) : Step → Prop
  | .subscript f x => Own f n ∧ NamelessArg x
  | .field k _ _ x => Own k.toList n ∧ NamelessArg x
  | .value f g => Own f n ∧ ∀ c, (g c).OnValue
  | _ => n.isTag = true

/-- Running statements one after another, each of which may raise an exception, which the program catches:
the layer afterwards. -/
def runSteps (F : Fl) (steps : List Step) (n : Node) : Node :=
  steps.foldl (fun n s => (s.run F n).1) n

/-- The second layer reads as the first did, in everything but the things which were touched. `d` are the
defaults of the class attributes. -/
structure SameBesides (F : Fl) (touched : Thing → Prop) (n n' : Node) : Prop where
  /-- it is the same kind of element, of the same class -/
  name : n'.name = n.name
  cls : ¬ touched (.attr "type") → layerOf n' = layerOf n
  /-- the same names are `in` it -/
  contains : ∀ g, containsParam g n' = containsParam g n
  /-- `layer[g]` -/
  subscript : ∀ g, ¬ touched (.param g) → getParam g n' = getParam g n
  /-- `layer.k` -/
  field : ∀ k f, ¬ touched (.param k.toList) → getField k f n' = getField k f n
  /-- `layer.children`, for a group -/
  children : ¬ touched (.param "canvas".toList) → children .group n' = children .group n
  desc : ¬ touched (.attr "desc") → getDesc F n' = getDesc F n
  active : ¬ touched (.attr "active") → getActive F n' = getActive F n
  exclude : ¬ touched (.attr "exclude_from_rendering") → getExclude F n' = getExclude F n
  version : ¬ touched (.attr "version") → ∀ d, getVersion F d n' = getVersion F d n
  type : ¬ touched (.attr "type") → ∀ d, getType d n' = getType d n

/-- Two elements are the same but for the order of their own attributes. -/
def Alike (n n' : Node) : Prop :=
  n'.name = n.name ∧ n'.kids = n.kids ∧ ∀ k, n'.attrs.get k = n.attrs.get k

end Sang.Spec
