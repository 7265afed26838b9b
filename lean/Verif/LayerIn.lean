import Verif.Find
import Verif.Compare

/-!
# Asking whether a layer is in a group

`layer in group` goes to `Layer.__contains__`, which is meant for the names of parameters, and which hands the
layer to Beautiful Soup as the criterion for the attribute `name`. Beautiful Soup asks whether a criterion is
callable, and a layer is: `__call__` is `find`. So the layer is called with the name of each parameter, and the
parameter is the right one if what comes back is true. (That part of Beautiful Soup is modelled here from its
documentation, "a function": it isn't in /repo.)
-/

namespace Sang

/-- A layer as the criterion for the attribute `name` of a `<param>`: `layer(name)`, which is
`layer.find(name)`, then `bool(…)` of what that gave; see `sangfroid/layer/layer.py:295-315,395-396`. Without
the attribute the layer is called with `None`, which is `TypeError`, `sangfroid/layer/layer.py:194-195`.
Simplification: so is an attribute that isn't text, which no file read gives. -/
def nameSuits (F : Fl) (d : Defaults) (x p : Node) : Res Bool :=
  match p.attrs.get "name" with
  | some (.str s) => match findLayer F d { pos := [.str s] } true x with
    | .error e => .error e
    | .ok none => .ok false
    | .ok (some y) => .ok (layerTruth y.2)
  | _ => .error .type

/-- The first that suits, and the search stops there. -/
def anySuits (f : Node → Res Bool) : List Node → Res Bool
  | [] => .ok false
  | p :: r => match f p with
    | .error e => .error e
    | .ok true => .ok true
    | .ok false => anySuits f r

/-- `x in n` for a layer `x`, `sangfroid/layer/layer.py:113-118`. -/
def layerIn (F : Fl) (d : Defaults) (x n : Node) : Res Bool :=
  anySuits (nameSuits F d x) (n.descTags.filter fun t => t.name = "param")

end Sang
