import Verif.DomFind
import Verif.Find

/-!
# Searching for layers in memory
-/

namespace Sang.Dom

/-- The elements of the layers in `layer.find_all(...)`, in the order of the file. `sangfroid/layer/layer.py:130-282`. As
`Sang.findAllLayers`, but it says which elements they are. -/
def search (F : Fl) (d : Defaults) (a : FindArgs) (recursive : Bool) (z : ℕ) (h : Dom) : Res (List ℕ) :=
  match posArg a with
  | .error e => .error e
  | .ok (sp, kw) => match criteria a kw with
    | .error e => .error e
    | .ok ts =>
      match filterRes (fun x => matcher F d sp ts (h.node x))
          ((if recursive then h.desc z else h.kids z).filter fun x => (h.bare x).isTag) with
      | .error e => .error e
      | .ok l => match mapRes (fun x => layerOf (h.bare x)) l with
        | .error e => .error e
        | .ok _ => .ok l

/-- `for x in layer.find_all(...): body`. The list is complete before the loop begins: `sangfroid/layer/layer.py:262-282`. -/
def forSearch (F : Fl) (d : Defaults) (a : FindArgs) (recursive : Bool) (z : ℕ) (body : ℕ → Dom → Dom × Res Unit) (h : Dom) :
    Dom × Res Unit :=
  match h.search F d a recursive z with
  | .error e => (h, .error e)
  | .ok l => overList body l h

end Sang.Dom
