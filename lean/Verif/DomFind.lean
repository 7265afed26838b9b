import Verif.Dom

/-!
# Finding layers in memory
-/

namespace Sang.Dom

/-- `tag.find_all('layer')`, which `len(layer)` counts and `layer.find_all` begins with: `sangfroid/layer/layer.py:395-396,415-416`.
The objects, in document order. -/
def findLayers (h : Dom) (z : ℕ) : List ℕ := (h.desc z).filter fun w => isLayer (h.bare w)

/-- A loop over a list that was made before it began: what is done to each thing, until something is raised. -/
def overList (body : ℕ → Dom → Dom × Res Unit) : List ℕ → Dom → Dom × Res Unit
  | [], h => (h, .ok ())
  | x :: r, h => match body x h with
    | (h, .error e) => (h, .error e)
    | (h, .ok ()) => overList body r h

/-- `for x in layer.find_all(True): body`. The list is complete before the loop begins:
`sangfroid/layer/layer.py:216-225,262-282`. A layer of an unknown type is an exception. -/
def forFound (z : ℕ) (body : ℕ → Dom → Dom × Res Unit) (h : Dom) : Dom × Res Unit :=
  match mapRes (fun x => layerOf (h.bare x)) (h.findLayers z) with
  | .error e => (h, .error e)
  | .ok _ => overList body (h.findLayers z) h

end Sang.Dom
