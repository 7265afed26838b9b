import Verif.DomRoot

/-!
# The layers around a layer in memory
-/

namespace Sang.Dom

/-- `layer.parent`, `sangfroid/layer/layer.py:66-73`: the element whose layer it gives. -/
def parentAt (h : Dom) (x : ℕ) : Res (Option ℕ) :=
  match (h.up x).find? fun y => (h.bare y).name = "layer" with
  | none => .ok none
  | some y => match layerOf (h.bare y) with
    | .error e => .error e
    | .ok _ => .ok (some y)

/-- `layer.tag_depth`, `sangfroid/layer/layer.py:120-128`. -/
def depthAt (h : Dom) (x : ℕ) : ℕ := ((h.up x).filter fun y => (h.bare y).name = "layer").length

end Sang.Dom
