import Verif.DomSearch
import Verif.Compare

/-!
# Searching for one layer at a time
-/

namespace Sang.Dom

/-- The element of `layer.find(...)`, `sangfroid/layer/layer.py:295-313`. -/
def first (F : Fl) (d : Defaults) (a : FindArgs) (recursive : Bool) (z : ℕ) (h : Dom) : Res (Option ℕ) :=
  match h.search F d a recursive z with
  | .error e => .error e
  | .ok l => .ok l.head?

/-- How the end of the loop is noticed: `while (x := layer.find(...)) is not None`, or `while x := layer.find(...)`, which asks for the
truth of the layer, `sangfroid/layer/layer.py:395-396`. -/
inductive Until where
  | none
  | false

/-- Whether the loop goes on with a layer. -/
def Until.goes : Until → ℕ → Dom → Bool
  | .none, _, _ => true
  | .false, x, h => layerTruth (h.node x)

/-- The loop, with the search `sangfroid/layer/layer.py:295-313` at the beginning of each round: what there is when it has ended, if it
has after so many searches. -/
def untilFound (u : Until) (F : Fl) (d : Defaults) (a : FindArgs) (recursive : Bool) (z : ℕ) (body : ℕ → Dom → Dom × Res Unit) :
    ℕ → Dom → Option (Dom × Res Unit)
  | 0, _ => .none
  | n + 1, h => match h.first F d a recursive z with
    | .error e => some (h, .error e)
    | .ok .none => some (h, .ok ())
    | .ok (some x) =>
      if u.goes x h then
        match body x h with
        | (h, .error e) => some (h, .error e)
        | (h, .ok ()) => untilFound u F d a recursive z body n h
      else some (h, .ok ())

end Sang.Dom
