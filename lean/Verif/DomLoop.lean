import Verif.Dom

/-!
# Loops over the children of a group

`group.children` is a generator. It goes through `canvas.contents` backwards while the body of the loop may be changing it: the
iterator that `reversed` makes has a position, which goes down by one each time, and stops if there's nothing at that position.
-/

namespace Sang.Dom

/-- What remains of the loop when the next position is `i - 1`: the generator, `sangfroid/layer/group.py:81-89`, with `reversed` of
a list as CPython has it (`listreviter_next`), and the body of the loop. -/
def loopFrom (c : ℕ) (body : ℕ → Dom → Dom × Res Unit) : ℕ → Dom → Dom × Res Unit
  | 0, h => (h, .ok ())
  | i + 1, h => match (h.kids c)[i]? with
    | none => (h, .ok ())
    | some x =>
      if isLayer (h.bare x) then
        match layerOf (h.bare x) with
        | .error e => (h, .error e)
        | .ok _ => match body x h with
          | (h, .error e) => (h, .error e)
          | (h, .ok ()) => loopFrom c body i h
      else loopFrom c body i h

/-- `for x in group.children: body`, `sangfroid/layer/group.py:75-97`; or `for x in group`, `sangfroid/layer/layer.py:353-354`. -/
def forChildren (k : GKind) (g : ℕ) (body : ℕ → Dom → Dom × Res Unit) (h : Dom) : Dom × Res Unit :=
  match h.canvas k g with
  | .error e => (h, .error e)
  | .ok none => (h, .error .attr)
  | .ok (some c) => loopFrom c body (h.kids c).length h

/-- A layer in a loop over `descendants`: the body of the loop is run for it, and then for each of its children, if it is a group
(`Layer.children` yields nothing). `sangfroid/layer/group.py:87-91`, `sangfroid/layer/layer.py:284-293`. -/
def withInner (body : ℕ → Dom → Dom × Res Unit) (x : ℕ) (h : Dom) : Dom × Res Unit :=
  match layerOf (h.bare x) with
  | .error e => (h, .error e)
  | .ok cl => match body x h with
    | (h, .error e) => (h, .error e)
    | (h, .ok ()) => if cl.isGroup then forChildren .group x body h else (h, .ok ())

/-- `for x in group.descendants: body`, `sangfroid/layer/group.py:75-91,98-102`. -/
def forDescendants (k : GKind) (g : ℕ) (body : ℕ → Dom → Dom × Res Unit) (h : Dom) : Dom × Res Unit :=
  forChildren k g (withInner body) h

end Sang.Dom
