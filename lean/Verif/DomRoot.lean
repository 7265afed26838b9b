import Verif.Dom

/-!
# The animation that an object is in
-/

namespace Sang.Dom

/-- The parents of `x`, nearest first, as many as `n`. -/
def upTo (h : Dom) : ℕ → ℕ → List ℕ
  | 0, _ => []
  | n + 1, x => match h.parent x with
    | none => []
    | some p => p :: h.upTo n p

/-- `x.find_parents()`, as `_canvas_root` has it, `sangfroid/t.py:298`; except for the document itself, which isn't one of the
objects here. -/
def up (h : Dom) (x : ℕ) : List ℕ := h.upTo h.size x

/-- `_canvas_root(x)`, `sangfroid/t.py:297-310`, in memory. `docs` tells which objects are at the top of a document: those are in
the `BeautifulSoup` object, whose name is `[document]`. -/
def rootOf (docs : ℕ → Bool) (h : Dom) (x : ℕ) : Option Attrs :=
  canvasRoot ((h.bare x).name, (h.bare x).attrs)
    ((h.up x).map (fun y => ((h.bare y).name, (h.bare y).attrs)) ++
      if docs ((h.up x).getLastD x) then [("[document]", [])] else [])

end Sang.Dom
