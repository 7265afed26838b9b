import Verif.Value

/-! # What a layer class is: `sangfroid/field.py`, `sangfroid/layer/layer.py` -/

namespace Sang

/-- The default of a param field, as written in the source. `parts` is a dict for a transformation,
in which a one-element list stands for a plain number; `layers` is `[]`.
`sangfroid/layer/*.py`. -/
inductive Lit where
  | none
  | float (q : ℚ)
  | int (i : ℤ)
  | bool (b : Bool)
  | str (s : String)
  | tuple (l : List ℚ)
  | stops (l : List (ℚ × List ℚ))
  | parts (l : List (String × List ℚ))
  | layers
  deriving DecidableEq

/-- A tuple of floats. -/
def floatTuple (F : Fl) (l : List ℚ) : PV := .tuple (l.map fun q => .float (F.rnd q))

/-- The object which the source text denotes. -/
def Lit.pv (F : Fl) : Lit → PV
  | .none => .none
  | .float q => .float (F.rnd q)
  | .int i => .int i
  | .bool b => .bool b
  | .str s => .str s.toList
  | .tuple l => floatTuple F l
  | .stops l => .stops (l.map fun p => (F.rnd p.1, floatTuple F p.2))
  | .parts l => .dict (l.map fun p => (p.1, match p.2 with
    | [q] => .float (F.rnd q)
    | l => floatTuple F l))
  | .layers => .tuple []

/-- A field of a layer class, `sangfroid/field.py:97-240,361-372`: a `ParamTagField` (or
`ParamArrayField`) with its type and default, one whose type is `BlendMethod`, or a
`NotImplementedField` (`SwitchCanvasField`, `DuplicatesIndexField`). -/
inductive LField where
  | param (c : VCls) (d : Lit)
  | blend (d : ℤ)
  | notImpl
  deriving DecidableEq

/-- A layer class: its name, its `SYNFIG_VERSION` if it sets one, whether it is `Group` (which
overrides `children` and so on), and the fields it adds to those of `Layer`, in order.
`sangfroid/layer/layer.py:23-54`. -/
structure LClass where
  name : String
  version : Option String
  isGroup : Bool
  fields : List (String × LField)
  deriving DecidableEq

end Sang
