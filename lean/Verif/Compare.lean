import Verif.Layer

/-!
# Comparing values, their truth, and subscripts: `sangfroid/value/`

What `==`, `bool()` and `len()` do for each class of value, and the subscripts of gradients and
vectors.
-/

namespace Sang

/-! ## Length and truth -/

/-- `len(value)`: for vectors, gradients and transformations, how many parts; otherwise how many
waypoints. `sangfroid/value/value.py:185-186`, `sangfroid/value/vector.py:113-114`,
`sangfroid/value/gradient.py:41-42`, `sangfroid/value/transformation.py:133-137`. -/
def valueLen (F : Fl) (ctx : Ctx) (c : VCls) (n : Node) : Res ℕ :=
  match c with
  | .vector => .ok (vectorDict n).length
  | .gradient => match gradientStops F n with
    | .error e => .error e
    | .ok l => .ok l.length
  | .composite => .ok n.tagKids.length
  | _ => lenTimeline F ctx n

/-- `bool(value)`, as in `if value:`. Only `Bool` has `__bool__`
(`sangfroid/value/simple.py:107-108`); for the others Python uses `__len__`. -/
def valueTruth (F : Fl) (ctx : Ctx) (c : VCls) (n : Node) : Res Bool :=
  match c with
  | .bool => getBool n
  | c => match valueLen F ctx c n with
    | .error e => .error e
    | .ok k => .ok (k ≠ 0)

/-! ## Equality, class by class -/

/-- `try: … except ValueError`, `sangfroid/value/simple.py:65-68`. -/
def catchValue {α : Type} : Res α → Res (Option α)
  | .ok a => .ok (some a)
  | .error .value => .ok none
  | .error e => .error e

/-- `integer == other`, `sangfroid/value/simple.py:61-73`: other things go through `int`. -/
def integerEq (F : Fl) (n : Node) (v : PV) : Res Bool :=
  let other : Res (Option ℤ) := match v with
    | .val .integer _ m => match getInt m with
      | .error e => .error e
      | .ok i => .ok (some i)
    | v => catchValue (v.toInt F)
  match other with
  | .error e => .error e
  | .ok b => match getInt n with
    | .error e => .error e
    | .ok a => .ok (b = some a)

/-- `bool == other`, `sangfroid/value/simple.py:61-73`: other things go through `bool`. -/
def boolEq (F : Fl) (n : Node) (v : PV) : Res Bool :=
  match v.toBool F with
  | .error e => .error e
  | .ok b => match getBool n with
    | .error e => .error e
    | .ok a => .ok (a = b)

/-- `angle == other`, `sangfroid/value/simple.py:61-73`: other things go through `float`. -/
def angleEq (F : Fl) (n : Node) (v : PV) : Res Bool :=
  let other : Res (Option ℚ) := match v with
    | .val .angle _ m => match getFloat F m with
      | .error e => .error e
      | .ok i => .ok (some i)
    | v => catchValue (v.toFloat F)
  match other with
  | .error e => .error e
  | .ok b => match getFloat F n with
    | .error e => .error e
    | .ok a => .ok (b = some a)

/-- The right-hand side of a comparison with a `T`, `sangfroid/t.py:226-240`. -/
def PV.toTOther : PV → TOther
  | .t v => .t v
  | .float q => .num q
  | .int i => .num i
  | .bool b => .num (if b then 1 else 0)
  | _ => .other

/-- `time == other`, `sangfroid/value/simple.py:61-73`: other things go through `T`, without a
ref; what `T` refuses is compared with as it is. -/
def timeEq (F : Fl) (root : Option Attrs) (n : Node) (v : PV) : Res Bool :=
  let other : Res TOther := match v with
    | .val .time r m => match getTime F r m with
      | .error e => .error e
      | .ok t => .ok (.t t)
    | v => match T.new F none (v.toTArg F) with
      | .ok t => .ok (.t t)
      | .error .value => .ok v.toTOther
      | .error e => .error e
  match other with
  | .error e => .error e
  | .ok b => match getTime F root n with
    | .error e => .error e
    | .ok a => a.eq b

/-- `string == other`: `Value.__eq__`, `sangfroid/value/value.py:233-237`. (A colour's `.value` is
text too.) -/
def stringEq (F : Fl) (n : Node) (v : PV) : Res Bool :=
  match v with
  | .str s => .ok (getString n = s)
  | .val c r m => match getValue F r c m with
    | .error e => .error e
    | .ok (.str s) => .ok (getString n = s)
    | .ok _ => .ok false
  | _ => .ok false

/-- The number a Python object compares as, if it is a number. -/
def PV.number? : PV → Option ℚ
  | .float q => some q
  | .int i => some i
  | .bool b => some (if b then 1 else 0)
  | _ => Option.none

/-- `tuple == tuple`, with numbers on the left. Items which are value objects or times (whose own
`__eq__` is asked) are not modelled. -/
def tupleEq : List ℚ → List PV → Bool
  | [], [] => true
  | q :: r, v :: s => v.number? = some q && tupleEq r s
  | _, _ => false

/-- `color == other` for a tuple, `sangfroid/value/color.py:39-42`. -/
def colorEqTuple (F : Fl) (n : Node) (l : List PV) : Res Bool :=
  match colorTuple F n with
  | .error e => .error e
  | .ok cs => .ok (tupleEq cs (if l.length = 3 then l ++ [.float 1] else l))

/-- `color == other`, `sangfroid/value/color.py:28-44`. -/
def colorEqAny (F : Fl) (n : Node) : PV → Res Bool
  | .val .color _ m => colorEq F n m
  | .str s => colorEqStr F n s
  | .tuple l => colorEqTuple F n l
  | _ => .ok false

/-- `list(vector)`: the coordinates in the order of the file. An animated vector has `None` for
values, over which it can't iterate. `sangfroid/value/vector.py:105-108,137-139`. -/
def vectorIter (F : Fl) (n : Node) : Res (List ℚ) :=
  if n.name = "animated" then .error .type
  else mapRes (fun p => floatOpt F p.2) (vectorDict n)

/-- `vector == other` for a tuple, `sangfroid/value/vector.py:128-135`. (The
values are converted one by one as they are compared, but all of them are.) -/
def vectorEqTuple (F : Fl) (n : Node) (l : List PV) : Res Bool :=
  if l.length ≠ (vectorDict n).length then .ok false
  else match vectorIter F n with
    | .error e => .error e
    | .ok a => .ok (tupleEq a l)

/-- `vector == other` for another vector, `sangfroid/value/vector.py:128-135`. -/
def vectorEq (F : Fl) (n m : Node) : Res Bool :=
  if (vectorDict m).length ≠ (vectorDict n).length then .ok false
  else match vectorIter F n with
    | .error e => .error e
    | .ok a => match vectorIter F m with
      | .error e => .error e
      | .ok b => .ok (a = b)

/-- `vector == other`, `sangfroid/value/vector.py:128-135`. Text is compared letter by letter, and dicts by
their keys. Values of other classes are not modelled; things without a length are unequal. -/
def vectorEqAny (F : Fl) (n : Node) : PV → Res Bool
  | .val .vector _ m => vectorEq F n m
  | .tuple l => vectorEqTuple F n l
  | .str s => vectorEqTuple F n (s.map fun c => .str [c])
  | .dict l => vectorEqTuple F n (l.map fun p => .str p.1.toList)
  | .stops l => vectorEqTuple F n (l.map fun p => .float p.1)
  | .none => .ok false
  | .float _ => .ok false
  | .int _ => .ok false
  | .bool _ => .ok false
  | .t _ => .ok false
  | _ => .error .unmodelled

/-- Every stop of the one is a stop of the other with an equal colour. Simplification: of two value objects it is always
this one's colour that is asked. -/
def stopsEq (F : Fl) : List (ℚ × Node) → List (ℚ × PV) → Res Bool
  | [], _ => .ok true
  | (p, c) :: r, m => match m.lookup p with
    | none => .ok false
    | some v => match colorEqAny F c v with
      | .error e => .error e
      | .ok false => .ok false
      | .ok true => stopsEq F r m

/-- `gradient == other`: `Value.__eq__`, comparing dicts. `sangfroid/value/value.py:233-237`,
`sangfroid/value/gradient.py:7-17`. -/
def gradientEq (F : Fl) (n : Node) (v : PV) : Res Bool :=
  match gradientStops F n with
  | .error e => .error e
  | .ok a =>
    let stops : Res (Option (List (ℚ × PV))) := match v with
      | .stops l => .ok (some l)
      | .dict _ => .error .unmodelled
      | .val c r m => match getValue F r c m with
        | .error e => .error e
        | .ok (.stops l) => .ok (some l)
        | .ok _ => .ok none
      | _ => .ok none
    match stops with
    | .error e => .error e
    | .ok none => .ok false
    | .ok (some l) => if a.length ≠ l.length then .ok false else stopsEq F a l

/-- `canvas == other`: `Value.__eq__` on lists of layers. Each list is of new `Layer` objects, which
are equal only if they are the same object, so two lists are equal only if both are empty.
`sangfroid/value/value.py:233-237`, `sangfroid/value/canvas.py:6-22`. -/
def canvasEq (F : Fl) (n : Node) (v : PV) : Res Bool :=
  match canvasLayers n with
  | .error e => .error e
  | .ok a => match v with
    | .val .canvas _ m => match canvasLayers m with
      | .error e => .error e
      | .ok b => .ok (a.isEmpty && b.isEmpty)
    | .val c r m => match getValue F r c m with
      | .error e => .error e
      | .ok _ => .ok false
    | _ => .ok false

/-- `value == other` for every class but transformations. -/
def plainEq (F : Fl) (root : Option Attrs) (c : VCls) (n : Node) (v : PV) : Res Bool :=
  match c with
  | .real => realEq F n v
  | .integer => integerEq F n v
  | .bool => boolEq F n v
  | .angle => angleEq F n v
  | .time => timeEq F root n v
  | .string => stringEq F n v
  | .color => colorEqAny F n v
  | .vector => vectorEqAny F n v
  | .gradient => gradientEq F n v
  | .canvas => canvasEq F n v
  | .composite => .error .unmodelled
  | .tbd _ => .error .notImpl

/-- `other[key]` for a dict or transformation, `sangfroid/value/transformation.py:148`. -/
def partOf (v : PV) (key : String) : Res PV :=
  match v with
  | .dict l => match l.lookup key with
    | none => .error .key
    | some v => .ok v
  | .val .composite r m => match compositeGet m key with
    | .error e => .error e
    | .ok (c, v) => .ok (.val c r v)
  | _ => .error .unmodelled

/-- `other[key]==value`: the left-hand side is asked if it is a value object, else the right-hand
side is. A transformation inside a transformation is not modelled.
`sangfroid/value/transformation.py:148`. -/
def partEq (F : Fl) (root : Option Attrs) (a : PV) (c : VCls) (v : Node) : Res Bool :=
  match a with
  | .val c' r m => plainEq F r c' m (.val c root v)
  | a => plainEq F root c v a

/-- The loop, `sangfroid/value/transformation.py:147-151`. -/
def partsEq (F : Fl) (root : Option Attrs) (x : PV) : List (String × VCls × Node) → Res Bool
  | [] => .ok true
  | (k, c, v) :: r => match partOf x k with
    | .error e => .error e
    | .ok a => match partEq F root a c v with
      | .error e => .error e
      | .ok false => .ok false
      | .ok true => partsEq F root x r

/-- `transformation == other`, `sangfroid/value/transformation.py:139-151`. Only dicts and other
transformations are modelled among the things with `items`. -/
def compositeEq (F : Fl) (root : Option Attrs) (n : Node) (v : PV) : Res Bool :=
  let len : Option ℕ := match v with
    | .dict l => some l.length
    | .val .composite _ m => some m.tagKids.length
    | _ => none
  match v, len with
  | .val .vector _ _, _ => .error .unmodelled
  | .val .gradient _ _, _ => .error .unmodelled
  | .stops _, _ => .error .unmodelled
  | _, none => .ok false
  | _, some k =>
    if k ≠ n.tagKids.length then .ok false
    else match compositeDict n with
      | .error e => .error e
      | .ok d => partsEq F root v d

/-- `value == other`, for each class. -/
def valueEq (F : Fl) (root : Option Attrs) (c : VCls) (n : Node) (v : PV) : Res Bool :=
  match c with
  | .composite => compositeEq F root n v
  | c => plainEq F root c n v

/-! ## Subscripts -/

/-- `gradient[pos]`, `sangfroid/value/gradient.py:44-45`: the element of the colour there. -/
def gradientGet (F : Fl) (n : Node) (pos : ℚ) : Res Node :=
  match gradientStops F n with
  | .error e => .error e
  | .ok l => match l.lookup pos with
    | none => .error .key
    | some c => .ok c

/-- `gradient[pos] = colour`, `sangfroid/value/gradient.py:47-50`. -/
def gradientSet (F : Fl) (pos : ℚ) (v : PV) (n : Node) : Node × Res Unit :=
  match gradientStops F n with
  | .error e => (n, .error e)
  | .ok l =>
    setGradient F (.stops (dictSet pos v (l.map fun p => (p.1, .val .color none p.2)))) n

/-- `vector.keys()`, `sangfroid/value/vector.py:102-103`. -/
def vectorKeys (n : Node) : List String := sortNames ((vectorDict n).map Prod.fst)

/-- `vector[i]` for an `int`: the i-th key, as in a list. `sangfroid/value/vector.py:75-96`. -/
def vectorIndex (F : Fl) (n : Node) (i : ℤ) : Res ℚ :=
  match pyIndex (vectorKeys n) i with
  | .error e => .error e
  | .ok k => vectorGet F n k

/-! ## Layers -/

/-- `bool(layer)`, as in `if animation.find(…):`. `Layer` has no `__bool__`, so Python uses
`__len__`, `sangfroid/layer/layer.py:395-396`. -/
def layerTruth (n : Node) : Bool := layerLen n ≠ 0

end Sang
