import Verif.Xml
import Mathlib.Data.List.Sort

/-!
# Values: `sangfroid/value/`

Each value class wraps one element. A getter reads the element; a setter rewrites it and may
raise, so it returns the element it leaves behind together with the outcome. Values in
waypoints and timelines are in `Verif.Timeline`.
-/

namespace Sang

/-! ## Classes -/

/-- The value classes that can come out of the registry, `sangfroid/value/*.py`. `vector` is
`X_Y`, `composite` is `Transformation`; `tbd` is the classes of `sangfroid/value/tbd.py`. -/
inductive VCls where
  | real | integer | bool | angle | time | string | color | vector | gradient | composite
  | canvas | tbd (name : String)
  deriving DecidableEq, Repr

/-- `Value.handles_type` after importing `sangfroid.value`, `sangfroid/value/__init__.py:11-21`
and the decorators in each module. -/
def valueRegistry : Registry VCls :=
  [("Real", VCls.real), ("Integer", .integer), ("Bool", .bool), ("Angle", .angle), ("Time", .time),
   ("Canvas", .canvas), ("Color", .color), ("Vector", .vector), ("Gradient", .gradient),
   ("String", .string), ("Dynamic_List", .tbd "dynamic_list"), ("Static_List", .tbd "static_list"),
   ("Wplist", .tbd "wplist"), ("Dilist", .tbd "dilist"), ("Bline", .tbd "bline"),
   ("Tone", .tbd "tone"), ("Composite", .composite)].foldl
    (fun r x => r.register none x.1.toList x.2) []

/-- `_get_empty_tag()` for each class, `sangfroid/value/value.py:25-29,248-250`,
`sangfroid/value/vector.py:141-142`, `sangfroid/value/transformation.py:18-22`. -/
def emptyTag : VCls → Node
  | .real => .new "real"
  | .integer => .new "integer"
  | .bool => .new "bool"
  | .angle => .new "angle"
  | .time => .new "time"
  | .string => .new "string"
  | .color => .new "color"
  | .vector => .new "vector"
  | .gradient => .new "gradient"
  | .composite => .tag "composite" [("type", .str "transformation".toList)] []
  | .canvas => .new "canvas"
  | .tbd s => .new s

/-- `tag['k']` when the attribute must be text: `KeyError` if absent. Anything but text in these
attributes is not modelled. -/
def strAttr (n : Node) (k : String) : Res Str :=
  match n.attrs.get k with
  | none => .error .key
  | some (.str s) => .ok s
  | some _ => .error .unmodelled

/-- The names of the direct children. -/
def kidNames (n : Node) : List String := n.tagKids.map Node.name

/-- `fields=={'x','y'}` where `fields` is the set of names, `sangfroid/value/vector.py:166-171`. -/
def isXY (fields : List String) : Bool :=
  fields.all (fun s => s == "x" || s == "y") && fields.contains "x" && fields.contains "y"

/-- `Vector._construct_from`, `sangfroid/value/vector.py:144-181`: the element whose fields must
be x and y is the tag itself or, if animated, the first waypoint's value. `first_child_tag` of a
waypoint with no value is `None`, whose `.children` raises `AttributeError`. -/
def vectorCheck (n : Node) : Res Unit :=
  if n.name = "animated" then
    match n.tagKids with
    | [] => .ok ()
    | w :: _ =>
      match w.tagKids with
      | [] => .error .attr
      | v :: _ => if isXY (kidNames v) then .ok () else .error .type
  else if isXY (kidNames n) then .ok () else .error .type

/-- `Composite._construct_from`, `sangfroid/value/transformation.py:170-187`. -/
def compositeCheck (n : Node) : Res Unit :=
  match strAttr n "type" with
  | .error e => .error e
  | .ok s => if lower s = "transformation".toList then .ok () else .error .key

/-- `Value.from_tag(tag)`: which class, or why not. `sangfroid/value/value.py:258-278`. -/
def fromTag (n : Node) : Res VCls :=
  let typeName : Res Str := if n.name = "animated" then strAttr n "type" else .ok n.name.toList
  match typeName with
  | .error e => .error e
  | .ok s =>
    match valueRegistry.fromName s with
    | .error e => .error e
    | .ok .vector =>
      match vectorCheck n with
      | .error e => .error e
      | .ok () => .ok .vector
    | .ok .composite =>
      match compositeCheck n with
      | .error e => .error e
      | .ok () => .ok .composite
    | .ok c => .ok c

/-! ## Python objects that can be assigned -/

/-- What a caller may pass to a value's constructor or setter. `val` is a value object: its
class, the root of the animation it is in, and its element. `stops` is a dict with numbers for
keys. `other` is, in a list given to a canvas, a layer; elsewhere an object that can't be converted to anything,
and has no length and no items. -/
inductive PV where
  | none
  | float (q : ℚ)
  | int (i : ℤ)
  | bool (b : Bool)
  | str (s : Str)
  | t (v : T)
  | tuple (l : List PV)
  | dict (l : List (String × PV))
  | stops (l : List (ℚ × PV))
  | val (c : VCls) (root : Option Attrs) (n : Node)
  | other

/-! ## Getters -/

/-- The text of a `Simple` value, `sangfroid/value/simple.py:16-22`. -/
def simpleText (n : Node) : Res Str :=
  match n.attrs.get "value" with
  | none => .error .value
  | some (.str s) => .ok s
  | some _ => .error .assertion

/-- `Real.value` and `Angle.value`, `sangfroid/value/simple.py:11-29,82-84,126-128`. -/
def getFloat (F : Fl) (n : Node) : Res ℚ :=
  match simpleText n with
  | .error e => .error e
  | .ok s => pyFloat F s

/-- `Integer.value`, `sangfroid/value/simple.py:11-29,96-98`. -/
def getInt (n : Node) : Res ℤ :=
  match simpleText n with
  | .error e => .error e
  | .ok s => pyInt s

/-- `Bool.value`, `sangfroid/value/simple.py:110-120`. -/
def getBool (n : Node) : Res Bool :=
  match simpleText n with
  | .error e => .error e
  | .ok s => .ok (lower s = "true".toList)

/-- `Time.value`, `sangfroid/value/simple.py:147-151`. -/
def getTime (F : Fl) (root : Option Attrs) (n : Node) : Res T :=
  match simpleText n with
  | .error e => .error e
  | .ok s => T.new F root (.str s)

/-- `String.value`, `sangfroid/value/string.py:9-12`: `str(None)` if there is no single string. -/
def getString (n : Node) : Str :=
  match n.string? with
  | none => "None".toList
  | some s => s

/-- `float(tag.string)`: `float(None)` raises `TypeError`. `sangfroid/value/color.py:13,23`. -/
def floatString (F : Fl) (n : Node) : Res ℚ :=
  match n.string? with
  | none => .error .type
  | some s => pyFloat F s

/-- `mapM` for `Res`, written out: the first error wins. -/
def mapRes {α β : Type} (f : α → Res β) : List α → Res (List β)
  | [] => .ok []
  | x :: r =>
    match f x with
    | .error e => .error e
    | .ok y =>
      match mapRes f r with
      | .error e => .error e
      | .ok ys => .ok (y :: ys)

/-- One component, `float(self._tag(dimension)[0].string)`, `sangfroid/value/color.py:13,23`. -/
def colorComponent (F : Fl) (n : Node) (dim : String) : Res ℚ :=
  match n.find dim with
  | none => .error .index
  | some d => floatString F d

/-- `RGBA`, `sangfroid/value/color.py:4`. -/
def rgba : List String := ["r", "g", "b", "a"]

/-- `Color.as_tuple`, `sangfroid/value/color.py:21-26`. -/
def colorTuple (F : Fl) (n : Node) : Res (List ℚ) := mapRes (colorComponent F n) rgba

/-- A hexadecimal digit, lower case. -/
def hexC (d : ℕ) : Char := if d < 10 then Char.ofNat (48 + d) else Char.ofNat (87 + d)

/-- Digits of `n` in base 16, least significant first; the first argument bounds the work. -/
def hexRev : ℕ → ℕ → Str
  | 0, _ => []
  | k + 1, n => if n < 16 then [hexC n] else hexC (n % 16) :: hexRev k (n / 16)

/-- `'%02x' % i`, `sangfroid/value/color.py:12-13`. -/
def hex2 (i : ℤ) : Str :=
  let ds := (hexRev (i.natAbs + 1) i.natAbs).reverse
  if i < 0 then '-' :: ds else if ds.length < 2 then '0' :: ds else ds

/-- `result.endswith('ff')` and `result[:-2]`, `sangfroid/value/color.py:17-18`. -/
def dropFF (s : Str) : Str :=
  if ("ff".toList).isSuffixOf s then s.dropLast.dropLast else s

/-- The hex text of a colour, from its components. `sangfroid/value/color.py:11-19`. -/
def hexOf (F : Fl) (cs : List ℚ) : Str :=
  dropFF ('#' :: (cs.map fun x => hex2 (rhe (F.rnd (x * 255)))).flatten)

/-- `Color.value`, `sangfroid/value/color.py:9-19`. -/
def colorHex (F : Fl) (n : Node) : Res Str :=
  match colorTuple F n with
  | .error e => .error e
  | .ok cs => .ok (hexOf F cs)

/-- `Vector.value`: a dict from the names of the children to their strings (or `None`).
`sangfroid/value/vector.py:15-22`. Later children with the same name win. -/
def vectorDict (n : Node) : List (String × Option Str) :=
  n.tagKids.foldl (fun d x => dictSet x.name x.string? d) []

/-- `float(v)` where `v` is a string or `None`. -/
def floatOpt (F : Fl) : Option Str → Res ℚ
  | none => .error .type
  | some s => pyFloat F s

/-- `sorted(...)` on strings. Simplification: names are compared as Lean strings. -/
def sortNames (l : List String) : List String := l.insertionSort (· ≤ ·)

/-- `Vector.as_tuple`, `sangfroid/value/vector.py:116-120`. -/
def vectorTuple (F : Fl) (n : Node) : Res (List ℚ) :=
  let d := vectorDict n
  mapRes (fun k => floatOpt F ((d.lookup k).getD none)) (sortNames (d.map Prod.fst))

/-- `Vector.items()`, `sangfroid/value/vector.py:110-111`. -/
def vectorItems (F : Fl) (n : Node) : Res (List (String × ℚ)) :=
  mapRes (fun p => match floatOpt F p.2 with
    | .error e => .error e
    | .ok q => .ok (p.1, q)) (vectorDict n)

/-- `vector[key]` for a string key, `sangfroid/value/vector.py:75-96`: the first child with that
name. -/
def vectorGet (F : Fl) (n : Node) (key : String) : Res ℚ :=
  match n.tagKids.filter (fun x => x.name = key) with
  | [] => .error .key
  | x :: _ => floatOpt F x.string?

/-- `vector.x`: `__getattr__`, `sangfroid/value/vector.py:32-40`. It looks at all levels, and at
`.text`. -/
def vectorAttr (F : Fl) (n : Node) (f : String) : Res ℚ :=
  if f.toList.head? = some '_' then .error .attr
  else match n.find f with
    | none => .error .attr
    | some x => pyFloat F x.allText

/-- `(float(c['pos']), Color(c))`, `sangfroid/value/gradient.py:13-15`. -/
def stopOf (F : Fl) (c : Node) : Res (ℚ × Node) :=
  match c.attrs.get "pos" with
  | none => .error .key
  | some a => match a.toFloat F with
    | .error e => .error e
    | .ok q => .ok (q, c)

/-- `Gradient.value`: positions to colour elements. `sangfroid/value/gradient.py:7-17`. -/
def gradientStops (F : Fl) (n : Node) : Res (List (ℚ × Node)) :=
  let colours := n.findAll "color"
  if colours.length < 2 then .error .value
  else
    match mapRes (stopOf F) colours with
    | .error e => .error e
    | .ok l => .ok (l.foldl (fun d p => dictSet p.1 p.2 d) [])

/-- One field of a composite: its name and the class of its value.
`sangfroid/value/transformation.py:26-43`. -/
def compositeField (n : Node) : Res (String × VCls × Node) :=
  if n.name = "layer" then .error .assertion
  else match n.tagKids with
    | [v] =>
      match fromTag v with
      | .error e => .error e
      | .ok c => .ok (n.name, c, v)
    | _ => .error .value

/-- `REQUIRED_KEYS` of a `Transformation`, `sangfroid/value/transformation.py:190-195`. -/
def requiredKeys : List (String × VCls) :=
  [("offset", .vector), ("angle", .angle), ("skew_angle", .angle), ("scale", .vector)]

/-- Two lists have the same members: equality of `dict.keys()`. -/
def sameKeys (a b : List String) : Bool := a.all b.contains && b.all a.contains

/-- `Composite.value`, `sangfroid/value/transformation.py:24-54`. -/
def compositeDict (n : Node) : Res (List (String × VCls × Node)) :=
  match mapRes compositeField n.tagKids with
  | .error e => .error e
  | .ok l =>
    let d := l.foldl (fun d p => dictSet p.1 p.2 d) []
    if sameKeys (d.map Prod.fst) (requiredKeys.map Prod.fst) then .ok d else .error .assertion

/-- `composite[key]`, `sangfroid/value/transformation.py:88-118`: the class and element of the
value. -/
def compositeGet (n : Node) (key : String) : Res (VCls × Node) :=
  match n.tagKids.filter (fun x => x.name = key) with
  | [] => .error .key
  | [f] =>
    match f.tagKids with
    | [] => .error .key
    | [v] => match fromTag v with
      | .error e => .error e
      | .ok c => .ok (c, v)
    | _ => .error .value
  | _ => .error .value

/-- `Canvas.value`, up to making the layers: `sangfroid/value/canvas.py:6-22`. -/
def canvasLayers (n : Node) : Res (List Node) :=
  if n.tagKids.all (fun x => x.name = "layer") then .ok n.tagKids else .error .value

/-! ## Conversions -/

/-- `float(v)`, `sangfroid/value/simple.py:41,76-77,137-138`. -/
def PV.toFloat (F : Fl) : PV → Res ℚ
  | .float q => .ok q
  | .int i => .ok (F.rnd i)
  | .bool b => .ok (if b then 1 else 0)
  | .str s => pyFloat F s
  | .t v => .ok v.frames
  | .val .real _ n => getFloat F n
  | .val .angle _ n => getFloat F n
  | .val .integer _ n => match getInt n with
    | .error e => .error e
    | .ok i => .ok (F.rnd i)
  | _ => .error .type

/-- `int(v)`, `sangfroid/value/simple.py:41,79-80,100-101`. -/
def PV.toInt (F : Fl) : PV → Res ℤ
  | .float q => .ok (truncQ q)
  | .int i => .ok i
  | .bool b => .ok (if b then 1 else 0)
  | .str s => pyInt s
  | .t v => .ok v.toInt
  | .val .real _ n => match getFloat F n with
    | .error e => .error e
    | .ok q => .ok (truncQ q)
  | .val .integer _ n => getInt n
  | _ => .error .type

/-- `bool(v)`, `sangfroid/value/simple.py:41,107-108`. A value object of a class without
`__bool__` is true if its `__len__` isn't zero (`sangfroid/value/value.py:185-186`; for most
classes, the number of waypoints): only the cases of a static value are modelled. -/
def PV.toBool (F : Fl) : PV → Res Bool
  | .none => .ok false
  | .float q => .ok (q ≠ 0)
  | .int i => .ok (i ≠ 0)
  | .bool b => .ok b
  | .str s => .ok (s ≠ [])
  | .t _ => .ok true
  | .tuple l => .ok (!l.isEmpty)
  | .dict l => .ok (!l.isEmpty)
  | .stops l => .ok (!l.isEmpty)
  | .val .bool _ n => getBool n
  | .val .vector _ n => .ok (!(vectorDict n).isEmpty)
  | .val .composite _ n => .ok (!n.tagKids.isEmpty)
  | .val .gradient _ n => match gradientStops F n with
    | .error e => .error e
    | .ok l => .ok (!l.isEmpty)
  | .val _ _ n => if n.name = "animated" then .error .unmodelled else .ok false
  | .other => .ok true

/-- `v` as the first argument of `T(v)`, `sangfroid/value/simple.py:41`, `sangfroid/t.py:95-98`. Simplification:
whatever `float` raises for a value object is taken for the `TypeError` which becomes `ValueError`. -/
def PV.toTArg (F : Fl) : PV → TArg
  | .str s => .str s
  | .t v => .t v
  | v => match v.toFloat F with
    | .ok q => .num q
    | .error _ => .other

/-- `str(v)`, `sangfroid/value/string.py:16`, `sangfroid/value/value.py:204-211`. Tuples, dicts
and value objects of some classes are not modelled. -/
def PV.toStr (F : Fl) : PV → Res Str
  | .none => .ok "None".toList
  | .float q => .ok (reprF F q)
  | .int i => .ok (intStr i)
  | .bool b => .ok (if b then "True".toList else "False".toList)
  | .str s => .ok s
  | .t v => .ok (v.str F)
  | .val c _ n =>
    if n.name = "animated" then .ok "(animated)".toList
    else match c with
      | .string => .ok (getString n)
      | .color => colorHex F n
      | .integer => match getInt n with
        | .error e => .error e
        | .ok i => .ok (intStr i)
      | .real => match getFloat F n with
        | .error e => .error e
        | .ok q => .ok (reprF F q)
      | _ => .error .unmodelled
  | _ => .error .unmodelled

/-- `v==()`, `sangfroid/value/simple.py:36`, which for a value object calls that class's
`__eq__`: `sangfroid/value/simple.py:61-73`, `sangfroid/value/color.py:39-42`,
`sangfroid/value/vector.py:128-135`, `sangfroid/value/value.py:233-237`,
`sangfroid/value/transformation.py:139-142`. -/
def PV.eqEmptyTuple (F : Fl) : PV → Res Bool
  | .tuple l => .ok l.isEmpty
  -- `float(())` and `int(())` raise TypeError, which isn't caught
  | .val .real _ _ => .error .type
  | .val .integer _ _ => .error .type
  | .val .angle _ _ => .error .type
  -- `bool(())` is False
  | .val .bool _ n => match getBool n with
    | .error e => .error e
    | .ok b => .ok (!b)
  -- `T(())` raises ValueError, which is caught; then `T == ()` is False
  | .val .time root n => match getTime F root n with
    | .error e => .error e
    | .ok _ => .ok false
  | .val .color _ n => match colorTuple F n with
    | .error e => .error e
    | .ok _ => .ok false
  | .val .vector _ n =>
    if (vectorDict n).isEmpty then if n.name = "animated" then .error .type else .ok true
    else .ok false
  | .val .gradient _ n => match gradientStops F n with
    | .error e => .error e
    | .ok _ => .ok false
  | .val .canvas _ n => match canvasLayers n with
    | .error e => .error e
    | .ok _ => .ok false
  | .val (.tbd _) _ _ => .error .notImpl
  | _ => .ok false

/-- `v is None`. -/
def PV.isNone : PV → Bool
  | .none => true
  | _ => false

/-! ## Setters -/

/-- The setter of `Simple`, `sangfroid/value/simple.py:31-55`. `conv` is `our_type(v)` followed by
`_value_to_str`; `dflt` is the text of `our_type()`. Nothing is changed if it raises. -/
def setSimple (F : Fl) (name : String) (dflt : Str) (conv : PV → Res Str) (v : PV) (n : Node) :
    Node × Res Unit :=
  match v.eqEmptyTuple F with
  | .error e => (n, .error e)
  | .ok empty =>
    match (if empty || v.isNone then Except.ok dflt else conv v) with
    | .error e => (n, .error e)
    | .ok s => (((n.setName name).setAttrs [("value", .str s)]).setKids [], .ok ())

/-- `Real._value_to_str(float(v))`, `sangfroid/value/simple.py:92-94`. -/
def realText (F : Fl) (v : PV) : Res Str :=
  match v.toFloat F with
  | .error e => .error e
  | .ok q => .ok (fixed 10 q)

/-- `str(int(v))`, `sangfroid/value/simple.py:57-59,98`. -/
def integerText (F : Fl) (v : PV) : Res Str :=
  match v.toInt F with
  | .error e => .error e
  | .ok i => .ok (intStr i)

/-- `str(b).lower()`. -/
def boolStr (b : Bool) : Str := if b then "true".toList else "false".toList

/-- `str(bool(v)).lower()`, `sangfroid/value/simple.py:122-124`. -/
def boolText (F : Fl) (v : PV) : Res Str :=
  match v.toBool F with
  | .error e => .error e
  | .ok b => .ok (boolStr b)

/-- `str(float(v))`, `sangfroid/value/simple.py:57-59,128`. -/
def angleText (F : Fl) (v : PV) : Res Str :=
  match v.toFloat F with
  | .error e => .error e
  | .ok q => .ok (reprF F q)

/-- `str(T(v))`: there is no ref, `sangfroid/value/simple.py:41,57-59,142`. -/
def timeText (F : Fl) (v : PV) : Res Str :=
  match T.new F none (v.toTArg F) with
  | .error e => .error e
  | .ok t => .ok (t.str F)

/-- `int(s, 16)` for the two-character pieces of a colour, `sangfroid/value/color.py:81`. Python
strips white space and accepts a sign. (Two characters leave no room for an underscore or `0x`
with a digit.) Only ASCII digits are modelled. -/
def hexVal? (c : Char) : Option ℕ :=
  let n := c.toNat
  if 48 ≤ n ∧ n ≤ 57 then some (n - 48)
  else if 97 ≤ n ∧ n ≤ 102 then some (n - 87)
  else if 65 ≤ n ∧ n ≤ 70 then some (n - 55)
  else none

/-- The value of a run of hexadecimal digits. -/
def hexNat? (s : Str) : Option ℕ :=
  s.foldl (fun a c => match a, hexVal? c with
    | some x, some y => some (16 * x + y)
    | _, _ => none) (some 0)

/-- `int(s, 16)`, `sangfroid/value/color.py:81`. -/
def pyHex (s : Str) : Res ℤ :=
  let s := strip s
  let ds := (takeSign s).2
  if s.any (fun c => decide (128 ≤ c.toNat)) then .error .unmodelled
  else if ds = [] then .error .value
  else match hexNat? ds with
    | none => .error .value
    | some x => .ok (if (takeSign s).1 then -(x:ℤ) else x)

/-- `round(x, 6)` on a float: correctly rounded, `sangfroid/value/color.py:81`. -/
def round6 (F : Fl) (x : ℚ) : ℚ := F.rnd ((rhe (x * 10 ^ 6) : ℚ) / 10 ^ 6)

/-- The components from eight hex digits, `sangfroid/value/color.py:80-82`. -/
def hexComponents (F : Fl) (s : Str) : Res (List ℚ) :=
  mapRes (fun i => match pyHex ((s.drop (i * 2)).take 2) with
    | .error e => .error e
    | .ok x => .ok (round6 F (F.rnd ((x:ℚ) / 255)))) [0, 1, 2, 3]

/-- `if v.startswith('#'): v = v[1:]`, `sangfroid/value/color.py:70-71`. -/
def dropHash : Str → Str
  | '#' :: r => r
  | r => r

/-- The components a colour is set to, `sangfroid/value/color.py:55-92`. -/
def colorArg (F : Fl) : PV → Res (List ℚ)
  | .tuple l =>
    if l.length = 0 then .ok [1, 1, 1, 1]
    else if l.length = 3 then mapRes (PV.toFloat F) (l ++ [.float 1])
    else if l.length = 4 then mapRes (PV.toFloat F) l
    else .error .value
  | .str s =>
    let s := dropHash s
    if s.length = 6 then hexComponents F (s ++ "FF".toList)
    else if s.length = 8 then hexComponents F s
    else .error .value
  | .val .color _ n => colorTuple F n
  | _ => .error .value

/-- The element for one component, `sangfroid/value/color.py:99-100`. -/
def componentTag (dim : String) (x : ℚ) : Node := (Node.new dim).setString (fixed 6 x)

/-- `Color`'s setter, `sangfroid/value/color.py:46-101`. Simplification: the message of the `ValueError` has the text of
`v` in it, lines 50-53; that making the text may raise something else, if `v` is a value object that can't be read,
is not modelled. -/
def setColor (F : Fl) (v : PV) (n : Node) : Node × Res Unit :=
  match colorArg F v with
  | .error e => (n, .error e)
  | .ok cs =>
    (((n.setName "color").setAttrs []).setKids (List.zipWith componentTag rgba cs), .ok ())

/-- The text of one coordinate, `sangfroid/value/vector.py:69-72`. -/
def coordText (F : Fl) : PV → Res Str
  | .float q => .ok (fixed 10 q)
  | v => v.toStr F

/-- `isinstance(m, (float, int))`, `sangfroid/value/vector.py:54`. -/
def PV.isNumber : PV → Bool
  | .float _ => true
  | .int _ => true
  | .bool _ => true
  | _ => false

/-- The members a vector is set to, `sangfroid/value/vector.py:45-62`. Anything with `items()`
will do: a dict, or a value object that is a vector (its items are floats), a gradient or a
transformation (not modelled). -/
def vectorArg (F : Fl) : PV → Res (List (String × PV))
  | .none => .ok []
  | .tuple [] => .ok []
  | .tuple [x, y] =>
    if x.isNumber && y.isNumber then .ok [("x", x), ("y", y)] else .error .type
  | .dict l => .ok l
  | .val .vector _ n =>
    match vectorItems F n with
    | .error e => .error e
    | .ok l => .ok (l.map fun p => (p.1, .float p.2))
  | .val .gradient _ _ => .error .unmodelled
  | .val .composite _ _ => .error .unmodelled
  | .stops _ => .error .unmodelled
  | _ => .error .type

/-- The loop that appends the members, `sangfroid/value/vector.py:67-73`. -/
def appendMembers (F : Fl) : List (String × PV) → Node → Node × Res Unit
  | [], n => (n, .ok ())
  | (k, v) :: r, n =>
    match coordText F v with
    | .error e => (n, .error e)
    | .ok s => appendMembers F r (n.append ((Node.new k).setString s))

/-- `Vector`'s setter, `sangfroid/value/vector.py:42-73`. The old children are not removed. -/
def setVector (F : Fl) (v : PV) (n : Node) : Node × Res Unit :=
  match vectorArg F v with
  | .error e => (n, .error e)
  | .ok members => appendMembers F members ((n.setName "vector").setAttrs [])

/-- `C(v)` for a class whose setter is `set`: a new element, set. `sangfroid/value/value.py:12-23`. -/
def construct (c : VCls) (set : Node → Node × Res Unit) : Res Node :=
  match (set (emptyTag c)).2 with
  | .error e => .error e
  | .ok () => .ok (set (emptyTag c)).1

/-- The dict a gradient is set to, `sangfroid/value/gradient.py:20-25`. -/
def gradientArg (F : Fl) : PV → Res (List (ℚ × PV))
  | .stops l => .ok l
  | .val .gradient _ n =>
    match gradientStops F n with
    | .error e => .error e
    | .ok l => .ok (l.map fun p => (p.1, .val .color none p.2))
  | .dict _ => .error .unmodelled
  | _ => .error .type

/-- `sorted(v.items())`; the keys of a dict are distinct, so only they matter.
`sangfroid/value/gradient.py:32`. -/
def sortStops (l : List (ℚ × PV)) : List (ℚ × PV) := l.insertionSort (fun a b => a.1 ≤ b.1)

/-- The loop that appends the stops, `sangfroid/value/gradient.py:32-36`. -/
def appendStops (F : Fl) : List (ℚ × PV) → Node → Node × Res Unit
  | [], n => (n, .ok ())
  | (pos, c) :: r, n =>
    match construct .color (setColor F c) with
    | .error e => (n, .error e)
    | .ok ct => appendStops F r (n.append (ct.setAttr "pos" (.str (fmtG pos))))

/-- `Gradient`'s setter, `sangfroid/value/gradient.py:19-36`. -/
def setGradient (F : Fl) (v : PV) (n : Node) : Node × Res Unit :=
  match gradientArg F v with
  | .error e => (n, .error e)
  | .ok l =>
    if l.length < 2 then (n, .error .value)
    else appendStops F (sortStops l) (n.setKids [])

/-- The dict a transformation is set to, `sangfroid/value/transformation.py:58-61`. Setting it to
a vector or gradient object is not modelled. -/
def compositeArg : PV → Res (List (String × PV))
  | .dict l => .ok l
  | .val .composite root n =>
    match compositeDict n with
    | .error e => .error e
    | .ok l => .ok (l.map fun p => (p.1, .val p.2.1 root p.2.2))
  | .val .vector _ _ => .error .unmodelled
  | .val .gradient _ _ => .error .unmodelled
  | .stops _ => .error .unmodelled
  | _ => .error .type

/-- `Angle(v)` and `X_Y(v)`, `sangfroid/value/transformation.py:73`. -/
def constructPart (F : Fl) (c : VCls) (v : PV) : Res Node :=
  match c with
  | .vector => construct .vector (setVector F v)
  | _ => construct .angle (setSimple F "angle" (reprF F 0) (angleText F) v)

/-- The loop that appends the parts, `sangfroid/value/transformation.py:71-78`. -/
def appendParts (F : Fl) : List (String × PV) → Node → Node × Res Unit
  | [], n => (n, .ok ())
  | (k, v) :: r, n =>
    match requiredKeys.lookup k with
    | none => (n, .error .key)
    | some c =>
      match constructPart F c v with
      | .error e => (n, .error e)
      | .ok t => appendParts F r (n.append (.tag k [] [t, .text ['\n']]))

/-- `Composite`'s setter, `sangfroid/value/transformation.py:56-78`. Keys are checked, then
everything is cleared, then the parts are made one by one. -/
def setComposite (F : Fl) (v : PV) (n : Node) : Node × Res Unit :=
  match compositeArg v with
  | .error e => (n, .error e)
  | .ok l =>
    if l.all (fun p => (requiredKeys.lookup p.1).isSome) then appendParts F l (n.setKids [])
    else (n, .error .key)

/-- `Canvas`'s setter, `sangfroid/value/canvas.py:24-35`: it clears the element, and then can't
append a layer (a `Layer` isn't a page element). What isn't a layer raises `TypeError`, and so does what
has no items to go through; what has none of them is no error. Simplified: a value object given here raises
`TypeError`, also if it has no items. -/
def setCanvas (v : PV) (n : Node) : Node × Res Unit :=
  match v with
  | .tuple [] | .str [] | .dict [] | .stops [] => (n.setKids [], .ok ())
  | .tuple (.other :: _) => (n.setKids [], .error .attr)
  | _ => (n.setKids [], .error .type)

/-- `value.value = v` for each class. The classes of `sangfroid/value/tbd.py` have no setter:
`AttributeError`. -/
def setValue (F : Fl) (c : VCls) (v : PV) (n : Node) : Node × Res Unit :=
  match c with
  | .real => setSimple F "real" (fixed 10 0) (realText F) v n
  | .integer => setSimple F "integer" (intStr 0) (integerText F) v n
  | .bool => setSimple F "bool" (boolStr false) (boolText F) v n
  | .angle => setSimple F "angle" (reprF F 0) (angleText F) v n
  | .time => setSimple F "time" ("0f".toList) (timeText F) v n
  | .string => match v.toStr F with
    | .error e => (n, .error e)
    | .ok s => (n.setString s, .ok ())
  | .color => setColor F v n
  | .vector => setVector F v n
  | .gradient => setGradient F v n
  | .composite => setComposite F v n
  | .canvas => setCanvas v n
  | .tbd _ => (n, .error .attr)

/-- `C(v)`, `sangfroid/value/value.py:12-23`. -/
def newValue (F : Fl) (c : VCls) (v : PV) : Res Node := construct c (setValue F c v)

/-- `value.value` as a Python object, for handing to another value: `sangfroid/value/value.py:59`
(`former_value = self.value`). -/
def getValue (F : Fl) (root : Option Attrs) (c : VCls) (n : Node) : Res PV :=
  match c with
  | .real | .angle => match getFloat F n with
    | .error e => .error e
    | .ok q => .ok (.float q)
  | .integer => match getInt n with
    | .error e => .error e
    | .ok i => .ok (.int i)
  | .bool => match getBool n with
    | .error e => .error e
    | .ok b => .ok (.bool b)
  | .time => match getTime F root n with
    | .error e => .error e
    | .ok t => .ok (.t t)
  | .string => .ok (.str (getString n))
  | .color => match colorHex F n with
    | .error e => .error e
    | .ok s => .ok (.str s)
  | .vector => .ok (.dict ((vectorDict n).map fun p =>
      (p.1, match p.2 with
        | none => .none
        | some s => .str s)))
  | .gradient => match gradientStops F n with
    | .error e => .error e
    | .ok l => .ok (.stops (l.map fun p => (p.1, .val .color root p.2)))
  | .composite => match compositeDict n with
    | .error e => .error e
    | .ok l => .ok (.dict (l.map fun p => (p.1, .val p.2.1 root p.2.2)))
  | .canvas => match canvasLayers n with
    | .error e => .error e
    | .ok l => .ok (.tuple (l.map fun _ => .other))
  | .tbd _ => .error .notImpl

/-! ## Equality -/

/-- `str(color)`, `sangfroid/value/value.py:204-211`. -/
def colorStr (F : Fl) (n : Node) : Res Str :=
  if n.name = "animated" then .ok "(animated)".toList else colorHex F n

/-- `color == other` for another colour, `sangfroid/value/color.py:30-31`. -/
def colorEq (F : Fl) (n m : Node) : Res Bool :=
  match colorHex F n with
  | .error e => .error e
  | .ok a => match colorHex F m with
    | .error e => .error e
    | .ok b => .ok (a = b)

/-- `if not other.startswith('#')`, `sangfroid/value/color.py:34-35`. -/
def addHash : Str → Str
  | '#' :: r => '#' :: r
  | r => '#' :: r

/-- How text is prepared for comparison, `sangfroid/value/color.py:33-37`. -/
def colorText (s : Str) : Str :=
  let s := addHash (lower s)
  if s.length = 9 then dropFF s else s

/-- `color == other` for text, `sangfroid/value/color.py:32-38`. -/
def colorEqStr (F : Fl) (n : Node) (s : Str) : Res Bool :=
  match colorStr F n with
  | .error e => .error e
  | .ok a => .ok (a = colorText s)

/-- `NEAR_AS_DAMMIT`, `sangfroid/value/simple.py:5`. -/
def nearAsDammit (F : Fl) : ℚ := F.rnd (1 / 10000)

/-- `real == other`, given the two numbers: `Real._compare_with`,
`sangfroid/value/simple.py:61-70,86-90`. -/
def realNear (F : Fl) (a b : ℚ) : Bool := |F.rnd (a - b)| ≤ nearAsDammit F

/-- `real == other`, `sangfroid/value/simple.py:61-70,86-90`. Another `Real` is read; anything else
goes through `float`, where a `ValueError` (as from text) means "not equal", but a `TypeError` is
raised. -/
def realEq (F : Fl) (n : Node) (v : PV) : Res Bool :=
  let other : Res (Option ℚ) := match v with
    | .val .real _ m => match getFloat F m with
      | .error e => .error e
      | .ok b => .ok (some b)
    | v => match v.toFloat F with
      | .error .value => .ok none
      | .error e => .error e
      | .ok b => .ok (some b)
  match other with
  | .error e => .error e
  | .ok b => match getFloat F n with
    | .error e => .error e
    | .ok a => match b with
      | none => .ok false
      | some b => .ok (realNear F a b)

end Sang
