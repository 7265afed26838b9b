import Verif.Value

/-!
# The text of values: `str`, `repr` and `as_python_expression`

`sangfroid/value/value.py:204-247` and the classes that change these methods.
-/

namespace Sang

/-! ## Python's `repr` of text -/

/-- The last `k` hexadecimal digits of `n`. -/
def hexStr : ℕ → ℕ → Str
  | 0, _ => []
  | k + 1, n => hexStr k (n / 16) ++ [hexC (n % 16)]

/-- One character in `repr(s)`. `pr` says which characters outside ASCII are printable
(`str.isprintable`), and is left open. Used by `sangfroid/value/string.py:18-19`,
`sangfroid/value/simple.py:153-159`, `sangfroid/value/vector.py:122-126`. -/
def reprChar (pr : Char → Bool) (quote c : Char) : Str :=
  if c = quote ∨ c = '\\' then ['\\', c]
  else if c = '\t' then ['\\', 't']
  else if c = '\n' then ['\\', 'n']
  else if c = '\r' then ['\\', 'r']
  else if 32 ≤ c.toNat ∧ c.toNat < 127 then [c]
  else if 128 ≤ c.toNat ∧ pr c then [c]
  else if c.toNat < 256 then '\\' :: 'x' :: hexStr 2 c.toNat
  else if c.toNat < 65536 then '\\' :: 'u' :: hexStr 4 c.toNat
  else '\\' :: 'U' :: hexStr 8 c.toNat

/-- The quote `repr(s)` uses: a double quote only if there is a single one and no double one. -/
def reprQuote (s : Str) : Char := if '\'' ∈ s ∧ '"' ∉ s then '"' else '\''

/-- Python's `repr(s)` for text. -/
def pyRepr (pr : Char → Bool) (s : Str) : Str :=
  reprQuote s :: (s.flatMap (reprChar pr (reprQuote s)) ++ [reprQuote s])

/-! ## `str` and `repr` of values -/

/-- The names of the classes, as in `value.__class__.__name__`: `sangfroid/value/*.py`. -/
def valueClassName : VCls → Str
  | .real => "Real".toList
  | .integer => "Integer".toList
  | .bool => "Bool".toList
  | .angle => "Angle".toList
  | .time => "Time".toList
  | .string => "String".toList
  | .color => "Color".toList
  | .vector => "X_Y".toList
  | .gradient => "Gradient".toList
  | .composite => "Transformation".toList
  | .canvas => "Canvas".toList
  | .tbd "dynamic_list" => "Dynamic_List".toList
  | .tbd "static_list" => "Static_List".toList
  | .tbd s => match s.toList with
    | [] => []
    | c :: r => c.toUpper :: r

/-- `str` of a tuple of at least two floats. -/
def tupleStr (F : Fl) (l : List ℚ) : Str := '(' :: (join [',', ' '] (l.map (reprF F)) ++ [')'])

/-- `str` of a dict, given the texts of its keys and values. -/
def dictStr (l : List (Str × Str)) : Str :=
  '{' :: (join [',', ' '] (l.map fun p => p.1 ++ ':' :: ' ' :: p.2) ++ ['}'])

/-- `Vector._str_inner`, `sangfroid/value/vector.py:122-126`. -/
def vectorStr (F : Fl) (pr : Char → Bool) (n : Node) : Res Str :=
  if sortNames ((vectorDict n).map Prod.fst) = ["x", "y"] then
    match vectorTuple F n with
    | .error e => .error e
    | .ok l => .ok (tupleStr F l)
  else .ok (dictStr ((vectorDict n).map fun p => (pyRepr pr p.1.toList, match p.2 with
    | none => "None".toList
    | some s => pyRepr pr s)))

/-- One stop in `str(gradient)`, `sangfroid/value/gradient.py:67`. -/
def stopStr (F : Fl) (p : ℚ × Node) : Res Str :=
  match colorStr F p.2 with
  | .error e => .error e
  | .ok s => .ok (reprF F p.1 ++ ':' :: s)

/-- `Gradient.__str__`, `sangfroid/value/gradient.py:64-68`: it doesn't ask whether the value is
animated. -/
def gradientStr (F : Fl) (n : Node) : Res Str :=
  match gradientStops F n with
  | .error e => .error e
  | .ok l => match mapRes (stopStr F) l with
    | .error e => .error e
    | .ok ps => .ok ('{' :: (join [','] ps ++ ['}']))

/-- `str(value)` for the classes whose values have no other values in them,
`sangfroid/value/value.py:204-211`, `sangfroid/value/simple.py:130-131`. -/
def plainStr (F : Fl) (pr : Char → Bool) (root : Option Attrs) (c : VCls) (n : Node) : Res Str :=
  if c = .gradient then gradientStr F n
  else if n.name = "animated" then .ok "(animated)".toList
  else match c with
    | .real => match getFloat F n with
      | .error e => .error e
      | .ok q => .ok (reprF F q)
    | .integer => match getInt n with
      | .error e => .error e
      | .ok i => .ok (intStr i)
    | .bool => match getBool n with
      | .error e => .error e
      | .ok b => .ok (if b then "True".toList else "False".toList)
    | .angle => match getFloat F n with
      | .error e => .error e
      | .ok q => .ok (fmtG q ++ ['°'])
    | .time => match getTime F root n with
      | .error e => .error e
      | .ok t => .ok (t.str F)
    | .string => .ok (getString n)
    | .color => colorHex F n
    | .vector => vectorStr F pr n
    | .tbd _ => .error .notImpl
    | _ => .error .unmodelled

/-- `repr(value)`, given its text: `sangfroid/value/value.py:213-214`. -/
def reprOf (c : VCls) (s : Str) : Str := '[' :: (valueClassName c ++ ' ' :: (s ++ [']']))

/-- One part in `str(transformation)`: the key and the `repr` of the value. -/
def partStr (F : Fl) (pr : Char → Bool) (root : Option Attrs) (p : String × VCls × Node) :
    Res (Str × Str) :=
  match plainStr F pr root p.2.1 p.2.2 with
  | .error e => .error e
  | .ok s => .ok (pyRepr pr p.1.toList, reprOf p.2.1 s)

/-- `str(value)`, `sangfroid/value/value.py:204-211`. Not modelled: a canvas, whose text is made of
its layers', and a transformation inside a transformation. -/
def valueStr (F : Fl) (pr : Char → Bool) (root : Option Attrs) (c : VCls) (n : Node) : Res Str :=
  if c = .composite ∧ n.name ≠ "animated" then
    match compositeDict n with
    | .error e => .error e
    | .ok l => match mapRes (partStr F pr root) l with
      | .error e => .error e
      | .ok ps => .ok (dictStr ps)
  else plainStr F pr root c n

/-- `repr(value)`, `sangfroid/value/value.py:213-214`. -/
def valueRepr (F : Fl) (pr : Char → Bool) (root : Option Attrs) (c : VCls) (n : Node) : Res Str :=
  match valueStr F pr root c n with
  | .error e => .error e
  | .ok s => .ok (reprOf c s)

/-! ## `as_python_expression` -/

/-- `Color.as_python_expression`, as text: `sangfroid/value/color.py:103-104`. It gives a tuple; its
users put it into text (`sangfroid/template/__main__.py:171-175`, `sangfroid/value/gradient.py:73`).
-/
def colorExpr (F : Fl) (n : Node) : Res Str :=
  match colorTuple F n with
  | .error e => .error e
  | .ok l => .ok (tupleStr F l)

/-- One stop in `gradient.as_python_expression()`, `sangfroid/value/gradient.py:73-74`. -/
def stopExpr (F : Fl) (p : ℚ × Node) : Res Str :=
  match colorExpr F p.2 with
  | .error e => .error e
  | .ok s => .ok (reprF F p.1 ++ ':' :: s)

/-- `Gradient.as_python_expression`, `sangfroid/value/gradient.py:70-75`. -/
def gradientExpr (F : Fl) (n : Node) : Res Str :=
  match gradientStops F n with
  | .error e => .error e
  | .ok l => match mapRes (stopExpr F) l with
    | .error e => .error e
    | .ok ps => .ok ('{' :: (join [','] ps ++ ['}']))

/-- `Time.as_python_expression`, `sangfroid/value/simple.py:153-159`. -/
def timeExpr (F : Fl) (pr : Char → Bool) (root : Option Attrs) (n : Node) : Res Str :=
  match getTime F root n with
  | .error e => .error e
  | .ok t => .ok (if t.frames = 0 then ['0'] else pyRepr pr (t.str F))

/-- `value.as_python_expression()` for the classes whose values have no other values in them:
`sangfroid/value/value.py:239-246`, `sangfroid/value/simple.py:133-135`,
`sangfroid/value/string.py:18-19`. -/
def plainExpr (F : Fl) (pr : Char → Bool) (root : Option Attrs) (c : VCls) (n : Node) : Res Str :=
  match c with
  | .angle => match getFloat F n with
    | .error e => .error e
    | .ok q => .ok (reprF F q)
  | .time => timeExpr F pr root n
  | .string => .ok (pyRepr pr (getString n))
  | .color => colorExpr F n
  | .gradient => gradientExpr F n
  | c => plainStr F pr root c n

/-- `'%40s' % s`: spaces on the left up to a width. -/
def padLeft (k : ℕ) (s : Str) : Str := List.replicate (k - s.length) ' ' ++ s

/-- One line of `transformation.as_python_expression()`, `sangfroid/value/transformation.py:157-161`.
-/
def partExpr (F : Fl) (pr : Char → Bool) (root : Option Attrs) (p : String × VCls × Node) : Res Str :=
  match plainExpr F pr root p.2.1 p.2.2 with
  | .error e => .error e
  | .ok s => .ok (List.replicate 5 ' ' ++ (padLeft 40 (pyRepr pr p.1.toList) ++
      (':' :: ' ' :: (s ++ [',', '\n']))))

/-- `value.as_python_expression()`, as text. For a transformation,
`sangfroid/value/transformation.py:153-164`. -/
def valueExpr (F : Fl) (pr : Char → Bool) (root : Option Attrs) (c : VCls) (n : Node) : Res Str :=
  match c with
  | .composite => match compositeDict n with
    | .error e => .error e
    | .ok l => match mapRes (partExpr F pr root) l with
      | .error e => .error e
      | .ok ps => .ok ('{' :: '\n' :: (ps.flatten ++ (List.replicate 36 ' ' ++ ['}'])))
  | c => plainExpr F pr root c n

/-- `BlendMethod.as_python_expression`, `sangfroid/value/blendmethod.py:44-45`. -/
def blendExpr (n : Node) : Res Str :=
  match getInt n with
  | .error e => .error e
  | .ok i => .ok ('v' :: '.' :: intStr i)

end Sang
