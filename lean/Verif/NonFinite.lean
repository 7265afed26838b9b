import Verif.Value

/-!
# Numbers that aren't finite

Python's floats have infinities and NaN ("not a number") among them. Text can say them (`inf`, `-Infinity`, `nan`), programs
can make them, and numbers that are too large turn into infinities. Here is `sangfroid/t.py` again, and the values that hold
one float, with such numbers. `c166_agrees` says that it is otherwise what is in `T.lean`.
-/

namespace Sang

/-- A float. -/
inductive X where
  | fin (q : ℚ)
  | inf (neg : Bool)
  | nan
  deriving DecidableEq

/-- Float arithmetic with a limit: `big` says which results are too large, and turn into infinities. In binary64 these are
the ones from 2^1024 on. -/
structure XFl extends Fl where
  big : ℚ → Bool

/-- Binary64. -/
def double64 : XFl := ⟨double, fun q => decide (2 ^ 1024 ≤ |q|)⟩

/-- A rounded result, or an infinity. -/
def XFl.lim (G : XFl) (q : ℚ) : X := if G.big q then .inf (decide (q < 0)) else .fin q

/-- A result. -/
def XFl.of (G : XFl) (q : ℚ) : X := G.lim (G.rnd q)

/-- `-x`. -/
def X.neg : X → X
  | .fin q => .fin (-q)
  | .inf s => .inf !s
  | .nan => .nan

/-- `abs(x)`. -/
def X.abs : X → X
  | .fin q => .fin |q|
  | .inf _ => .inf false
  | .nan => .nan

/-- `x + y`. -/
def XFl.add (G : XFl) : X → X → X
  | .fin a, .fin b => G.of (a + b)
  | .inf s, .fin _ => .inf s
  | .fin _, .inf s => .inf s
  | .inf s, .inf t => if s = t then .inf s else .nan
  | _, _ => .nan

/-- `x - y`. -/
def XFl.sub (G : XFl) (x y : X) : X := G.add x y.neg

/-- `x * y`. -/
def XFl.mul (G : XFl) : X → X → X
  | .fin a, .fin b => G.of (a * b)
  | .inf s, .fin b => if b = 0 then .nan else .inf (s ^^ decide (b < 0))
  | .fin a, .inf s => if a = 0 then .nan else .inf (s ^^ decide (a < 0))
  | .inf s, .inf t => .inf (s ^^ t)
  | _, _ => .nan

/-- `x / y`, for `y` not zero. -/
def XFl.div (G : XFl) : X → X → X
  | .fin a, .fin b => G.of (a / b)
  | .inf s, .fin b => .inf (s ^^ decide (b < 0))
  | .fin _, .inf _ => .fin 0
  | _, _ => .nan

/-- `x % y`, for `y` not zero, and `x` not negative if `y` is infinite. -/
def X.mod : X → X → X
  | .fin a, .fin b => .fin (fmod a b)
  | .fin a, .inf _ => .fin a
  | _, _ => .nan

/-- `x < y`. -/
def X.lt : X → X → Bool
  | .fin a, .fin b => decide (a < b)
  | .inf s, .fin _ => s
  | .fin _, .inf s => !s
  | .inf s, .inf t => s && !t
  | _, _ => false

/-- `x == y`. -/
def X.eq : X → X → Bool
  | .fin a, .fin b => decide (a = b)
  | .inf s, .inf t => s == t
  | _, _ => false

/-- `x <= y`. -/
def X.le (x y : X) : Bool := x.lt y || x.eq y

/-- How Python writes the numbers that aren't finite, in every format. -/
def X.text (fmt : ℚ → Str) : X → Str
  | .fin q => fmt q
  | .inf false => "inf".toList
  | .inf true => "-inf".toList
  | .nan => "nan".toList

/-- `float(s)` (see `pyFloat`). Simplification: characters outside ASCII are `unmodelled`. -/
def XFl.float (G : XFl) (s : Str) : Res X :=
  let s := strip s
  if s.any (fun c => decide (128 ≤ c.toNat)) then .error .unmodelled
  else if isNonFiniteWord s then
    .ok (if lower (takeSign s).2 = "nan".toList then .nan else .inf (takeSign s).1)
  else match dropUnderscores none s with
    | none => .error .value
    | some s => match parseNumeral s with
      | none => .error .value
      | some n => .ok (G.of n.val)

/-! ## Times -/

/-- A `T`, `sangfroid/t.py:65-68`. -/
structure TX where
  frames : X
  fps : Option X
  deriving DecidableEq

/-- The first argument of `T(...)`: text, a float, another `T`, or something `float` refuses with `TypeError`.
`sangfroid/t.py:69-73,95-98`. -/
inductive TXArg where
  | str (s : Str)
  | num (x : X)
  | t (v : TX)
  | other

/-- One turn of the loop over the pieces. `sangfroid/t.py:139-151`. -/
def XFl.addPart (G : XFl) (parts : List (Char × X)) (spec : Str) : Res (List (Char × X)) :=
  if strip spec = [] then .ok parts
  else match spec.getLast? with
    | none => .ok parts
    | some u =>
      match parts.lookup u with
      | some _ => .error .value
      | none =>
        match G.float spec.dropLast with
        | .error e => .error e
        | .ok x => .ok (parts ++ [(u, x)])

/-- The loop over the pieces. `sangfroid/t.py:139-151`. -/
def XFl.collect (G : XFl) : List (Char × X) → List Str → Res (List (Char × X))
  | parts, [] => .ok parts
  | parts, s :: r =>
    match G.addPart parts s with
    | .error e => .error e
    | .ok parts' => G.collect parts' r

/-- One unit's contribution to the seconds. `sangfroid/t.py:160-161`. NaN is truthy. -/
def XFl.addSecs (G : XFl) (parts : List (Char × X)) (seconds : Option X) (unit : Char) (size : ℚ) : Option X :=
  match parts.lookup unit with
  | none => seconds
  | some x => some (G.add (seconds.getD (.fin 0)) (G.mul x (.fin size)))

/-- The seconds given by the h, m and s parts, if there are any. `sangfroid/t.py:153-161`. -/
def XFl.secs (G : XFl) (parts : List (Char × X)) : Option X :=
  G.addSecs parts (G.addSecs parts (G.addSecs parts none 'h' 3600) 'm' 60) 's' 1

/-- The frames, from the parts. `sangfroid/t.py:163-184`. -/
def XFl.frames (G : XFl) (fps : Option X) (parts : List (Char × X)) : Res X :=
  let s := (G.secs parts).getD (.fin 0)
  let base : Res X :=
    if s ≠ .fin 0 then
      match fps with
      | none => .error .value
      | some r => .ok (G.add (.fin 0) (G.mul s r))
    else .ok (.fin 0)
  match base with
  | .error e => .error e
  | .ok result =>
    match parts.lookup 'f' with
    | none => .ok result
    | some f =>
      if s ≠ .fin 0 ∧ f.lt (.fin 0) then .error .value
      else if s.lt (.fin 0) then .ok (G.sub result f)
      else .ok (G.add result f)

/-- `T._parse_time_spec`, `sangfroid/t.py:122-184`. -/
def XFl.parseSpec (G : XFl) (fps : Option X) (s : Str) : Res X :=
  match G.collect [] (specSplit 0 [] (strip s)) with
  | .error e => .error e
  | .ok parts => G.frames fps parts

/-- `_parse_time_spec(root_tag.attrs[k])`, `sangfroid/t.py:106-112`. -/
def XFl.parseAttr (G : XFl) (fps : Option X) (root : Attrs) (k : String) : Res X :=
  match root.get k with
  | none => .error .key
  | some (.str s) => G.parseSpec fps s
  | some _ => .error .assertion

/-- The frame rate of the animation whose root element has attributes `root`. `sangfroid/t.py:86-92`. -/
def XFl.readFps (G : XFl) : Option Attrs → Res (Option X)
  | none => .ok none
  | some root =>
    match root.get "fps" with
    | none => .error .key
    | some a =>
      let x : Res X := match a with
        | .str s => G.float s
        | .t v => .ok (.fin v.frames)
        | .num q => .ok (G.of q)
        | .int i => .ok (G.of i)
      match x with
      | .error e => .error e
      | .ok x => if x.le (.fin 0) then .error .value else .ok (some x)

/-- The frames, given a number. `sangfroid/t.py:98-115`. -/
def XFl.framesOfNumber (G : XFl) (fps : Option X) (root : Option Attrs) (x : X) : Res X :=
  if x.lt (.fin 0) then
    match root with
    | none => .error .value
    | some root =>
      match G.parseAttr fps root "end-time" with
      | .error e => .error e
      | .ok stop =>
        match G.parseAttr fps root "begin-time" with
        | .error e => .error e
        | .ok start => .ok (G.add (G.add (.fin 1) (G.sub stop start)) x)
  else .ok x

/-- `T(value, ref)`, `sangfroid/t.py:69-120`; see `T.new`. -/
def TX.new (G : XFl) (root : Option Attrs) (value : TXArg) : Res TX :=
  match G.readFps root with
  | .error e => .error e
  | .ok fps =>
    let frames := match value with
      | .str s => G.parseSpec fps s
      | .num x => G.framesOfNumber fps root x
      | .t v => G.framesOfNumber fps root v.frames
      | .other => .error .value
    match frames with
    | .error e => .error e
    | .ok x => .ok ⟨x, fps⟩

/-- `T._compare`, for two times. `sangfroid/t.py:224-242`. -/
def TX.compare (a b : TX) (op : X → X → Bool) : Res Bool :=
  match b.fps, a.fps with
  | some r, some r' => if r.eq r' then .ok (op a.frames b.frames) else .error .value
  | _, _ => .ok (op a.frames b.frames)

/-- `a < b`, `sangfroid/t.py:244-245`. -/
def TX.lt (a b : TX) : Res Bool := a.compare b X.lt

/-- `a == b`, `sangfroid/t.py:247-248`. -/
def TX.eq (a b : TX) : Res Bool := a.compare b X.eq

/-- `a > b` from `functools.total_ordering` (`not a < b and a != b`), `sangfroid/t.py:6`. -/
def TX.gt (a b : TX) : Res Bool :=
  match a.lt b with
  | .error e => .error e
  | .ok true => .ok false
  | .ok false => match a.eq b with
    | .error e => .error e
    | .ok r => .ok (!r)

/-- One turn of the loop over units. `sangfroid/t.py:265-267`. An infinity has NaN for its quotient, which `%d` refuses with
`ValueError`. -/
def strUnitX (st : X × List Str) (unit : Char) (size : ℚ) : Res (X × List Str) :=
  if (X.fin size).le st.1 then
    match st.1 with
    | .fin q => .ok (.fin (fmod q size), st.2 ++ [natStr ⌊q / size⌋.toNat ++ [unit]])
    | _ => .error .value
  else .ok st

/-- `T.__str__`, `sangfroid/t.py:250-280`. -/
def TX.str (G : XFl) (t : TX) : Res Str :=
  match t.fps with
  | none => .ok (t.frames.text fmtG ++ ['f'])
  | some fps =>
    match strUnitX ((G.div t.frames fps).abs, []) 'h' 3600 with
    | .error e => .error e
    | .ok st => match strUnitX st 'm' 60 with
      | .error e => .error e
      | .ok st => match strUnitX st 's' 1 with
        | .error e => .error e
        | .ok st =>
          let result := if st.1 ≠ .fin 0 ∨ st.2 = [] then st.2 ++ [(t.frames.abs.mod fps).text fmtG ++ ['f']] else st.2
          .ok ((if t.frames.lt (.fin 0) then ['-'] else []) ++ join [' '] result)

/-! ## Values that hold one float -/

/-- Assigning the float `x` to a real number (`c = .real`) or an angle, `sangfroid/value/simple.py:31-55,92-94`. -/
def setFloatX (G : XFl) (c : VCls) (x : X) (n : Node) : Node :=
  match c with
  | .real => ((n.setName "real").setAttrs [("value", .str (x.text (fixed 10)))]).setKids []
  | _ => ((n.setName "angle").setAttrs [("value", .str (x.text (reprF G.toFl)))]).setKids []

/-- `Real.value` and `Angle.value`, `sangfroid/value/simple.py:11-29,82-84,126-128`. -/
def getFloatX (G : XFl) (n : Node) : Res X :=
  match simpleText n with
  | .error e => .error e
  | .ok s => G.float s

/-- Comparing two real numbers or two angles, `sangfroid/value/simple.py:61-73,86-90`. -/
def sameFloatX (G : XFl) (c : VCls) (a b : X) : Bool :=
  match c with
  | .real => (G.sub a b).abs.le (.fin (nearAsDammit G.toFl))
  | _ => a.eq b

end Sang
