import Verif.Py

/-!
# Times: `sangfroid/t.py`
-/

namespace Sang

/-- An instant: frames from the start, and the frame rate if known.
`sangfroid/t.py:65-68`. -/
structure T where
  frames : ℚ
  fps : Option ℚ
  deriving DecidableEq

/-- What a Beautiful Soup attribute can hold in memory: text (always so in a file that was
loaded), or whatever object the code stored there. `sangfroid/field.py:194-196`,
`sangfroid/value/value.py:543`. -/
inductive AttrV where
  | str (s : Str)
  | t (v : T)
  | num (q : ℚ)
  | int (i : ℤ)
  deriving DecidableEq

/-- The attributes of an element. -/
abbrev Attrs := List (String × AttrV)

/-- `tag.attrs.get(k)`. -/
def Attrs.get (a : Attrs) (k : String) : Option AttrV := a.lookup k

/-- `float(v)` of an attribute value. `sangfroid/t.py:89`. -/
def AttrV.toFloat (F : Fl) : AttrV → Res ℚ
  | .str s => pyFloat F s
  | .t v => .ok v.frames
  | .num q => .ok (F.rnd q)
  | .int i => .ok (F.rnd i)

/-- The first argument of `T(...)`: text, a number, another `T`, or something `float` refuses
with `TypeError`. `sangfroid/t.py:69-73,95-98`. -/
inductive TArg where
  | str (s : Str)
  | num (q : ℚ)
  | t (v : T)
  | other
  deriving DecidableEq

/-- An attribute value as a `T` argument. `sangfroid/value/value.py:562`. -/
def AttrV.toTArg : AttrV → TArg
  | .str s => .str s
  | .t v => .t v
  | .num q => .num q
  | .int i => .num i

/-! ## Reading a time specification -/

/-- `[0-9.]`, `sangfroid/t.py:293-295`. -/
def isNumDot (c : Char) : Bool := isDig c || c == '.'

/-- `[hmsf]`, `sangfroid/t.py:293-295`. -/
def isUnit (c : Char) : Bool := c == 'h' || c == 'm' || c == 's' || c == 'f'

/-- An optional minus sign: how many characters it takes, and the rest.
`sangfroid/t.py:293-295`. -/
def takeDash : Str → ℕ × Str
  | '-' :: t => (1, t)
  | t => (0, t)

/-- Length of the match of `-?[0-9.]+[hmsf]` at the start of `s`, if it matches there.
`sangfroid/t.py:293-295`. The classes are disjoint, so the greedy run never backtracks. -/
def matchLen (s : Str) : Option ℕ :=
  let t := (takeDash s).2
  let run := t.takeWhile isNumDot
  match run, t.dropWhile isNumDot with
  | _ :: _, u :: _ => if isUnit u then some ((takeDash s).1 + run.length + 1) else none
  | _, _ => none

/-- `TIMESPEC_RE.split(s)`, `sangfroid/t.py:134`. The first argument counts the characters
left of a match in progress; `acc` is the piece so far, reversed. -/
def specSplit : ℕ → Str → Str → List Str
  | _, acc, [] => [acc.reverse]
  | 0, acc, c :: cs =>
    match matchLen (c :: cs) with
    | none => specSplit 0 (c :: acc) cs
    | some k => acc.reverse :: specSplit (k - 1) [c] cs
  | 1, acc, c :: cs => (c :: acc).reverse :: specSplit 0 [] cs
  | k + 2, acc, c :: cs => specSplit (k + 1) (c :: acc) cs

/-- The dictionary of parts: unit character to amount. `sangfroid/t.py:138`. -/
abbrev Parts := List (Char × ℚ)

/-- One turn of the loop over the pieces. `sangfroid/t.py:139-151`. -/
def addPart (F : Fl) (parts : Parts) (spec : Str) : Res Parts :=
  if strip spec = [] then .ok parts
  else match spec.getLast? with
    | none => .ok parts
    | some u =>
      match parts.lookup u with
      | some _ => .error .value
      | none =>
        match pyFloat F spec.dropLast with
        | .error e => .error e
        | .ok x => .ok (parts ++ [(u, x)])

/-- The loop over the pieces. `sangfroid/t.py:139-151`. -/
def collectParts (F : Fl) : Parts → List Str → Res Parts
  | parts, [] => .ok parts
  | parts, s :: r =>
    match addPart F parts s with
    | .error e => .error e
    | .ok parts' => collectParts F parts' r

/-- One unit's contribution to the seconds. `sangfroid/t.py:160-161`; Python's
`seconds or 0.0` is `0.0` when `seconds` is `None` or zero. -/
def addSeconds (F : Fl) (parts : Parts) (seconds : Option ℚ) (unit : Char) (size : ℚ) :
    Option ℚ :=
  match parts.lookup unit with
  | none => seconds
  | some x => some (F.rnd (seconds.getD 0 + F.rnd (x * size)))

/-- The seconds given by the h, m and s parts, if there are any. `sangfroid/t.py:153-161`. -/
def secondsOf (F : Fl) (parts : Parts) : Option ℚ :=
  addSeconds F parts (addSeconds F parts (addSeconds F parts none 'h' 3600) 'm' 60) 's' 1

/-- The frames, from the parts. `sangfroid/t.py:163-184`. -/
def framesOf (F : Fl) (fps : Option ℚ) (parts : Parts) : Res ℚ :=
  let seconds := secondsOf F parts
  let s := seconds.getD 0
  let base : Res ℚ :=
    if s ≠ 0 then
      match fps with
      | none => .error .value
      | some r => .ok (F.rnd (0 + F.rnd (s * r)))
    else .ok 0
  match base with
  | .error e => .error e
  | .ok result =>
    match parts.lookup 'f' with
    | none => .ok result
    | some f =>
      if s ≠ 0 ∧ f < 0 then .error .value
      else if s < 0 then .ok (F.rnd (result - f))
      else .ok (F.rnd (result + f))

/-- `T._parse_time_spec`, `sangfroid/t.py:122-184`. -/
def parseSpec (F : Fl) (fps : Option ℚ) (s : Str) : Res ℚ :=
  match collectParts F [] (specSplit 0 [] (strip s)) with
  | .error e => .error e
  | .ok parts => framesOf F fps parts

/-- `_parse_time_spec(root_tag.attrs[k])`: `KeyError` if the attribute is missing, and the
assertion at `sangfroid/t.py:123` fails if it isn't text. `sangfroid/t.py:106-112`. -/
def parseAttr (F : Fl) (fps : Option ℚ) (root : Attrs) (k : String) : Res ℚ :=
  match root.get k with
  | none => .error .key
  | some (.str s) => parseSpec F fps s
  | some _ => .error .assertion

/-! ## The constructor -/

/-- The frame rate of the animation whose root element has attributes `root`.
`sangfroid/t.py:86-92`. -/
def readFps (F : Fl) : Option Attrs → Res (Option ℚ)
  | none => .ok none
  | some root =>
    match root.get "fps" with
    | none => .error .key
    | some a =>
      match a.toFloat F with
      | .error e => .error e
      | .ok x => if x ≤ 0 then .error .value else .ok (some x)

/-- The frames, given a number. `sangfroid/t.py:98-115`. -/
def framesOfNumber (F : Fl) (fps : Option ℚ) (root : Option Attrs) (x : ℚ) : Res ℚ :=
  if x < 0 then
    match root with
    | none => .error .value
    | some root =>
      match parseAttr F fps root "end-time" with
      | .error e => .error e
      | .ok stop =>
        match parseAttr F fps root "begin-time" with
        | .error e => .error e
        | .ok start => .ok (F.rnd (F.rnd (1 + F.rnd (stop - start)) + x))
  else .ok x

/-- `T(value, ref)`, `sangfroid/t.py:69-120`. `root` is the attributes of the root element found
from `ref`, or `none` if there is no ref or it isn't in an animation (see `canvasRoot`). The
`TypeError` for a ref of the wrong type (lines 81-84) is not modelled. -/
def T.new (F : Fl) (root : Option Attrs) (value : TArg) : Res T :=
  match readFps F root with
  | .error e => .error e
  | .ok fps =>
    let frames := match value with
      | .str s => parseSpec F fps s
      | .num q => framesOfNumber F fps root (F.rnd q)
      | .t v => framesOfNumber F fps root v.frames
      | .other => .error .value
    match frames with
    | .error e => .error e
    | .ok x => .ok ⟨x, fps⟩

/-! ## Accessors and comparison -/

/-- `T.seconds`, `sangfroid/t.py:207-222`. -/
def T.seconds (F : Fl) (t : T) : Res ℚ :=
  match t.fps with
  | none => if t.frames = 0 then .ok 0 else .error .value
  | some r => .ok (F.rnd (t.frames / r))

/-- `int(t)`, `sangfroid/t.py:201-202`. -/
def T.toInt (t : T) : ℤ := truncQ t.frames

/-- The right-hand side of a comparison with a `T`. `sangfroid/t.py:226-240`. -/
inductive TOther where
  | t (v : T)
  | num (q : ℚ)
  | other

/-- `T._compare`, `sangfroid/t.py:224-242`. -/
def T.compare (a : T) (b : TOther) (op : ℚ → ℚ → Bool) : Res Bool :=
  match b with
  | .t v =>
    match v.fps, a.fps with
    | some r, some r' => if r ≠ r' then .error .value else .ok (op a.frames v.frames)
    | _, _ => .ok (op a.frames v.frames)
  | .num q => .ok (op a.frames q)
  | .other => .ok false

/-- `a < b`, `sangfroid/t.py:244-245`. -/
def T.lt (a : T) (b : TOther) : Res Bool := a.compare b (fun x y => decide (x < y))

/-- `a == b`, `sangfroid/t.py:247-248`. -/
def T.eq (a : T) (b : TOther) : Res Bool := a.compare b (fun x y => decide (x = y))

/-- `a > b` from `functools.total_ordering` (`not a < b and a != b`), `sangfroid/t.py:6`. -/
def T.gt (a : T) (b : TOther) : Res Bool :=
  match a.lt b with
  | .error e => .error e
  | .ok true => .ok false
  | .ok false => match a.eq b with
    | .error e => .error e
    | .ok r => .ok (!r)

/-- `a <= b` from `functools.total_ordering` (`a < b or a == b`), `sangfroid/t.py:6`. -/
def T.le (a : T) (b : TOther) : Res Bool :=
  match a.lt b with
  | .error e => .error e
  | .ok true => .ok true
  | .ok false => a.eq b

/-- `a >= b` from `functools.total_ordering` (`not a < b`), `sangfroid/t.py:6`. -/
def T.ge (a : T) (b : TOther) : Res Bool :=
  match a.lt b with
  | .error e => .error e
  | .ok r => .ok (!r)

/-- `hash(t)`, `sangfroid/t.py:284-289`; `h` is Python's hash of the pair. -/
def T.hash (h : ℚ × Option ℚ → ℤ) (t : T) : ℤ :=
  if t.frames = 0 then 0 else h (t.frames, t.fps)

/-! ## Writing -/

/-- One turn of the loop over units. `sangfroid/t.py:265-267`. Simplification:
Python's `seconds//size` on floats is taken to be the exact floor. -/
def strUnit (st : ℚ × List Str) (unit : Char) (size : ℚ) : ℚ × List Str :=
  if size ≤ st.1 then
    (fmod st.1 size, st.2 ++ [natStr ⌊st.1 / size⌋.toNat ++ [unit]])
  else st

/-- `T.__str__`, `sangfroid/t.py:250-280`. -/
def T.str (F : Fl) (t : T) : Str :=
  match t.fps with
  | none => fmtG t.frames ++ ['f']
  | some fps =>
    let st := strUnit (strUnit (strUnit (|F.rnd (t.frames / fps)|, []) 'h' 3600) 'm' 60) 's' 1
    let result :=
      if st.1 ≠ 0 ∨ st.2 = [] then st.2 ++ [fmtG (fmod |t.frames| fps) ++ ['f']] else st.2
    (if t.frames < 0 then ['-'] else []) ++ join [' '] result

/-! ## Finding the root -/

/-- `_canvas_root`, `sangfroid/t.py:297-310`. `self` is the name and attributes of the tag,
`parents` those of its ancestors, nearest first (the last is the document). -/
def canvasRoot (self : String × Attrs) (parents : List (String × Attrs)) : Option Attrs :=
  let root : Option (String × Attrs) :=
    match parents with
    | [] => none
    | [_] => some self
    | ps => ps.dropLast.getLast?
  match root with
  | some (name, attrs) => if name = "canvas" then some attrs else none
  | none => none

end Sang
