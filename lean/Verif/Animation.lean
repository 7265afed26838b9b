import Verif.Group

/-!
# Animations: `sangfroid/animation.py`, `sangfroid/keyframe.py`

An animation object wraps the root element of a document. Loading and saving are in
`Verif.Format`, holding layers is in `Verif.Group`; here are the header and the keyframes.
-/

namespace Sang

/-! ## The header -/

/-- The Python types of header fields, `sangfroid/animation.py:45-78`. -/
inductive HType where
  | float | int | str
  deriving DecidableEq

/-- What a header field can be. -/
inductive HVal where
  | float (q : ℚ)
  | int (i : ℤ)
  | str (s : Str)
  deriving DecidableEq

/-- A field of class `TagAttrField`: its name, type and default. -/
structure HField where
  name : String
  type : HType
  dflt : HVal

/-- The header fields other than times, `sangfroid/animation.py:45-68,78`. -/
def headerFields : List HField :=
  [⟨"version", .float, .float (double.rnd (12 / 10))⟩,
   ⟨"width", .int, .int 480⟩,
   ⟨"height", .int, .int 270⟩,
   ⟨"xres", .float, .float (double.rnd (2834645669 / 1000000))⟩,
   ⟨"yres", .float, .float (double.rnd (2834645669 / 1000000))⟩,
   ⟨"gamma_r", .float, .float 1⟩,
   ⟨"gamma_g", .float, .float 1⟩,
   ⟨"gamma_b", .float, .float 1⟩,
   ⟨"view_box", .str, .str "-4.0 2.25 4.0 -2.25".toList⟩,
   ⟨"antialias", .int, .int 1⟩,
   ⟨"fps", .float, .float 24⟩,
   ⟨"bgcolor", .str, .str "0.5 0.5 0.5 1.0".toList⟩]

/-- `int(v)` of an attribute value, `sangfroid/field.py:185`. -/
def AttrV.toInt : AttrV → Res ℤ
  | .str s => pyInt s
  | .t v => .ok v.toInt
  | .num q => .ok (truncQ q)
  | .int i => .ok i

/-- `type_override(value)` when reading, `sangfroid/field.py:185`. -/
def HType.read (F : Fl) (a : AttrV) : HType → Res HVal
  | .float => match a.toFloat F with
    | .error e => .error e
    | .ok q => .ok (.float q)
  | .int => match a.toInt with
    | .error e => .error e
    | .ok i => .ok (.int i)
  | .str => .ok (.str (a.str' F))

/-- `animation.f`, `sangfroid/field.py:165-185`. -/
def getHeader (F : Fl) (f : HField) (n : Node) : Res HVal :=
  match n.attrs.get f.name with
  | none => .ok f.dflt
  | some a => f.type.read F a

/-- `type_override(value)` when writing, as the attribute that is stored: numbers are not turned into
text. `sangfroid/field.py:194`. -/
def HType.write (F : Fl) (v : PV) : HType → Res AttrV
  | .float => match v.toFloat F with
    | .error e => .error e
    | .ok q => .ok (.num q)
  | .int => match v.toInt F with
    | .error e => .error e
    | .ok i => .ok (.int i)
  | .str => match v.toStr F with
    | .error e => .error e
    | .ok s => .ok (.str s)

/-- `animation.f = v`, `sangfroid/field.py:187-196`. -/
def setHeader (F : Fl) (f : HField) (v : PV) (n : Node) : Node × Res Unit :=
  match f.type.write F v with
  | .error e => (n, .error e)
  | .ok a => (n.setAttr f.name a, .ok ())

/-- The attributes of the root, as a `T` with `ref=self._tag` finds them: the animation's element is
directly in the document. `sangfroid/t.py:297-310`, `sangfroid/animation.py:124-128`. -/
def animRoot (n : Node) : Option Attrs := canvasRoot (n.name, n.attrs) [("[document]", [])]

/-- `animation.begin_time`, `sangfroid/animation.py:168-180`. There is no setter. -/
def beginTime (F : Fl) (n : Node) : Res T :=
  match n.attrs.get "begin-time" with
  | none => .error .key
  | some a => T.new F (animRoot n) a.toTArg

/-- `animation.end_time`, `sangfroid/animation.py:26-34,75-77`, `sangfroid/field.py:165-185`. -/
def endTime (F : Fl) (n : Node) : Res T :=
  match n.attrs.get "end_time" with
  | none => T.new F (animRoot n) (.str "5s".toList)
  | some a => T.new F (animRoot n) (.str (a.str' F))

/-- `animation.end_time = v`, `sangfroid/field.py:187-196`. -/
def setEndTime (F : Fl) (v : PV) (n : Node) : Node × Res Unit :=
  match v.toStr F with
  | .error e => (n, .error e)
  | .ok s => (n.setAttr "end_time" (.str s), .ok ())

/-- `int(self._tag.attrs[k])`. -/
def intAttr (n : Node) (k : String) : Res ℤ :=
  match n.attrs.get k with
  | none => .error .key
  | some a => a.toInt

/-- `animation.size`, `sangfroid/animation.py:138-149`. -/
def animSize (n : Node) : Res (ℤ × ℤ) :=
  match intAttr n "width" with
  | .error e => .error e
  | .ok w => match intAttr n "height" with
    | .error e => .error e
    | .ok h => .ok (w, h)

/-- `s.split(' ')`, `sangfroid/animation.py:164,207`; `acc` is the piece so far, reversed. -/
def splitSpaces (acc : Str) : Str → List Str
  | [] => [acc.reverse]
  | c :: r => if c = ' ' then acc.reverse :: splitSpaces [] r else splitSpaces (c :: acc) r

/-- `tuple([float(n) for n in self._tag.attrs[k].split(' ')])`, `sangfroid/animation.py:162-165,205-208`.
Objects other than text have no `split`. -/
def floatsAttr (F : Fl) (n : Node) (k : String) : Res (List ℚ) :=
  match n.attrs.get k with
  | none => .error .key
  | some (.str s) => mapRes (pyFloat F) (splitSpaces [] s)
  | some _ => .error .attr

/-- `animation.viewbox`, `sangfroid/animation.py:151-165`. -/
def viewbox (F : Fl) (n : Node) : Res (List ℚ) := floatsAttr F n "view-box"

/-- `animation.framecount`, `sangfroid/animation.py:182-195`. -/
def framecount (F : Fl) (n : Node) : Res ℤ :=
  match T.new F (animRoot n) (.num (-1)) with
  | .error e => .error e
  | .ok t => .ok (truncQ t.frames + 1)

/-- `animation.background`, `sangfroid/animation.py:197-210`: the element of a new colour. A single
number isn't taken as a tuple, `sangfroid/value/value.py:12-23`. -/
def background (F : Fl) (n : Node) : Res Node :=
  match floatsAttr F n "bgcolor" with
  | .error e => .error e
  | .ok [q] => newValue F .color (.float q)
  | .ok l => newValue F .color (.tuple (l.map .float))

/-- `animation.name`, `sangfroid/animation.py:134-136`; `none` for `None`. -/
def animName (n : Node) : Res (Option Str) :=
  match n.find "name" with
  | none => .error .attr
  | some x => .ok x.string?

/-- `animation.desc`, `sangfroid/field.py:285-295`. -/
def animDesc (n : Node) : Option Str :=
  match n.find "desc" with
  | none => some []
  | some x => x.string?

/-- `animation.desc = s` for text, `sangfroid/field.py:297-301`: `None` has no attribute `string` to
set. -/
def setAnimDesc (s : Str) (n : Node) : Node × Res Unit :=
  match n.find "desc" with
  | none => (n, .error .attr)
  | some _ => (updFirst (fun x => x.name = "desc") (Node.setString s) n, .ok ())

/-! ## Keyframes -/

/-- A keyframe: its element and, for finding the frame rate, the names and attributes of the elements
around it, innermost first, with the document last. `sangfroid/keyframe.py:3-5`. -/
structure Keyframe where
  elt : Node
  parents : List (String × Attrs)

mutual
/-- `find_all('keyframe')` in an element, itself included, with what is around each.
`sangfroid/keyframe.py:47-49`. -/
def keyframesOf (ps : List (String × Attrs)) : Node → List Keyframe
  | .text _ => []
  | .tag n a ks =>
    (if n = "keyframe" then [⟨.tag n a ks, ps⟩] else []) ++ keyframesIn ((n, a) :: ps) ks

/-- The same in a list of siblings. -/
def keyframesIn (ps : List (String × Attrs)) : List Node → List Keyframe
  | [] => []
  | x :: r => keyframesOf ps x ++ keyframesIn ps r
end

/-- `list(animation.keyframes)`, `sangfroid/keyframe.py:47-49`, `sangfroid/animation.py:212-217`. -/
def keyframes (n : Node) : List Keyframe :=
  keyframesIn [(n.name, n.attrs), ("[document]", [])] n.kids

/-- `len(animation.keyframes)`, `sangfroid/keyframe.py:44-45`. -/
def keyframesLen (n : Node) : ℕ := (n.findAll "keyframe").length

/-- `keyframe.time`, `sangfroid/keyframe.py:7-11`. -/
def Keyframe.time (F : Fl) (k : Keyframe) : Res T :=
  match k.elt.attrs.get "time" with
  | none => .error .key
  | some a => T.new F (canvasRoot (k.elt.name, k.elt.attrs) k.parents) a.toTArg

/-- `keyframe.name`, `sangfroid/keyframe.py:13-15`. -/
def Keyframe.name (k : Keyframe) : Str := k.elt.allText

/-- `keyframe.active`, `sangfroid/keyframe.py:17-22`. -/
def Keyframe.active (k : Keyframe) : Res Bool :=
  match k.elt.attrs.get "active" with
  | none => .error .key
  | some a => .ok (a = .str "true".toList)

/-- Python's `repr(s)`, which is left open. -/
abbrev ReprStr := Str → Str

/-- `str(keyframe)`, `sangfroid/keyframe.py:24-29`. -/
def Keyframe.str (F : Fl) (r : ReprStr) (k : Keyframe) : Res Str :=
  match k.active with
  | .error e => .error e
  | .ok b => match k.time F with
    | .error e => .error e
    | .ok t => .ok (t.str F ++ [' '] ++ r k.name ++ (if b then [] else " (inactive)".toList))

end Sang
