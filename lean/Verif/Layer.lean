import Verif.LayerTable
import Verif.Text
import Verif.Timeline

/-!
# Layers: `sangfroid/layer/layer.py`, `sangfroid/field.py`

A layer object wraps one `<layer>` element; its class comes from the element's type. Operations that
change the element return the new one together with the outcome.
-/

namespace Sang

/-! ## Making and recognising layers -/

/-- State shared by all layers: the defaults of the fields `type_` and `version`, which live in class
`Layer` and are changed each time a layer is made. `sangfroid/field.py:388-390,407-409`,
`sangfroid/layer/layer.py:364`. `version` is `none` for the float `0.0`. -/
structure Defaults where
  type : Str
  version : Option String
  deriving DecidableEq

/-- As it is when the library has been imported: set by `__set_name__` when class `Layer` is made.
`sangfroid/layer/layer.py:32-36`. -/
def Defaults.initial : Defaults := ⟨"layer".toList, none⟩

/-- The defaults once a layer of class `c` has been made. -/
def Defaults.of (c : LClass) : Defaults := ⟨lower c.name.toList, c.version⟩

/-- `<param name="k">` holding `v`, `sangfroid/layer/layer.py:380-389`. -/
def paramTag (k : String) (v : Node) : Node := .tag "param" [("name", .str k.toList)] [v]

/-- The element of `BlendMethod(i)`, `sangfroid/value/blendmethod.py:33-37`. -/
def blendTag (i : ℤ) : Node :=
  .tag "integer" [("value", .str (intStr i)), ("static", .str "true".toList)] []

/-- The element of a new value of a param field. `Time` fields are made from the default's `str()`,
`sangfroid/layer/layer.py:383-389,438-456`. -/
def defaultTag (F : Fl) : LField → Res Node
  | .param .time d =>
    construct .time (setSimple F "time" [] (PV.toStr F) (d.pv F))
  | .param c d => newValue F c (d.pv F)
  | .blend i => .ok (blendTag i)
  | .notImpl => .error .notImpl

/-- What one field contributes to a new layer's element, `sangfroid/layer/layer.py:362-391`. -/
def fieldTags (F : Fl) (f : String × LField) : Res (List Node) :=
  match f.2 with
  | .notImpl => .ok []
  | k => match defaultTag F k with
    | .error e => .error e
    | .ok v => .ok [paramTag f.1 v, .text ['\n']]

/-- The attributes of a new layer's element, `sangfroid/layer/layer.py:35-54,365-377`. The version
`0.0` is a float, and is written with `str`. -/
def layerAttrs (c : LClass) : Attrs :=
  [("type", .str (lower c.name.toList)), ("version", .str (c.version.getD "0.0").toList),
   ("active", .str "true".toList), ("exclude_from_rendering", .str "false".toList)]

/-- `C()`, `sangfroid/layer/layer.py:58-60,356-393`: the element, or the exception. The fields of
the class itself come first. -/
def newLayer (F : Fl) (c : LClass) : Res Node :=
  match mapRes (fieldTags F) c.fields with
  | .error e => .error e
  | .ok l => .ok (.tag "layer" (layerAttrs c) (.text ['\n'] :: l.flatten))

/-- What `C()` does to the shared defaults: if a field of the class itself raises, those of `Layer`
have not been reached. -/
def newLayerDefaults (F : Fl) (c : LClass) (d : Defaults) : Defaults :=
  match newLayer F c with
  | .error _ => d
  | .ok _ => .of c

/-- The class of the layer in an element: `Layer.from_tag(tag)`, `sangfroid/layer/layer.py:322-334`.
With no type it means to raise `ValueError` but gets `AttributeError`. -/
def layerOf (n : Node) : Res LClass :=
  match n.attrs.get "type" with
  | none => .error .attr
  | some (.str s) => layerRegistry.fromName s
  | some _ => .error .unmodelled

/-! ## The fields every layer has -/

/-- `layer.type_`, for a class that doesn't redefine it. `sangfroid/field.py:165-185,374-393`. -/
def getType (d : Defaults) (n : Node) : Res Str :=
  match n.attrs.get "type" with
  | none => .ok d.type
  | some (.str s) => .ok s
  | some _ => .error .unmodelled

/-- `layer.type_ = v`, `sangfroid/field.py:392-393`. -/
def setType (n : Node) (_v : PV) : Node × Res Unit := (n, .error .value)

/-- What `layer.version` can be: a float, or (the default) the text of the class. -/
inductive Version where
  | num (q : ℚ)
  | text (s : String)
  deriving DecidableEq

/-- `layer.version`, `sangfroid/field.py:165-185,395-409`. -/
def getVersion (F : Fl) (d : Defaults) (n : Node) : Res Version :=
  match n.attrs.get "version" with
  | none => .ok (match d.version with
    | none => .num 0
    | some s => .text s)
  | some a => match a.toFloat F with
    | .error e => .error e
    | .ok q => .ok (.num q)

/-- `layer.version = v`, `sangfroid/field.py:187-196`. -/
def setVersion (F : Fl) (v : PV) (n : Node) : Node × Res Unit :=
  match v.toFloat F with
  | .error e => (n, .error e)
  | .ok q => (n.setAttr "version" (.num q), .ok ())

/-- `layer.active` (default `True`) and `layer.exclude_from_rendering` (default `False`),
`sangfroid/field.py:165-183`. -/
def getBoolAttr (F : Fl) (k : String) (dflt : Bool) (n : Node) : Bool :=
  match n.attrs.get k with
  | none => dflt
  | some a => lower (a.str' F) = "true".toList

/-- `layer.active = v`, `layer.exclude_from_rendering = v`, `sangfroid/field.py:187-196`. -/
def setBoolAttr (F : Fl) (k : String) (v : PV) (n : Node) : Node × Res Unit :=
  match v.toBool F with
  | .error e => (n, .error e)
  | .ok b => (n.setAttr k (.str (boolStr b)), .ok ())

/-- `layer.active`, `sangfroid/layer/layer.py:38-41`. -/
def getActive (F : Fl) (n : Node) : Bool := getBoolAttr F "active" true n

/-- `layer.active = v`. -/
def setActive (F : Fl) (v : PV) (n : Node) : Node × Res Unit := setBoolAttr F "active" v n

/-- `layer.exclude_from_rendering`, `sangfroid/layer/layer.py:42-45`. -/
def getExclude (F : Fl) (n : Node) : Bool := getBoolAttr F "exclude_from_rendering" false n

/-- `layer.exclude_from_rendering = v`. -/
def setExclude (F : Fl) (v : PV) (n : Node) : Node × Res Unit :=
  setBoolAttr F "exclude_from_rendering" v n

/-- `layer.desc`, `sangfroid/field.py:431-436`; `none` for `None`. -/
def getDesc (F : Fl) (n : Node) : Option Str :=
  match n.attrs.get "desc" with
  | none => none
  | some a => some (a.str' F)

/-- `del tag[k]`: nothing happens if there is no such attribute. -/
def Node.delAttr (k : String) : Node → Node
  | .text s => .text s
  | .tag n a ks => .tag n (a.filter fun p => p.1 ≠ k) ks

/-- `layer.desc = v`, `sangfroid/field.py:438-442`. -/
def setDesc (F : Fl) (v : PV) (n : Node) : Node × Res Unit :=
  if v.isNone then (n.delAttr "desc", .ok ())
  else match v.toStr F with
    | .error e => (n, .error e)
    | .ok s => (n.setAttr "desc" (.str s), .ok ())

/-! ## Params -/

/-- Matches `find('param', attrs={'name': f})`. Simplification: for the empty name Beautiful Soup also finds params
without a name. -/
def isParam (f : Str) (n : Node) : Bool :=
  n.name = "param" && n.attrs.get "name" = some (.str f)

/-- `tag.find('param', attrs={'name': f})`: the first in document order, at any depth.
`sangfroid/layer/layer.py:92,98,114`, `sangfroid/field.py:212-216`, `sangfroid/layer/group.py:60`. -/
def findParam (f : Str) (n : Node) : Option Node := (n.descTags.filter (isParam f)).head?

mutual
/-- Changing, in place, the first element (of this one and those in it, in document order) that
matches; `none` if there isn't one. -/
def updNode (p : Node → Bool) (g : Node → Node) : Node → Option Node
  | .text _ => none
  | .tag n a ks =>
    if p (.tag n a ks) then some (g (.tag n a ks)) else (updKids p g ks).map (.tag n a)

/-- The same for a list of siblings. -/
def updKids (p : Node → Bool) (g : Node → Node) : List Node → Option (List Node)
  | [] => none
  | x :: r => match updNode p g x with
    | some y => some (y :: r)
    | none => (updKids p g r).map (x :: ·)
end

/-- Changing, in place, the element that `find` finds inside this one. -/
def updFirst (p : Node → Bool) (g : Node → Node) : Node → Node
  | .text s => .text s
  | .tag n a ks => .tag n a ((updKids p g ks).getD ks)

/-- The element in a param, when there is one: put another in its place. -/
def replaceValue (v : Node) (p : Node) : Node :=
  p.setKids (p.kids.map fun x => if x.isTag then v else x)

/-- `_name_and_value_of(tag)`, `sangfroid/layer/layer.py:418-436`: name, class of the value, its
element. Where it means to raise `ValueError` it gets `AttributeError`. -/
def nameAndValue (p : Node) : Res (Str × VCls × Node) :=
  if p.name ≠ "param" then .error .attr
  else match p.attrs.get "name" with
    | none => .error .attr
    | some (.str s) => match p.tagKids with
      | [v] => match fromTag v with
        | .error e => .error e
        | .ok c => .ok (s, c, v)
      | _ => .error .attr
    | some _ => .error .unmodelled

/-- `layer[f]` for text `f`, `sangfroid/layer/layer.py:91-95`: the class and element of the value. -/
def getParam (f : Str) (n : Node) : Res (VCls × Node) :=
  match findParam f n with
  | none => .error .key
  | some p => match nameAndValue p with
    | .error e => .error e
    | .ok (_, c, v) => .ok (c, v)

/-- The element to put in place of a value of class `c`, `sangfroid/layer/layer.py:103-109`. A
`BlendMethod` object counts as an `Integer`, of which it is a subclass. -/
def newItem (F : Fl) (c : VCls) (v : PV) : Res Node :=
  match v with
  | .val c' _ m => if c' = c then .ok m else .error .type
  | v => newValue F c v

/-- `layer[f] = v`, `sangfroid/layer/layer.py:97-111`. If `v` is a value object then its own
element is put here; what that does to where it came from is in `Verif.Dom`. -/
def setParam (F : Fl) (f : Str) (v : PV) (n : Node) : Node × Res Unit :=
  match findParam f n with
  | none => (n, .error .key)
  | some p => match nameAndValue p with
    | .error e => (n, .error e)
    | .ok (_, c, _) => match newItem F c v with
      | .error e => (n, .error e)
      | .ok m => (updFirst (isParam f) (replaceValue m) n, .ok ())

/-- `f in layer`, `sangfroid/layer/layer.py:113-118`. -/
def containsParam (f : Str) (n : Node) : Bool := (findParam f n).isSome

/-- `layer._as_dict()`, as used by `items()`, `keys()` and `values()`,
`sangfroid/layer/layer.py:336-351`. -/
def layerItems (n : Node) : Res (List (Str × VCls × Node)) :=
  match mapRes nameAndValue (n.tagKids.filter fun x => x.name = "param") with
  | .error e => .error e
  | .ok l => .ok (l.foldl (fun d p => dictSet p.1 p.2 d) [])

/-! ## The fields of a class -/

/-- `ParamTagField._get_value`, `sangfroid/field.py:211-231`. -/
def fieldValue (k : String) (n : Node) : Res (VCls × Node) :=
  match findParam k.toList n with
  | none => .error .attr
  | some p => match p.tagKids with
    | [v] => match fromTag v with
      | .error e => .error e
      | .ok c => .ok (c, v)
    | _ => .error .value

/-- What is raised if a value of class `c` is not of the class the field wants, `sangfroid/field.py:235`: the message has
the value's text in it, so if making that raises then so does reading the field. (Whether it does doesn't depend on rounding
or on which characters are printable.) A time's text is not modelled here, nor a canvas's; times in a transformation are read
without the animation around them. -/
def misfit (c : VCls) (n : Node) : Err :=
  if c = .time then .unmodelled
  else match valueStr ⟨id⟩ (fun _ => true) none c n with
    | .error e => e
    | .ok _ => .assertion

/-- `layer.k`, where `k` is a field of the class: `sangfroid/field.py:126-127,233-236`. A value read
from an element is never a `BlendMethod`, so the assertion fails. -/
def getField (k : String) (f : LField) (n : Node) : Res (VCls × Node) :=
  match f with
  | .notImpl => .error .notImpl
  | .blend _ => match fieldValue k n with
    | .error e => .error e
    | .ok (c', v) => .error (misfit c' v)
  | .param c _ => match fieldValue k n with
    | .error e => .error e
    | .ok (c', v) => if c' = c then .ok (c', v) else .error (misfit c' v)

/-- `layer.k = v`, `sangfroid/field.py:129-130,238-240`: the value's setter is used on the value that
is there, whatever its class. -/
def setField (F : Fl) (k : String) (f : LField) (v : PV) (n : Node) : Node × Res Unit :=
  match f with
  | .notImpl => (n, .error .notImpl)
  | _ => match fieldValue k n with
    | .error e => (n, .error e)
    | .ok (c, m) =>
      (updFirst (isParam k.toList) (replaceValue (setValue F c v m).1) n, (setValue F c v m).2)

/-- `Text(s)`, `sangfroid/layer/text.py:49-59`. -/
def newText (F : Fl) (s : Str) : Res Node :=
  match newLayer F lcText with
  | .error e => .error e
  | .ok n => match setField F "text" (.param .string (.str "Hello wombat!")) (.str s) n with
    | (_, .error e) => .error e
    | (m, .ok ()) => .ok m

/-! ## Position -/

/-- `layer.parent`, `sangfroid/layer/layer.py:66-73`, given the elements around the layer's element,
innermost first. `Layer.from_tag` is called on the one found. -/
def layerParent (ancestors : List Node) : Res (Option (LClass × Node)) :=
  match ancestors.find? fun x => x.name = "layer" with
  | none => .ok none
  | some x => match layerOf x with
    | .error e => .error e
    | .ok c => .ok (some (c, x))

/-- `layer.tag_depth`, `sangfroid/layer/layer.py:120-128`. -/
def tagDepth (ancestors : List Node) : ℕ := (ancestors.filter fun x => x.name = "layer").length

/-- `len(layer)`, `sangfroid/layer/layer.py:395-396,415-416`. -/
def layerLen (n : Node) : ℕ := (n.findAll "layer").length

end Sang
