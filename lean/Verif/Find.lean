import Verif.LayerText

/-!
# Searching: `sangfroid/layer/layer.py:130-313`
-/

namespace Sang

/-- What an attribute of a layer can be. -/
inductive LAttr where
  | str (s : Str)
  | none
  | bool (b : Bool)
  | num (q : ℚ)
  | val (c : VCls) (n : Node)

/-- Names which class `Layer` or `Group` gives a meaning other than a field; searching by them is not
modelled. `sangfroid/layer/layer.py`, `sangfroid/layer/group.py`. -/
def methodNames : List String :=
  ["tag", "parent", "tag_depth", "find_all", "children", "find", "handles_type", "from_tag", "items",
   "keys", "values", "append", "insert", "descendants", "canvas_tag", "SYMBOL", "SYNFIG_VERSION",
   "_tag", "_as_dict", "_construct_empty_tag", "_sublayer_tags", "_get_children", "PARAMS"]

/-- `getattr(layer, k)`, `sangfroid/layer/layer.py:243`. Fields of the class itself come before those
of `Layer`. Names with a double underscore are not modelled. -/
def layerAttr (F : Fl) (d : Defaults) (k : String) (x : LObj) : Res LAttr :=
  match x.1.fields.lookup k with
  | some f => match getField k f x.2 with
    | .error e => .error e
    | .ok (c, v) => .ok (.val c v)
  | none =>
    if k = "type_" then match getType d x.2 with
      | .error e => .error e
      | .ok s => .ok (.str s)
    else if k = "active" then .ok (.bool (getActive F x.2))
    else if k = "exclude_from_rendering" then .ok (.bool (getExclude F x.2))
    else if k = "desc" then .ok (match getDesc F x.2 with
      | none => .none
      | some s => .str s)
    else if k = "version" then match getVersion F d x.2 with
      | .error e => .error e
      | .ok (.num q) => .ok (.num q)
      | .ok (.text s) => .ok (.str s.toList)
    else if x.1.isGroup && (requiredKeys.lookup k).isSome then match getShortcut k x.2 with
      | .error e => .error e
      | .ok (c, v) => .ok (.val c v)
    else if methodNames.contains k || "__".toList.isPrefixOf k.toList then .error .unmodelled
    else .error .attr

/-- `found_value==want_value`, `sangfroid/layer/layer.py:255`. Times need the animation around
them: see `Verif.FindTime`. Not modelled is comparing the other fields with value objects and `T`s. -/
def attrEq (F : Fl) (a : LAttr) (want : PV) : Res Bool :=
  match a, want with
  | .val .time _, _ => .error .unmodelled
  | .val c n, v => valueEq F none c n v
  | _, .val _ _ _ => .error .unmodelled
  | _, .t _ => .error .unmodelled
  | _, .other => .error .unmodelled
  | .str s, .str t => .ok (s = t)
  | .none, .none => .ok true
  | .bool b, .bool c => .ok (b = c)
  | .bool b, .int i => .ok ((if b then 1 else 0) = i)
  | .bool b, .float q => .ok ((if b then 1 else 0) = q)
  | .num p, .bool b => .ok (p = if b then 1 else 0)
  | .num p, .int i => .ok (p = i)
  | .num p, .float q => .ok (p = q)
  | _, _ => .ok false

/-- What a keyword argument of `find_all` can be: a class (its name), or anything else. -/
inductive Want where
  | cls (name : Str)
  | pv (v : PV)

/-- What a positional argument of `find_all` can be. A callable is given the element. -/
inductive PosArg where
  | str (s : Str)
  | cls (name : Str)
  | bool (b : Bool)
  | fn (f : Node → Res Bool)
  | other

/-- The arguments of `find_all` other than `recursive`. `kw` has no key "attrs". -/
structure FindArgs where
  pos : List PosArg := []
  kw : List (String × Want) := []
  attrs : Option (List (String × Want)) := none

/-- Who decides: the criteria, a flag or a function. `sangfroid/layer/layer.py:171-197`. -/
inductive Special where
  | none
  | bool (b : Bool)
  | fn (f : Node → Res Bool)

/-- The positional argument, `sangfroid/layer/layer.py:173-197`. `v` is a local variable that hasn't
been set, so what is meant to be `ValueError` is `UnboundLocalError`. -/
def posArg (a : FindArgs) : Res (Special × List (String × Want)) :=
  match a.pos with
  | [] => .ok (.none, a.kw)
  | [p] =>
    let typed (w : Want) : Res (Special × List (String × Want)) :=
      if (a.kw.lookup "type").isSome then .error .unbound else .ok (.none, a.kw ++ [("type", w)])
    match p with
    | .str s => typed (.pv (.str s))
    | .cls s => typed (.cls s)
    | .bool b => .ok (.bool b, a.kw)
    | .fn f => .ok (.fn f, a.kw)
    | .other => .error .type
  | _ :: _ :: _ => .error .unbound

/-- The loop over `attrs`, `sangfroid/layer/layer.py:199-205`. A key given twice means to raise
`ValueError` but gets `AttributeError`. -/
def addAttrs (kw : List (String × Want)) : List (String × Want) → Res (List (String × Want))
  | [] => .ok kw
  | (k, w) :: r =>
    if k = "attrs" ∨ (kw.lookup k).isSome then .error .attr else addAttrs (kw ++ [(k, w)]) r

/-- One criterion made ready, `sangfroid/layer/layer.py:207-212,227-232`. Something other than text
or a class has no `__name__`. -/
def criterion (c : String × Want) : Res (String × PV) :=
  if c.1 = "type" then match c.2 with
    | .cls s => .ok ("type_", .str (normaliseName s))
    | .pv (.str s) => .ok ("type_", .str (normaliseName s))
    | .pv _ => .error .attr
  else match c.2 with
    | .cls _ => .error .unmodelled
    | .pv v => .ok (c.1, v)

/-- The criteria, `sangfroid/layer/layer.py:199-212`. -/
def criteria (a : FindArgs) (kw : List (String × Want)) : Res (List (String × PV)) :=
  match addAttrs kw (a.attrs.getD []) with
  | .error e => .error e
  | .ok kw => mapRes criterion kw

/-- `repr(found_value)`, `sangfroid/layer/layer.py:245`: it is worked out for a message in the log whether or not the
message is written, so what it raises matters, and nothing else about it. (That doesn't depend on the elements around
the value, nor on which characters are printable.) Times: see `Verif.FindTime`; those in a transformation are read without the
animation around them. -/
def attrShown (F : Fl) : LAttr → Res Unit
  | .val .time _ => .error .unmodelled
  | .val c n =>
    match if c = .canvas ∧ n.name ≠ "animated" then canvasStr F (fun _ => true) [] n
      else valueStr F (fun _ => true) none c n with
    | .error e => .error e
    | .ok _ => .ok ()
  | _ => .ok ()

/-- `repr(want_value)`, `sangfroid/layer/layer.py:246`. Simplification: value objects inside tuples and dicts are taken
to have a text. -/
def wantShown (F : Fl) : PV → Res Unit
  | .val .canvas _ _ => .error .unmodelled
  | .val c r n => match valueStr F (fun _ => true) r c n with
    | .error e => .error e
    | .ok _ => .ok ()
  | _ => .ok ()

/-- What is inside the `try`, `sangfroid/layer/layer.py:242-247`. -/
def tryAttr (F : Fl) (d : Defaults) (k : String) (want : PV) (x : LObj) : Res LAttr :=
  match layerAttr F d k x with
  | .error e => .error e
  | .ok a => match attrShown F a with
    | .error e => .error e
    | .ok _ => match wantShown F want with
      | .error e => .error e
      | .ok _ => .ok a

/-- Whether a layer meets some criterion, `sangfroid/layer/layer.py:241-260`. -/
def meetsAny (F : Fl) (d : Defaults) (x : LObj) : List (String × PV) → Res Bool
  | [] => .ok false
  | (k, want) :: r => match tryAttr F d k want x with
    | .error .attr => meetsAny F d x r
    | .error e => .error e
    | .ok a => match attrEq F a want with
      | .error e => .error e
      | .ok true => .ok true
      | .ok false => meetsAny F d x r

/-- `matcher`, `sangfroid/layer/layer.py:216-268`. -/
def matcher (F : Fl) (d : Defaults) (sp : Special) (ts : List (String × PV)) (n : Node) : Res Bool :=
  if n.name ≠ "layer" then .ok false
  else match asLayer n with
    | .error e => .error e
    | .ok x => match sp with
      | .none => meetsAny F d x ts
      | .bool b => .ok b
      | .fn f => f n

/-- The elements on which a function says true; the first exception wins. -/
def filterRes {α : Type} (f : α → Res Bool) : List α → Res (List α)
  | [] => .ok []
  | x :: r => match f x with
    | .error e => .error e
    | .ok b => match filterRes f r with
      | .error e => .error e
      | .ok l => .ok (if b then x :: l else l)

/-- `layer.find_all(...)`, `sangfroid/layer/layer.py:130-282`. If not `recursive`, only direct
children of the element are looked at. -/
def findAllLayers (F : Fl) (d : Defaults) (a : FindArgs) (recursive : Bool) (n : Node) :
    Res (List LObj) :=
  match posArg a with
  | .error e => .error e
  | .ok (sp, kw) => match criteria a kw with
    | .error e => .error e
    | .ok ts =>
      match filterRes (matcher F d sp ts) (if recursive then n.descTags else n.tagKids) with
      | .error e => .error e
      | .ok l => mapRes asLayer l

/-- `layer.find(...)`, `layer(...)`, `sangfroid/layer/layer.py:295-313`. -/
def findLayer (F : Fl) (d : Defaults) (a : FindArgs) (recursive : Bool) (n : Node) :
    Res (Option LObj) :=
  match findAllLayers F d a recursive n with
  | .error e => .error e
  | .ok l => .ok l.head?

end Sang
