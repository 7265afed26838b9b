import Verif.Program

/-!
# Searching by times: `sangfroid/layer/layer.py:130-282`

`Verif.Find` leaves times out, as their values depend on the frame rate of the animation. Here is the search with the
root of the document given (see `canvasRoot`). That nothing else changes is `c149_extends`.
-/

namespace Sang

/-- `repr(found_value)`, `sangfroid/layer/layer.py:245`; see `attrShown`. -/
def attrShownIn (F : Fl) (root : Option Attrs) : LAttr → Res Unit
  | .val .time n => match valueStr F (fun _ => true) root .time n with
    | .error e => .error e
    | .ok _ => .ok ()
  | a => attrShown F a

/-- `found_value==want_value`, `sangfroid/layer/layer.py:255`; see `attrEq`. -/
def attrEqIn (F : Fl) (root : Option Attrs) (a : LAttr) (want : PV) : Res Bool :=
  match a with
  | .val .time n => valueEq F root .time n want
  | a => attrEq F a want

/-- What is inside the `try`, `sangfroid/layer/layer.py:242-247`. -/
def tryAttrIn (F : Fl) (root : Option Attrs) (d : Defaults) (k : String) (want : PV) (x : LObj) : Res LAttr :=
  match layerAttr F d k x with
  | .error e => .error e
  | .ok a => match attrShownIn F root a with
    | .error e => .error e
    | .ok _ => match wantShown F want with
      | .error e => .error e
      | .ok _ => .ok a

/-- Whether a layer meets some criterion, `sangfroid/layer/layer.py:241-260`. -/
def meetsAnyIn (F : Fl) (root : Option Attrs) (d : Defaults) (x : LObj) : List (String × PV) → Res Bool
  | [] => .ok false
  | (k, want) :: r => match tryAttrIn F root d k want x with
    | .error .attr => meetsAnyIn F root d x r
    | .error e => .error e
    | .ok a => match attrEqIn F root a want with
      | .error e => .error e
      | .ok true => .ok true
      | .ok false => meetsAnyIn F root d x r

/-- `matcher`, `sangfroid/layer/layer.py:216-268`. -/
def matcherIn (F : Fl) (root : Option Attrs) (d : Defaults) (sp : Special) (ts : List (String × PV)) (n : Node) :
    Res Bool :=
  if n.name ≠ "layer" then .ok false
  else match asLayer n with
    | .error e => .error e
    | .ok x => match sp with
      | .none => meetsAnyIn F root d x ts
      | .bool b => .ok b
      | .fn f => f n

/-- `layer.find_all(...)`, `sangfroid/layer/layer.py:130-282`, in a document with that root; with the places of what is
found. The layer (or animation) that is searched is at `p`. -/
def findAllIn (F : Fl) (root : Option Attrs) (d : Defaults) (a : FindArgs) (p : Place) (n : Node) :
    Res (List (Place × LObj)) :=
  match posArg a with
  | .error e => .error e
  | .ok (sp, kw) => match criteria a kw with
    | .error e => .error e
    | .ok ts =>
      match filterRes (fun x => matcherIn F root d sp ts x.2) (placesIn p 0 n.kids) with
      | .error e => .error e
      | .ok l => mapRes asLayerAt l

end Sang
