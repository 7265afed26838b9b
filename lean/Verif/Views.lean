import Verif.Compare
import Verif.Timeline

/-!
# Values as dictionaries: `keys()`, `values()`, `items()`

What has a length, subscripts and these methods: timelines, vectors, gradients and transformations.
-/

namespace Sang

/-- `vector.values()`: `None` if it is animated. `sangfroid/value/vector.py:105-108`. -/
def vectorValues (F : Fl) (n : Node) : Res (Option (List ℚ)) :=
  if n.name = "animated" then .ok none
  else match mapRes (fun p => floatOpt F p.2) (vectorDict n) with
    | .error e => .error e
    | .ok l => .ok (some l)

/-- `gradient.keys()`, and iterating over a gradient: `sangfroid/value/gradient.py:52-53,61-62`. -/
def gradientKeys (F : Fl) (n : Node) : Res (List ℚ) :=
  match gradientStops F n with
  | .error e => .error e
  | .ok l => .ok (l.map Prod.fst)

/-- `gradient.values()`, the elements of the colours: `sangfroid/value/gradient.py:55-56`. -/
def gradientValues (F : Fl) (n : Node) : Res (List Node) :=
  match gradientStops F n with
  | .error e => .error e
  | .ok l => .ok (l.map Prod.snd)

/-- `gradient.items()`, `sangfroid/value/gradient.py:58-59`. -/
def gradientItems (F : Fl) (n : Node) : Res (List (ℚ × Node)) := gradientStops F n

/-- `transformation.keys()`, `sangfroid/value/transformation.py:120-125`. -/
def compositeKeys (n : Node) : List String := n.tagKids.map Node.name

/-- `transformation.values()`, `sangfroid/value/transformation.py:127-128`. -/
def compositeValues (n : Node) : Res (List (VCls × Node)) :=
  match compositeDict n with
  | .error e => .error e
  | .ok l => .ok (l.map Prod.snd)

/-- `transformation.items()`, `sangfroid/value/transformation.py:130-131`. -/
def compositeItems (n : Node) : Res (List (String × VCls × Node)) := compositeDict n

/-- `transformation.offset` and so on: `__getattr__`, `sangfroid/value/transformation.py:80-86`. (For names that
aren't attributes anyway.) -/
def compositeAttr (n : Node) (key : String) : Res (VCls × Node) :=
  match n.tagKids.filter (fun x => x.name = key) with
  | [] => .error .attr
  | [f] => if f.tagKids = [] then .error .attr else compositeGet n key
  | _ => .error .value

/-- `timeline.keys()`, `sangfroid/value/value.py:315-316`. -/
def timelineKeys (F : Fl) (ctx : Ctx) (n : Node) : Res (List T) :=
  match waypoints F ctx n with
  | .error e => .error e
  | .ok ws => .ok (ws.map Waypoint.time)

/-- `timeline.values()`, `sangfroid/value/value.py:318-319`. -/
def timelineValues (F : Fl) (ctx : Ctx) (n : Node) : Res (List Waypoint) := waypoints F ctx n

/-- `timeline.items()`, `sangfroid/value/value.py:321-322`. The keys of the dict are the waypoints' times. -/
def timelineItems (F : Fl) (ctx : Ctx) (n : Node) : Res (List (T × Waypoint)) :=
  match waypoints F ctx n with
  | .error e => .error e
  | .ok ws => .ok (ws.map fun w => (w.time, w))

end Sang
