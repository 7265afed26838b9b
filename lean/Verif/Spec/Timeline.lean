import Verif.Xml

/-!
# Specification of timelines: finite maps from times to entries

Independent of the model of timelines: a timeline means a partial function from times (in frames)
to what is there.
-/

namespace Sang.Spec

/-- What a waypoint holds besides its time: its interpolations and (the element of) its value. -/
structure Entry where
  before : Str
  after : Str
  value : Node

/-- What is at each time, in frames from the start. -/
abbrev TMap := ℚ → Option Entry

/-- Nothing at any time. -/
def TMap.empty : TMap := fun _ => none

/-- The same map, except that `e` is at `q`. -/
def TMap.set (m : TMap) (q : ℚ) (e : Entry) : TMap := fun x => if x = q then some e else m x

/-- The same map, except that nothing is at `q`. -/
def TMap.erase (m : TMap) (q : ℚ) : TMap := fun x => if x = q then none else m x

/-- Everything in `l` put in, in order. -/
def TMap.setAll (m : TMap) (l : List (ℚ × Entry)) : TMap := l.foldl (fun m p => m.set p.1 p.2) m

/-- A change to a map. -/
inductive MapOp where
  | set (q : ℚ) (e : Entry)
  | del (q : ℚ)

/-- What the change does. -/
def MapOp.apply (m : TMap) : MapOp → TMap
  | .set q e => m.set q e
  | .del q => m.erase q

/-- How the change ends: deleting what isn't there is a `KeyError`. -/
def MapOp.outcome (m : TMap) : MapOp → Res Unit
  | .set _ _ => .ok ()
  | .del q => match m q with
    | some _ => .ok ()
    | none => .error .key

/-- A history of changes: the final map. -/
def applyAll (m : TMap) : List MapOp → TMap
  | [] => m
  | o :: r => applyAll (o.apply m) r

/-- A history of changes: how each one ends. -/
def outcomes (m : TMap) : List MapOp → List (Res Unit)
  | [] => []
  | o :: r => o.outcome m :: outcomes (o.apply m) r

/-- The interpolations a waypoint may have, and what the user interface calls them. -/
def interpolations : List (String × String) :=
  [("tcb", "auto"), ("clamped", "clamped"), ("constant", "constant"), ("linear", "linear"),
   ("ease", "halt")]

end Sang.Spec
