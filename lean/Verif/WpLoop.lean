import Verif.Timeline

/-!
# Loops over the waypoints of a timeline

`timeline.__iter__` is a generator, but the list it goes through is made before the first turn and isn't affected by what the
loop does to the timeline.
-/

namespace Sang

/-- `for w in l: body`, with `n` the element of the value that the body changes. Python's `for` over a list. -/
def forEachWp (body : Waypoint → Node → Node × Res Unit) : List Waypoint → Node → Node × Res Unit
  | [], n => (n, .ok ())
  | w :: l, n => match body w n with
    | (n, .error e) => (n, .error e)
    | (n, .ok ()) => forEachWp body l n

/-- `for w in value.timeline: body`, `sangfroid/value/value.py:299-301`. -/
def forTimeline (F : Fl) (ctx : Ctx) (body : Waypoint → Node → Node × Res Unit) (n : Node) : Node × Res Unit :=
  match iterTimeline F ctx n with
  | .error e => (n, .error e)
  | .ok l => forEachWp body l n

/-- `for w in reversed(list(value.timeline)): body`, `sangfroid/value/value.py:299-301`. -/
def forReversed (F : Fl) (ctx : Ctx) (body : Waypoint → Node → Node × Res Unit) (n : Node) : Node × Res Unit :=
  match iterTimeline F ctx n with
  | .error e => (n, .error e)
  | .ok l => forEachWp body l.reverse n

/-- `del value.timeline[w.time]`, the body of a loop. `sangfroid/value/value.py:424-435`. -/
def delHere (F : Fl) (ctx : Ctx) (w : Waypoint) (n : Node) : Node × Res Unit := delItem F ctx (.t w.time) n

/-- `del value.timeline[w.time]; value.timeline[dest] = w`, the body of a loop, where `dest` is worked out from `w`.
`sangfroid/value/value.py:424-435,391-422`. -/
def moveTo (F : Fl) (ctx : Ctx) (c : VCls) (dest : Waypoint → TimeArg) (w : Waypoint) (n : Node) : Node × Res Unit :=
  match delItem F ctx (.t w.time) n with
  | (n, .error e) => (n, .error e)
  | (n, .ok ()) => setItem F ctx c (dest w) (.wp w) n

end Sang
