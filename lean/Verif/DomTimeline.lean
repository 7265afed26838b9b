import Verif.Dom

/-!
# Timelines in memory: `sangfroid/value/value.py`

In `Verif.Timeline` a value that is put on a timeline is given by what its element says. Here it is given by the
element itself, which other objects may have too: a waypoint holds its value, not a copy of it, until an element is
made for the waypoint (`sangfroid/value/value.py:499,546-550`). Only that is at issue here; what the times mean and
what is read from the timeline are as in `Verif.Timeline`.
-/

namespace Sang

namespace Dom

/-- `tag.clear()`, `sangfroid/value/value.py:178,373`. -/
def emptied (v : ℕ) (h : Dom) : Dom := h.rewrite v (h.bare v).name (h.bare v).attrs []

/-- The rest of `timeline[t] = …` once there is a waypoint, whose value's element is `x`: the value of the timeline is
made animated if it isn't, then the waypoints are read, then the element is emptied, and only then are the elements of
the waypoints made. `sangfroid/value/value.py:411-422,156-183,540-551`. Simplification: if the timeline's value is in
`x` itself (and isn't `x`), then `x` is looked at as it is before the first waypoint is put in. -/
def timelinePut (F : Fl) (ctx : Ctx) (v : ℕ) (t : T) (before after : Str) (x : ℕ) (h : Dom) : Dom × Res Unit :=
  let h := if (h.bare v).name = "animated" then h
    else h.rewrite v "animated" [("type", .str (h.bare v).name.toList)] []
  match Sang.waypoints F ctx (h.node v) with
  | .error e => (h, .error e)
  | .ok ws =>
    if zeroClash t ws then (h, .error .value)
    else
      let h := h.emptied v
      let ws := putWp ⟨t, before, after, h.node x⟩ ws
      if rateClash ws then (h, .error .value)
      else (h.rewrite v (h.bare v).name (h.bare v).attrs (withNewlines ((sortWps ws).map Waypoint.tag)), .ok ())

/-- `timeline[t] = value`, for a value object of the class of the timeline's, whose element is `x`; `v` is the
element of the value that has the timeline. `sangfroid/value/value.py:391-422,477-499`. -/
def timelineSet (F : Fl) (ctx : Ctx) (v : ℕ) (t : TimeArg) (x : ℕ) (h : Dom) : Dom × Res Unit :=
  match ensureFps F ctx t with
  | .error e => (h, .error e)
  | .ok t =>
    if (h.bare x).name = "animated" then (h, .error .value)
    else h.timelinePut F ctx v t "clamped".toList "clamped".toList x

/-- `timeline.add(w, overwrite)` for one waypoint object, whose value's element is `x`.
`sangfroid/value/value.py:329-378`. Simplification: as for `timelinePut`. -/
def timelineAdd (F : Fl) (ctx : Ctx) (c : VCls) (v : ℕ) (t : T) (before after : Str) (x : ℕ) (overwrite : Bool)
    (h : Dom) : Dom × Res Unit :=
  match Sang.waypoints F ctx (h.node v) with
  | .error e => (h, .error e)
  | .ok existing =>
    if existing.any (fun o => o.time.fpsDiffer t) then (h, .error .value)
    else
      let cs := clashes existing [⟨t, before, after, h.node x⟩]
      let kept : Res (List Waypoint) :=
        if overwrite then delClashes cs existing
        else if cs = [] then .ok existing else .error .value
      match kept with
      | .error e => (h, .error e)
      | .ok kept =>
        let r := animate F ctx c (h.node v)
        let h := if r.1 = h.node v then h else h.rewrite v r.1.name r.1.attrs r.1.kids
        match r.2 with
        | .error e => (h, .error e)
        | .ok () =>
          let h := h.emptied v
          let all := putWp ⟨t, before, after, h.node x⟩ kept
          if rateClash all then (h, .error .value)
          else (h.rewrite v (h.bare v).name (h.bare v).attrs ((sortWps all).map Waypoint.tag), .ok ())

end Dom

end Sang
