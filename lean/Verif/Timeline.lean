import Verif.Value

/-!
# Timelines: `sangfroid/value/value.py`

A value's timeline is kept in its element: `<animated>` with one `<waypoint>` for each time. An
operation returns the element it leaves behind together with the outcome. Un-animating replaces
the element by another; then the element returned is the new one.
-/

namespace Sang

/-- Where a value's element is: the attributes of the root canvas found from it (`none` if it
isn't in an animation), and whether it has a parent element. `sangfroid/t.py:297-310`,
`sangfroid/value/value.py:80,87`. -/
structure Ctx where
  root : Option Attrs
  hasParent : Bool

/-! ## Waypoints -/

/-- `INTERPOLATION_TYPES`: names, and what the UI calls them. `sangfroid/value/value.py:460-468`. -/
def interpolationTypes : List (String × Option String) :=
  [("tcb", some "auto"), ("clamped", some "clamped"), ("constant", some "constant"),
   ("linear", some "linear"), ("ease", some "halt"), ("undefined", none)]

/-- `INTERPOLATION_TYPE_SYNONYMS`, `sangfroid/value/value.py:470-473`. -/
def interpolationSynonyms : List (String × String) :=
  interpolationTypes.filterMap fun p => p.2.map fun s => (s, p.1)

/-- `Waypoint._check_interpolation_type`, `sangfroid/value/value.py:517-538`. The second argument
there only changes the message. -/
def checkInterp (s : Str) : Res Str :=
  if s = "undefined".toList then .error .value
  else if (interpolationTypes.map fun p => p.1.toList).contains s then .ok s
  else match (interpolationSynonyms.map fun p => (p.1.toList, p.2.toList)).lookup s with
    | some t => .ok t
    | none => .error .value

/-- A waypoint; `val` is the element of its value. `sangfroid/value/value.py:475-499`. -/
structure Waypoint where
  time : T
  before : Str
  after : Str
  val : Node
  deriving DecidableEq

/-- A caller's way of giving a time. `sangfroid/value/value.py:304-313,487-495`. -/
inductive TimeArg where
  | num (q : ℚ)
  | str (s : Str)
  | t (v : T)
  | other

/-- `Waypoint(time, value, before, after, ref)`, `sangfroid/value/value.py:477-499`. `root` comes
from `ref`. -/
def Waypoint.new (F : Fl) (root : Option Attrs) (time : TimeArg) (value : PV) (before after : Str) :
    Res Waypoint :=
  match value with
  | .val _ _ n =>
    if n.name = "animated" then .error .value
    else
      let t : Res T := match time with
        | .t v => .ok v
        | .num q => T.new F root (.num q)
        | .str s => T.new F root (.str s)
        | .other => .error .type
      match t with
      | .error e => .error e
      | .ok t => match checkInterp before with
        | .error e => .error e
        | .ok b => match checkInterp after with
          | .error e => .error e
          | .ok a => .ok ⟨t, b, a, n⟩
  | _ => .error .type

/-- `waypoint.before = v`, `sangfroid/value/value.py:505-507`. -/
def Waypoint.setBefore (w : Waypoint) (s : Str) : Waypoint × Res Unit :=
  match checkInterp s with
  | .error e => (w, .error e)
  | .ok b => ({w with before := b}, .ok ())

/-- `waypoint.after = v`, `sangfroid/value/value.py:513-515`. -/
def Waypoint.setAfter (w : Waypoint) (s : Str) : Waypoint × Res Unit :=
  match checkInterp s with
  | .error e => (w, .error e)
  | .ok a => ({w with after := a}, .ok ())

/-- `waypoint.tag`: a new element, with a copy of the value's. `sangfroid/value/value.py:540-551`. -/
def Waypoint.tag (w : Waypoint) : Node :=
  .tag "waypoint" [("time", .t w.time), ("before", .str w.before), ("after", .str w.after)] [w.val]

/-- `Waypoint.from_tag(tag, our_type)`, `sangfroid/value/value.py:553-592`. A waypoint without a
value, or with more than one, raises `NameError` while making the message (lines 573, 576). -/
def Waypoint.fromTag (F : Fl) (root : Option Attrs) (ourType : Str) (n : Node) : Res Waypoint :=
  if n.name ≠ "waypoint" then .error .value
  else match n.attrs.get "time" with
    | none => .error .key
    | some a => match T.new F root a.toTArg with
      | .error e => .error e
      | .ok t => match n.tagKids with
        | [v] =>
          if v.name = "animated" then .error .value
          else if v.name.toList ≠ ourType then .error .value
          else match Sang.fromTag v with
            | .error e => .error e
            | .ok _ => match strAttr n "before" with
              | .error e => .error e
              | .ok b => match strAttr n "after" with
                | .error e => .error e
                | .ok a => match checkInterp b with
                  | .error e => .error e
                  | .ok b => match checkInterp a with
                    | .error e => .error e
                    | .ok a => .ok ⟨t, b, a, v⟩
        | _ => .error .unbound

/-! ## Dicts of waypoints -/

/-- Whether two times are the same key of a dict: same hash, then equal. `sangfroid/t.py:247-248,
284-289`. Simplification: different (frames, fps) pairs have different hashes. (If both are zero
frames, their hashes agree; then `==` raises if their known rates differ: see `zeroClash`.) -/
def T.sameKey (a b : T) : Bool := (a.frames = 0 ∧ b.frames = 0) ∨ a = b

/-- Both rates are known and differ, so that comparing raises. `sangfroid/t.py:227-234`. -/
def T.fpsDiffer (a b : T) : Bool :=
  match a.fps, b.fps with
  | some x, some y => x ≠ y
  | _, _ => false

/-- Looking up `t` in a dict of waypoints compares it with a time that has the same hash but
another rate. -/
def zeroClash (t : T) (ws : List Waypoint) : Bool :=
  t.frames = 0 ∧ ws.any fun w => w.time.frames = 0 ∧ t.fpsDiffer w.time

/-- `d[w.time] = w`: replaces in place, or goes last. `sangfroid/value/value.py:152,371,420`. -/
def putWp (w : Waypoint) : List Waypoint → List Waypoint
  | [] => [w]
  | x :: r => if x.time.sameKey w.time then w :: r else x :: putWp w r

/-- `del d[t]`: `KeyError` if absent. `sangfroid/value/value.py:363,433`. -/
def delWp (t : T) : List Waypoint → Res (List Waypoint)
  | [] => .error .key
  | x :: r =>
    if x.time.sameKey t then .ok r
    else match delWp t r with
      | .error e => .error e
      | .ok r' => .ok (x :: r')

/-- `value._waypoint_tags()`, `sangfroid/value/value.py:111-128`. -/
def waypointTags (n : Node) : List Node := if n.name ≠ "animated" then [] else n.tagKids

/-- `value._waypoints()`, `sangfroid/value/value.py:130-154`. All times come from the same root,
so no two known rates differ. -/
def waypoints (F : Fl) (ctx : Ctx) (n : Node) : Res (List Waypoint) :=
  if waypointTags n = [] then .ok []
  else match strAttr n "type" with
    | .error e => .error e
    | .ok ty => match mapRes (Waypoint.fromTag F ctx.root ty) (waypointTags n) with
      | .error e => .error e
      | .ok ws => .ok (ws.foldl (fun d w => putWp w d) [])

/-- `value.our_type`, `sangfroid/value/value.py:188-202`. -/
def ourType (n : Node) : Res Str :=
  if n.name = "animated" then strAttr n "type" else .ok n.name.toList

/-- `sorted(ws)` on waypoints: stable, by time. `sangfroid/value/value.py:180,375,594-601`. -/
def sortWps (ws : List Waypoint) : List Waypoint :=
  ws.insertionSort fun a b => a.time.frames ≤ b.time.frames

/-- Some two rates are known and differ. Simplification: sorting such a list always raises
(CPython's sort might not compare those two). -/
def rateClash (ws : List Waypoint) : Bool :=
  ws.any fun a => ws.any fun b => a.time.fpsDiffer b.time

/-! ## Animating and un-animating -/

/-- `_set_animated(True, adjust_contents=False)`, `sangfroid/value/value.py:54-64`. -/
def startAnimation (n : Node) : Node :=
  if n.name = "animated" then n
  else (n.setAttrs [("type", .str n.name.toList)]).setName "animated"

/-- `_set_animated(False)`, `sangfroid/value/value.py:54-55,69-88`: the element becomes a copy of
the first waypoint's value. Without a parent, `replace_with` raises after the element has been
cleared. -/
def unAnimate (F : Fl) (ctx : Ctx) (n : Node) : Node × Res Unit :=
  if n.name ≠ "animated" then (n, .ok ())
  else match waypoints F ctx n with
    | .error e => (n, .error e)
    | .ok [] => (n, .error .index)
    | .ok (w :: _) => if ctx.hasParent then (w.val, .ok ()) else (n.setKids [], .error .value)

/-- Elements with newlines between them. `sangfroid/value/value.py:180-183`. -/
def withNewlines : List Node → List Node
  | [] => []
  | [x] => [x]
  | x :: y :: r => x :: .text ['\n'] :: withNewlines (y :: r)

/-- `value._set_waypoints(v)`, `sangfroid/value/value.py:156-183`. -/
def setWaypoints (F : Fl) (ctx : Ctx) (ws : List Waypoint) (n : Node) : Node × Res Unit :=
  if ws = [] then unAnimate F ctx n
  else if rateClash ws then ((startAnimation n).setKids [], .error .value)
  else ((startAnimation n).setKids (withNewlines ((sortWps ws).map Waypoint.tag)), .ok ())

/-! ## Subscripts -/

/-- `timeline._ensure_fps(t)`, `sangfroid/value/value.py:303-313`. -/
def ensureFps (F : Fl) (ctx : Ctx) : TimeArg → Res T
  | .num q => T.new F ctx.root (.num q)
  | .str s => T.new F ctx.root (.str s)
  | .t v => match v.fps with
    | none => T.new F ctx.root (.num v.frames)
    | some _ => .ok v
  | .other => .error .type

/-- What can be assigned to a subscript: a waypoint, or anything else. -/
inductive SetArg where
  | wp (w : Waypoint)
  | py (v : PV)

/-- The waypoint made from what was assigned, `sangfroid/value/value.py:395-409`. (The caller's
waypoint object also gets the new time.) -/
def makeWp (F : Fl) (ctx : Ctx) (c : VCls) (t : T) : SetArg → Res Waypoint
  | .wp w => .ok {w with time := t}
  | .py v =>
    let value : Res PV := match v with
      | .val c' r m =>
        if c' = c then .ok (.val c' r m)
        else match newValue F c (.val c' r m) with
          | .error e => .error e
          | .ok m' => .ok (.val c none m')
      | v => match newValue F c v with
          | .error e => .error e
          | .ok m' => .ok (.val c none m')
    match value with
    | .error e => .error e
    | .ok value => Waypoint.new F ctx.root (.t t) value "clamped".toList "clamped".toList

/-- `timeline[t] = v`, `sangfroid/value/value.py:391-422`. `c` is the class of the value. -/
def setItem (F : Fl) (ctx : Ctx) (c : VCls) (t : TimeArg) (v : SetArg) (n : Node) :
    Node × Res Unit :=
  match ensureFps F ctx t with
  | .error e => (n, .error e)
  | .ok t => match makeWp F ctx c t v with
    | .error e => (n, .error e)
    | .ok w =>
      let n := if n.name = "animated" then n else startAnimation (n.setKids [])
      match waypoints F ctx n with
      | .error e => (n, .error e)
      | .ok ws =>
        if zeroClash t ws then (n, .error .value)
        else setWaypoints F ctx (putWp w ws) n

/-- The key used by `del timeline[t]`, `sangfroid/value/value.py:426-429`; `none` if it can't be
a key of the dict. -/
def delKey (F : Fl) (ctx : Ctx) : TimeArg → Res (Option T)
  | .other => .ok none
  | t => match ensureFps F ctx t with
    | .error e => .error e
    | .ok t => .ok (some t)

/-- `del timeline[t]`, `sangfroid/value/value.py:424-435`. -/
def delItem (F : Fl) (ctx : Ctx) (t : TimeArg) (n : Node) : Node × Res Unit :=
  match delKey F ctx t with
  | .error e => (n, .error e)
  | .ok key => match waypoints F ctx n with
    | .error e => (n, .error e)
    | .ok ws => match key with
      | none => (n, .error .key)
      | some t =>
        if zeroClash t ws then (n, .error .value)
        else match delWp t ws with
          | .error e => (n, .error e)
          | .ok ws' => setWaypoints F ctx ws' n

/-- Whether `s` occurs in `t`: `s in t`. -/
def isInfix (s t : Str) : Bool :=
  match t with
  | [] => s.isEmpty
  | c :: r => s.isPrefixOf (c :: r) || isInfix s r

/-- The characters the serializer escapes. -/
def escapeXml (s : Str) : Str :=
  (s.map fun c => if c = '&' then "&amp;".toList else if c = '<' then "&lt;".toList
    else if c = '>' then "&gt;".toList else [c]).flatten

mutual
/-- `str(tag)`. Simplification: attribute values are always in double quotes, unescaped quotes
inside, and empty elements have an end tag; these don't matter for the one use,
`sangfroid/value/value.py:381`. -/
def Node.serial (F : Fl) : Node → Str
  | .text s => escapeXml s
  | .tag n a ks =>
    '<' :: n.toList ++ (a.map fun p => ' ' :: p.1.toList ++ '=' :: '"' :: escapeXml (p.2.str' F) ++
      ['"']).flatten ++ '>' :: Node.serialKids F ks ++ '<' :: '/' :: n.toList ++ ['>']

/-- Of the children. -/
def Node.serialKids (F : Fl) : List Node → Str
  | [] => []
  | x :: r => Node.serial F x ++ Node.serialKids F r
end

/-- The loop in `timeline[time]`, `sangfroid/value/value.py:383-389`. -/
def seekWp (time : TOther) : List Waypoint → Res Waypoint
  | [] => .error .key
  | w :: r => match w.time.eq time with
    | .error e => .error e
    | .ok true => .ok w
    | .ok false => match w.time.gt time with
      | .error e => .error e
      | .ok true => .error .key
      | .ok false => seekWp time r

/-- `timeline[time]`, `sangfroid/value/value.py:380-389`. -/
def getItem (F : Fl) (ctx : Ctx) (time : TOther) (n : Node) : Res Waypoint :=
  if isInfix "x_y".toList (n.serial F) then .error .value
  else match waypoints F ctx n with
    | .error e => .error e
    | .ok ws => seekWp time ws

/-! ## Animating with the contents; adding; assigning -/

/-- `value.is_animated = True`, `sangfroid/value/value.py:54-68`. -/
def animate (F : Fl) (ctx : Ctx) (c : VCls) (n : Node) : Node × Res Unit :=
  if n.name = "animated" then (n, .ok ())
  else match getValue F ctx.root c n with
    | .error e => (n, .error e)
    | .ok v => setItem F ctx c (.num 0) (.py v) ((startAnimation n).setKids [])

/-- `value.is_animated = whether`, `sangfroid/value/value.py:45-88`. -/
def setAnimated (F : Fl) (ctx : Ctx) (c : VCls) (whether : Bool) (n : Node) : Node × Res Unit :=
  if whether then animate F ctx c n else unAnimate F ctx n

/-- `old.time==new.time`, when no two known rates differ. `sangfroid/value/value.py:358`. -/
def T.sameTime (a b : T) : Bool := a.frames = b.frames

/-- `del existing[old]` for each clash, `sangfroid/value/value.py:361-363`. -/
def delClashes : List T → List Waypoint → Res (List Waypoint)
  | [], ws => .ok ws
  | t :: r, ws => match delWp t ws with
    | .error e => .error e
    | .ok ws' => delClashes r ws'

/-- The times of existing waypoints which are also times of new ones, once for each pair.
`sangfroid/value/value.py:354-359`. -/
def clashes (existing new : List Waypoint) : List T :=
  existing.flatMap fun o => (new.filter fun w => o.time.sameTime w.time).map fun _ => o.time

/-- `timeline.add(new, overwrite)` for a list of waypoints, `sangfroid/value/value.py:329-378`. -/
def addWaypoints (F : Fl) (ctx : Ctx) (c : VCls) (new : List Waypoint) (overwrite : Bool) (n : Node) :
    Node × Res Unit :=
  match waypoints F ctx n with
  | .error e => (n, .error e)
  | .ok existing =>
    if existing.any (fun o => new.any fun w => o.time.fpsDiffer w.time) then (n, .error .value)
    else
      let cs := clashes existing new
      let kept : Res (List Waypoint) :=
        if overwrite then delClashes cs existing
        else if cs = [] then .ok existing else .error .value
      match kept with
      | .error e => (n, .error e)
      | .ok kept =>
        match animate F ctx c n with
        | (n, .error e) => (n, .error e)
        | (n, .ok ()) =>
          let all := (new.foldl (fun d w => putWp w d) []).foldl (fun d w => putWp w d) kept
          if new.any (fun w => zeroClash w.time new) then (n, .error .value)
          else if rateClash all then (n.setKids [], .error .value)
          else (n.setKids ((sortWps all).map Waypoint.tag), .ok ())

/-- `value.timeline += new`: `__iadd__` adds with overwriting but returns `None`, which Python then
assigns to `value.timeline`: `TypeError`. `sangfroid/value/value.py:96-109,324-327`. -/
def iaddWaypoints (F : Fl) (ctx : Ctx) (c : VCls) (new : List Waypoint) (n : Node) : Node × Res Unit :=
  match addWaypoints F ctx c new true n with
  | (n, .error e) => (n, .error e)
  | (n, .ok ()) => (n, .error .type)

/-- What can be assigned to `value.timeline`: a list (or dict) of waypoints, a list with something
else in it, the timeline of another value, this value's own timeline, or something else. For a list
with something else in it, `e` is what sorting it raises, or else asking the first of them for its
`tag`: usually `AttributeError` or `TypeError`. `sangfroid/value/value.py:96-109`. -/
inductive TimelineArg where
  | list (ws : List Waypoint)
  | mixed (e : Err)
  | ofValue (ctx : Ctx) (n : Node)
  | own
  | other

/-- `value.timeline = v`, `sangfroid/value/value.py:96-109`. Simplification: things other than
waypoints which can be sorted among them (such as keyframes, having a `time`) would leave the
waypoints before the first of them. -/
def setTimeline (F : Fl) (ctx : Ctx) (v : TimelineArg) (n : Node) : Node × Res Unit :=
  match v with
  | .list ws => setWaypoints F ctx ws n
  -- `all([n for n in v if isinstance(n, Waypoint)])` is a test on the waypoints only, so it passes
  | .mixed e => ((startAnimation n).setKids [], .error e)
  | .ofValue ctx' m => match waypoints F ctx' m with
    | .error e => (n, .error e)
    | .ok ws => setWaypoints F ctx ws n
  | .own => (n, .ok ())
  | .other => (n, .error .type)

/-! ## Looking at a timeline -/

/-- `list(timeline)`: in order of time. `sangfroid/value/value.py:299-301`. All times come from the
same root and are different, so comparing never raises or ties. -/
def iterTimeline (F : Fl) (ctx : Ctx) (n : Node) : Res (List Waypoint) :=
  match waypoints F ctx n with
  | .error e => .error e
  | .ok ws => .ok (sortWps ws)

/-- `len(timeline)` and `len(value)`, `sangfroid/value/value.py:185-186,450-451`. -/
def lenTimeline (F : Fl) (ctx : Ctx) (n : Node) : Res ℕ :=
  match waypoints F ctx n with
  | .error e => .error e
  | .ok ws => .ok ws.length

/-- `waypoint == waypoint`: only the times. `sangfroid/value/value.py:597-601`. -/
def Waypoint.eq (a b : Waypoint) : Res Bool := a.time.eq (.t b.time)

/-- `==` of two lists of waypoints, item by item. (The items are always different objects.) -/
def wpsEq : List Waypoint → List Waypoint → Res Bool
  | [], [] => .ok true
  | a :: r, b :: s => match a.eq b with
    | .error e => .error e
    | .ok false => .ok false
    | .ok true => wpsEq r s
  | _, _ => .ok false

/-- `timeline == other`, `sangfroid/value/value.py:437-441`. Lists of different lengths are unequal
without looking at the items. -/
def timelineEq (F : Fl) (ctx ctx' : Ctx) (n m : Node) : Res Bool :=
  match waypoints F ctx n with
  | .error e => .error e
  | .ok ws => match waypoints F ctx' m with
    | .error e => .error e
    | .ok ws' => if ws.length ≠ ws'.length then .ok false else wpsEq ws ws'

end Sang
