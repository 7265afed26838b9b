import Verif.Group
import Verif.Text

/-!
# The text of layers, waypoints and timelines

`sangfroid/layer/layer.py:75-89`, `sangfroid/layer/text.py:61-65`, `sangfroid/value/canvas.py:6-22`,
`sangfroid/value/value.py:443-456,603-610`.
-/

namespace Sang

/-! ## Layers -/

/-- `SYMBOL` of each layer class: the first line after the head of the class in `sangfroid/layer/*.py`;
`Zoom` has that of `Scale`, from which it is derived. -/
def layerSymbols : List (String × String) :=
  [("Blur", "🟠"), ("Radial_Blur", "🟠"), ("Motion_Blur", "🟠"), ("Star", "⭐"), ("Solid_Color", "▊"),
   ("Region", "🟤"), ("Rectangle", "🟦"), ("Polygon", "⭓"), ("Outline", "⭔"), ("Circle", "🔵"),
   ("Checker_Board", "🙾"), ("Advanced_Outline", "⬡"), ("Group", "📂"), ("Import", "I"),
   ("Shade", "👓"), ("Bevel", "🫴"), ("Text", "𝕋"), ("Timeloop", "🕰️"), ("Stroboscope", "🔦"),
   ("Freetime", "🍦"), ("Xor_Pattern", "X"), ("Switch", "X"), ("Super_Sample", "X"), ("Sound", "🔊"),
   ("Skeleton", "💀"), ("Plant", "🪴"), ("Filter_Group", "X"), ("Duplicate", "X"),
   ("Spiral_Gradient", "X"), ("Radial_Gradient", "X"), ("Noise", "X"), ("Linear_Gradient", "X"),
   ("Curve_Gradient", "X"), ("Conical_Gradient", "X"), ("Mandelbrot", "🎨"), ("Julia", "🎨"),
   ("Lumakey", "🗝️"), ("Halftone3", "▓"), ("Halftone2", "▒"), ("Colorcorrect", "👍"),
   ("Clamp", "🗜️"), ("Chromakey", "🔑"), ("Simple_Circle", "X"), ("Metaballs", "X"), ("Warp", "X"),
   ("Twirl", "X"), ("Stretch", "X"), ("Spherize", "X"), ("Skeleton_Deformation", "X"),
   ("Noise_Distort", "X"), ("Inside_Out", "X"), ("Curve_Warp", "X"), ("Scale", "⚖️"),
   ("Zoom", "⚖️"), ("Translate", "⇄"), ("Rotate", "🗘")]

/-- `C.SYMBOL`. -/
def symbolOf (c : LClass) : Str := ((layerSymbols.lookup c.name).getD "?").toList

/-- The description in the text of a layer, if it has one that isn't empty: `sangfroid/layer/layer.py:80-86`. -/
def descText (F : Fl) (pr : Char → Bool) (n : Node) : Str :=
  match getDesc F n with
  | none => []
  | some [] => []
  | some (c :: s) => ' ' :: pyRepr pr (c :: s)

/-- `Layer.__repr__` without the bracket at the end, `sangfroid/layer/layer.py:75-86`, for a layer in so many
others. -/
def layerReprStart (F : Fl) (pr : Char → Bool) (depth : ℕ) (x : LObj) : Str :=
  '[' :: (List.replicate depth '-' ++ (symbolOf x.1 ++ (lower x.1.name.toList ++ descText F pr x.2)))

/-- `repr(layer)` (also `str(layer)`), `sangfroid/layer/layer.py:75-89`, `sangfroid/layer/text.py:61-65`, given the
elements around the layer's element, innermost first. -/
def layerRepr (F : Fl) (pr : Char → Bool) (ancestors : List Node) (x : LObj) : Res Str :=
  if x.1 = lcText then
    match getField "text" (.param .string (.str "Hello wombat!")) x.2 with
    | .error e => .error e
    | .ok (_, v) => .ok (layerReprStart F pr (tagDepth ancestors) x ++ (' ' :: (pyRepr pr (getString v) ++ [']'])))
  else .ok (layerReprStart F pr (tagDepth ancestors) x ++ [']'])

/-- `str` of a list, given the `repr` of what is in it. -/
def listStr (l : List Str) : Str := '[' :: (join [',', ' '] l ++ [']'])

/-- `str(canvas)` for the value of a group's canvas that isn't animated: `sangfroid/value/canvas.py:6-22`,
`sangfroid/value/value.py:204-211`. -/
def canvasStr (F : Fl) (pr : Char → Bool) (ancestors : List Node) (n : Node) : Res Str :=
  if n.tagKids.any fun x => x.name ≠ "layer" then .error .value
  else match mapRes asLayer n.tagKids with
    | .error e => .error e
    | .ok l => match mapRes (layerRepr F pr (n :: ancestors)) l with
      | .error e => .error e
      | .ok ss => .ok (listStr ss)

/-! ## Waypoints and timelines -/

/-- The emojis in `INTERPOLATION_TYPES`, `sangfroid/value/value.py:460-468`. -/
def interpolationEmojis : List (String × Char) :=
  [("tcb", '🟢'), ("clamped", '🔶'), ("constant", '🟥'), ("linear", '🌽'), ("ease", '🫐'), ("undefined", '🪨')]

/-- `INTERPOLATION_TYPES[s][1]`. -/
def emojiOf (s : Str) : Res Char :=
  match (interpolationEmojis.map fun p => (p.1.toList, p.2)).lookup s with
  | none => .error .key
  | some c => .ok c

/-- `str(waypoint)`, `sangfroid/value/value.py:603-610`. The class of its value is found from its element. -/
def waypointStr (F : Fl) (pr : Char → Bool) (root : Option Attrs) (w : Waypoint) : Res Str :=
  match emojiOf w.before with
  | .error e => .error e
  | .ok b => match emojiOf w.after with
    | .error e => .error e
    | .ok a => match fromTag w.val with
      | .error e => .error e
      | .ok c => match valueStr F pr root c w.val with
        | .error e => .error e
        | .ok s => .ok ('[' :: (padLeft 3 (w.time.str F) ++ ' ' :: b :: '-' :: a :: ' ' :: '-' :: ' ' :: (s ++ [']'])))

/-- `str(value.timeline)`, `sangfroid/value/value.py:443-456`: the waypoints are shown as a dict. -/
def timelineStr (F : Fl) (pr : Char → Bool) (ctx : Ctx) (c : VCls) (n : Node) : Res Str :=
  match waypoints F ctx n with
  | .error e => .error e
  | .ok ws => match mapRes (fun w => (waypointStr F pr ctx.root w).map fun s => (w.time.str F, s)) ws with
    | .error e => .error e
    | .ok l => .ok ("[timeline of ".toList ++ (valueClassName c ++ ':' :: (dictStr l ++ [']'])))

end Sang
