import Verif.LayerType

/-!
# The layer classes: `sangfroid/layer/*.py`

Generated from the source: every class decorated with `@Layer.handles_type()`, in the order in which
`sangfroid/layer/__init__.py:9-20` imports them, with its `SYNFIG_VERSION` and its fields. Real
numbers are the decimal literals of the source.
-/

namespace Sang

/-- `Blur`, `sangfroid/layer/blurs.py:6-21`. -/
def lcBlur : LClass := ⟨"Blur", some "0.3", false,
  [("z_depth", .param .real (.float (0))),
   ("amount", .param .real (.float (1))),
   ("blend_method", .blend 1),
   ("size", .param .vector (.tuple [200000003/2000000000, 200000003/2000000000])),
   ("type_", .param .integer (.int (1)))]⟩

/-- `Radial_Blur`, `sangfroid/layer/blurs.py:26-43`. -/
def lcRadialBlur : LClass := ⟨"Radial_Blur", some "0.1", false,
  [("z_depth", .param .real (.float (0))),
   ("amount", .param .real (.float (1))),
   ("blend_method", .blend 1),
   ("origin", .param .vector (.tuple [0, 0])),
   ("size", .param .real (.float (1/5))),
   ("fade_out", .param .bool (.bool false))]⟩

/-- `Motion_Blur`, `sangfroid/layer/blurs.py:48-63`. -/
def lcMotionBlur : LClass := ⟨"Motion_Blur", some "0.2", false,
  [("aperture", .param .time (.str "1s")),
   ("subsamples_factor", .param .real (.float (1))),
   ("subsampling_type", .param .integer (.int (2))),
   ("subsample_start", .param .real (.float (0))),
   ("subsample_end", .param .real (.float (1)))]⟩

/-- `Star`, `sangfroid/layer/geometry.py:6-41`. -/
def lcStar : LClass := ⟨"Star", some "0.1", false,
  [("z_depth", .param .real (.float (0))),
   ("amount", .param .real (.float (1))),
   ("blend_method", .blend 0),
   ("color", .param .color (.tuple [1, 1, 1, 1])),
   ("origin", .param .vector (.tuple [0, 0])),
   ("invert", .param .bool (.bool false)),
   ("antialias", .param .bool (.bool true)),
   ("feather", .param .real (.float (0))),
   ("blurtype", .param .integer (.int (1))),
   ("winding_style", .param .integer (.int (0))),
   ("radius1", .param .real (.float (1))),
   ("radius2", .param .real (.float (19/50))),
   ("angle", .param .angle (.float (90))),
   ("points", .param .integer (.int (5))),
   ("regular_polygon", .param .bool (.bool false))]⟩

/-- `Solid_Color`, `sangfroid/layer/geometry.py:46-59`. -/
def lcSolidColor : LClass := ⟨"Solid_Color", some "0.1", false,
  [("z_depth", .param .real (.float (0))),
   ("amount", .param .real (.float (1))),
   ("blend_method", .blend 0),
   ("color", .param .color (.tuple [1, 1, 1, 1]))]⟩

/-- `Region`, `sangfroid/layer/geometry.py:64-91`. -/
def lcRegion : LClass := ⟨"Region", some "0.1", false,
  [("z_depth", .param .real (.float (0))),
   ("amount", .param .real (.float (1))),
   ("blend_method", .blend 0),
   ("color", .param .color (.tuple [1, 1, 1, 1])),
   ("origin", .param .vector (.tuple [0, 0])),
   ("invert", .param .bool (.bool false)),
   ("antialias", .param .bool (.bool true)),
   ("feather", .param .real (.float (0))),
   ("blurtype", .param .integer (.int (1))),
   ("winding_style", .param .integer (.int (0))),
   ("bline", .notImpl)]⟩

/-- `Rectangle`, `sangfroid/layer/geometry.py:96-125`. -/
def lcRectangle : LClass := ⟨"Rectangle", some "0.2", false,
  [("z_depth", .param .real (.float (0))),
   ("amount", .param .real (.float (1))),
   ("blend_method", .blend 0),
   ("color", .param .color (.tuple [1, 1, 1, 1])),
   ("point1", .param .vector (.tuple [0, 0])),
   ("point2", .param .vector (.tuple [1, 1])),
   ("expand", .param .real (.float (0))),
   ("invert", .param .bool (.bool false)),
   ("feather_x", .param .real (.float (0))),
   ("feather_y", .param .real (.float (0))),
   ("bevel", .param .real (.float (0))),
   ("bevCircle", .param .bool (.bool true))]⟩

/-- `Polygon`, `sangfroid/layer/geometry.py:130-157`. -/
def lcPolygon : LClass := ⟨"Polygon", some "0.1", false,
  [("z_depth", .param .real (.float (0))),
   ("amount", .param .real (.float (1))),
   ("blend_method", .blend 0),
   ("color", .param .color (.tuple [1, 1, 1, 1])),
   ("origin", .param .vector (.tuple [0, 0])),
   ("invert", .param .bool (.bool false)),
   ("antialias", .param .bool (.bool true)),
   ("feather", .param .real (.float (0))),
   ("blurtype", .param .integer (.int (1))),
   ("winding_style", .param .integer (.int (0))),
   ("vector_list", .notImpl)]⟩

/-- `Outline`, `sangfroid/layer/geometry.py:162-199`. -/
def lcOutline : LClass := ⟨"Outline", some "0.3", false,
  [("z_depth", .param .real (.float (0))),
   ("amount", .param .real (.float (1))),
   ("blend_method", .blend 0),
   ("color", .param .color (.tuple [0, 0, 0, 1])),
   ("origin", .param .vector (.tuple [0, 0])),
   ("invert", .param .bool (.bool false)),
   ("antialias", .param .bool (.bool true)),
   ("feather", .param .real (.float (0))),
   ("blurtype", .param .integer (.int (1))),
   ("winding_style", .param .integer (.int (0))),
   ("bline", .notImpl),
   ("width", .param .real (.float (166666667/10000000000))),
   ("expand", .param .real (.float (0))),
   ("sharp_cusps", .param .bool (.bool true)),
   ("round_tip", .param .bool (.bool true)),
   ("homogeneous_width", .param .bool (.bool true))]⟩

/-- `Circle`, `sangfroid/layer/geometry.py:204-225`. -/
def lcCircle : LClass := ⟨"Circle", some "0.2", false,
  [("z_depth", .param .real (.float (0))),
   ("amount", .param .real (.float (1))),
   ("blend_method", .blend 0),
   ("color", .param .color (.tuple [1, 1, 1, 1])),
   ("radius", .param .real (.float (1))),
   ("feather", .param .real (.float (0))),
   ("origin", .param .vector (.tuple [0, 0])),
   ("invert", .param .bool (.bool false))]⟩

/-- `Checker_Board`, `sangfroid/layer/geometry.py:230-249`. -/
def lcCheckerBoard : LClass := ⟨"Checker_Board", some "0.2", false,
  [("z_depth", .param .real (.float (0))),
   ("amount", .param .real (.float (1))),
   ("blend_method", .blend 0),
   ("color", .param .color (.tuple [1, 1, 1, 1])),
   ("origin", .param .vector (.tuple [1/8, 1/8])),
   ("size", .param .vector (.tuple [1/4, 1/4])),
   ("antialias", .param .bool (.bool true))]⟩

/-- `Advanced_Outline`, `sangfroid/layer/geometry.py:254-303`. -/
def lcAdvancedOutline : LClass := ⟨"Advanced_Outline", some "0.3", false,
  [("z_depth", .param .real (.float (0))),
   ("amount", .param .real (.float (1))),
   ("blend_method", .blend 0),
   ("color", .param .color (.tuple [0, 0, 0, 1])),
   ("origin", .param .vector (.tuple [0, 0])),
   ("invert", .param .bool (.bool false)),
   ("antialias", .param .bool (.bool true)),
   ("feather", .param .real (.float (0))),
   ("blurtype", .param .integer (.int (1))),
   ("winding_style", .param .integer (.int (0))),
   ("bline", .notImpl),
   ("width", .param .real (.float (166666667/10000000000))),
   ("expand", .param .real (.float (0))),
   ("start_tip", .param .integer (.int (1))),
   ("end_tip", .param .integer (.int (1))),
   ("cusp_type", .param .integer (.int (0))),
   ("smoothness", .param .real (.float (1))),
   ("homogeneous", .param .bool (.bool true)),
   ("wplist", .notImpl),
   ("dash_enabled", .param .bool (.bool false)),
   ("dilist", .notImpl),
   ("dash_offset", .param .real (.float (0)))]⟩

/-- `Group`, `sangfroid/layer/group.py:8-54`. -/
def lcGroup : LClass := ⟨"Group", some "0.3", true,
  [("z_depth", .param .real (.float (0))),
   ("amount", .param .real (.float (1))),
   ("blend_method", .blend 0),
   ("origin", .param .vector (.tuple [0, 0])),
   ("transformation", .param .composite (.parts [("offset", [0, 0]), ("angle", [0]), ("skew_angle", [0]), ("scale", [1, 1])])),
   ("canvas", .param .canvas .layers),
   ("time_dilation", .param .real (.float (1))),
   ("time_offset", .param .time (.int (0))),
   ("children_lock", .param .bool (.bool false)),
   ("outline_grow", .param .real (.float (0))),
   ("z_range", .param .bool (.bool false)),
   ("z_range_position", .param .real (.float (0))),
   ("z_range_depth", .param .real (.float (0))),
   ("z_range_blur", .param .real (.float (0)))]⟩

/-- `Import`, `sangfroid/layer/other.py:6-28`. -/
def lcImport : LClass := ⟨"Import", some "0.1", false,
  [("z_depth", .param .real (.float (0))),
   ("amount", .param .real (.float (1))),
   ("blend_method", .blend 0),
   ("tl", .param .vector (.tuple [-5333333611/10000000000, 5333333611/10000000000])),
   ("br", .param .vector (.tuple [5333333611/10000000000, -5333333611/10000000000])),
   ("c", .param .integer (.int (1))),
   ("gamma_adjust", .param .real (.float (1))),
   ("filename", .param .string (.str "drop.png")),
   ("time_offset", .param .time (.int (0)))]⟩

/-- `Shade`, `sangfroid/layer/stylise.py:6-27`. -/
def lcShade : LClass := ⟨"Shade", some "0.2", false,
  [("z_depth", .param .real (.float (0))),
   ("amount", .param .real (.float (3/4))),
   ("blend_method", .blend 12),
   ("color", .param .color (.tuple [1, 1, 1, 1])),
   ("origin", .param .vector (.tuple [200000003/1000000000, -200000003/1000000000])),
   ("size", .param .vector (.tuple [200000003/2000000000, 200000003/2000000000])),
   ("type_", .param .integer (.int (1))),
   ("invert", .param .bool (.bool false))]⟩

/-- `Bevel`, `sangfroid/layer/stylise.py:32-61`. -/
def lcBevel : LClass := ⟨"Bevel", some "0.2", false,
  [("z_depth", .param .real (.float (0))),
   ("amount", .param .real (.float (3/4))),
   ("blend_method", .blend 13),
   ("type_", .param .integer (.int (1))),
   ("color1", .param .color (.tuple [1, 1, 1, 1])),
   ("color2", .param .color (.tuple [0, 0, 0, 1])),
   ("angle", .param .angle (.float (135))),
   ("depth", .param .real (.float (1/5))),
   ("softness", .param .real (.float (1/10))),
   ("use_luma", .param .bool (.bool false)),
   ("solid", .param .bool (.bool false)),
   ("fake_origin", .param .vector (.tuple [0, 0]))]⟩

/-- `Text`, `sangfroid/layer/text.py:6-45`. -/
def lcText : LClass := ⟨"Text", some "0.5", false,
  [("z_depth", .param .real (.float (0))),
   ("amount", .param .real (.float (1))),
   ("blend_method", .blend 0),
   ("text", .param .string (.str "Hello wombat!")),
   ("color", .param .color (.tuple [1, 1, 1, 1])),
   ("family", .param .string (.str "Sans Serif")),
   ("style", .param .integer (.int (0))),
   ("weight", .param .integer (.int (400))),
   ("direction", .param .integer (.int (0))),
   ("compress", .param .real (.float (1))),
   ("vcompress", .param .real (.float (1))),
   ("size", .param .vector (.tuple [1/4, 1/4])),
   ("orient", .param .vector (.tuple [1/2, 1/2])),
   ("origin", .param .vector (.tuple [0, 0])),
   ("use_kerning", .param .bool (.bool true)),
   ("grid_fit", .param .bool (.bool false)),
   ("invert", .param .bool (.bool false))]⟩

/-- `Timeloop`, `sangfroid/layer/time.py:6-23`. -/
def lcTimeloop : LClass := ⟨"Timeloop", some "0.2", false,
  [("z_depth", .param .real (.float (0))),
   ("link_time", .param .time (.int (0))),
   ("local_time", .param .time (.int (0))),
   ("duration", .param .time (.str "1s")),
   ("only_for_positive_duration", .param .bool (.bool false)),
   ("symmetrical", .param .bool (.bool true))]⟩

/-- `Stroboscope`, `sangfroid/layer/time.py:28-37`. -/
def lcStroboscope : LClass := ⟨"Stroboscope", some "0.1", false,
  [("z_depth", .param .real (.float (0))),
   ("frequency", .param .real (.float (2)))]⟩

/-- `Freetime`, `sangfroid/layer/time.py:42-51`. -/
def lcFreetime : LClass := ⟨"Freetime", some "0.1", false,
  [("z_depth", .param .real (.float (0))),
   ("time", .param .time (.int (0)))]⟩

/-- `Xor_Pattern`, `sangfroid/layer/tbd.py:10-24`. -/
def lcXorPattern : LClass := ⟨"Xor_Pattern", some "0.1", false,
  [("z_depth", .param .real (.float (0))),
   ("amount", .param .real (.float (1))),
   ("blend_method", .blend 0),
   ("origin", .param .vector (.tuple [1/8, 1/8])),
   ("size", .param .vector (.tuple [1/4, 1/4]))]⟩

/-- `Switch`, `sangfroid/layer/tbd.py:29-71`. -/
def lcSwitch : LClass := ⟨"Switch", some "0.0", false,
  [("z_depth", .param .real (.float (0))),
   ("amount", .param .real (.float (1))),
   ("blend_method", .blend 0),
   ("origin", .param .vector (.tuple [0, 0])),
   ("transformation", .param .composite (.parts [("offset", [0, 0]), ("angle", [0]), ("skew_angle", [0]), ("scale", [1, 1])])),
   ("canvas", .notImpl),
   ("tl", .param .vector (.tuple [-5333333611/10000000000, 5333333611/10000000000])),
   ("br", .param .vector (.tuple [5333333611/10000000000, -5333333611/10000000000])),
   ("c", .param .integer (.int (1))),
   ("gamma_adjust", .param .real (.float (1))),
   ("filename", .param .string (.str "drop.png")),
   ("time_offset", .param .time (.int (0))),
   ("time_dilation", .param .real (.float (1))),
   ("children_lock", .param .bool (.bool true)),
   ("outline_grow", .param .real (.float (0))),
   ("layer_name", .param .string (.str "drop.png")),
   ("layer_depth", .param .integer (.int (-1)))]⟩

/-- `Super_Sample`, `sangfroid/layer/tbd.py:76-84`. -/
def lcSuperSample : LClass := ⟨"Super_Sample", some "0.2", false,
  [("width", .param .integer (.int (2))),
   ("height", .param .integer (.int (2)))]⟩

/-- `Sound`, `sangfroid/layer/tbd.py:89-101`. -/
def lcSound : LClass := ⟨"Sound", some "0.1", false,
  [("z_depth", .param .real (.float (0))),
   ("filename", .param .string (.str "laser.wav")),
   ("delay", .param .time (.int (0))),
   ("volume", .param .real (.float (1)))]⟩

/-- `Skeleton`, `sangfroid/layer/tbd.py:106-118`. -/
def lcSkeleton : LClass := ⟨"Skeleton", some "0.1", false,
  [("z_depth", .param .real (.float (0))),
   ("amount", .param .real (.float (1/2))),
   ("name", .param .string (.str "skeleton")),
   ("bones", .notImpl)]⟩

/-- `Plant`, `sangfroid/layer/tbd.py:123-167`. -/
def lcPlant : LClass := ⟨"Plant", some "0.2", false,
  [("z_depth", .param .real (.float (0))),
   ("amount", .param .real (.float (1))),
   ("blend_method", .blend 0),
   ("bline", .notImpl),
   ("origin", .param .vector (.tuple [0, 0])),
   ("gradient", .param .gradient (.stops [(0, [1, 1, 1, 1]), (1, [0, 0, 0, 1])])),
   ("split_angle", .param .angle (.float (10))),
   ("gravity", .param .vector (.tuple [0, -200000003/2000000000])),
   ("velocity", .param .real (.float (3/10))),
   ("perp_velocity", .param .real (.float (0))),
   ("size", .param .real (.float (3/200))),
   ("size_as_alpha", .param .bool (.bool false)),
   ("reverse", .param .bool (.bool true)),
   ("step", .param .real (.float (1/100))),
   ("seed", .param .integer (.int (1700432811))),
   ("splits", .param .integer (.int (5))),
   ("sprouts", .param .integer (.int (10))),
   ("random_factor", .param .real (.float (1/5))),
   ("drag", .param .real (.float (1/10))),
   ("use_width", .param .bool (.bool true))]⟩

/-- `Filter_Group`, `sangfroid/layer/tbd.py:172-201`. -/
def lcFilterGroup : LClass := ⟨"Filter_Group", some "0.1", false,
  [("z_depth", .param .real (.float (0))),
   ("amount", .param .real (.float (1))),
   ("blend_method", .blend 1),
   ("origin", .param .vector (.tuple [0, 0])),
   ("transformation", .param .composite (.parts [("offset", [0, 0]), ("angle", [0]), ("skew_angle", [0]), ("scale", [1, 1])])),
   ("canvas", .param .canvas .layers),
   ("time_dilation", .param .real (.float (1))),
   ("time_offset", .param .time (.int (0))),
   ("children_lock", .param .bool (.bool false)),
   ("outline_grow", .param .real (.float (0)))]⟩

/-- `Duplicate`, `sangfroid/layer/tbd.py:206-217`. -/
def lcDuplicate : LClass := ⟨"Duplicate", some "0.1", false,
  [("z_depth", .param .real (.float (0))),
   ("amount", .param .real (.float (1))),
   ("blend_method", .blend 0),
   ("index", .notImpl)]⟩

/-- `Spiral_Gradient`, `sangfroid/layer/tbd.py:222-242`. -/
def lcSpiralGradient : LClass := ⟨"Spiral_Gradient", some "0.2", false,
  [("z_depth", .param .real (.float (0))),
   ("amount", .param .real (.float (1))),
   ("blend_method", .blend 0),
   ("gradient", .param .gradient (.stops [(0, [1, 1, 1, 1]), (1, [0, 0, 0, 1])])),
   ("center", .param .vector (.tuple [0, 0])),
   ("radius", .param .real (.float (1/2))),
   ("angle", .param .angle (.float (0))),
   ("clockwise", .param .bool (.bool false))]⟩

/-- `Radial_Gradient`, `sangfroid/layer/tbd.py:247-267`. -/
def lcRadialGradient : LClass := ⟨"Radial_Gradient", some "0.2", false,
  [("z_depth", .param .real (.float (0))),
   ("amount", .param .real (.float (1))),
   ("blend_method", .blend 0),
   ("gradient", .param .gradient (.stops [(0, [1, 1, 1, 1]), (1, [0, 0, 0, 1])])),
   ("center", .param .vector (.tuple [0, 0])),
   ("radius", .param .real (.float (1/2))),
   ("loop", .param .bool (.bool false)),
   ("zigzag", .param .bool (.bool false))]⟩

/-- `Noise`, `sangfroid/layer/tbd.py:272-300`. -/
def lcNoise : LClass := ⟨"Noise", some "0.0", false,
  [("z_depth", .param .real (.float (0))),
   ("amount", .param .real (.float (1))),
   ("blend_method", .blend 0),
   ("gradient", .param .gradient (.stops [(0, [1, 1, 1, 1]), (1, [0, 0, 0, 1])])),
   ("seed", .param .integer (.int (1700432620))),
   ("size", .param .vector (.tuple [1, 1])),
   ("smooth", .param .integer (.int (2))),
   ("detail", .param .integer (.int (4))),
   ("speed", .param .real (.float (0))),
   ("turbulent", .param .bool (.bool false)),
   ("do_alpha", .param .bool (.bool false)),
   ("super_sample", .param .bool (.bool false))]⟩

/-- `Linear_Gradient`, `sangfroid/layer/tbd.py:305-325`. -/
def lcLinearGradient : LClass := ⟨"Linear_Gradient", some "0.1", false,
  [("z_depth", .param .real (.float (0))),
   ("amount", .param .real (.float (1))),
   ("blend_method", .blend 0),
   ("p1", .param .vector (.tuple [1, 1])),
   ("p2", .param .vector (.tuple [-1, -1])),
   ("gradient", .param .gradient (.stops [(0, [1, 1, 1, 1]), (1, [0, 0, 0, 1])])),
   ("loop", .param .bool (.bool false)),
   ("zigzag", .param .bool (.bool false))]⟩

/-- `Curve_Gradient`, `sangfroid/layer/tbd.py:330-356`. -/
def lcCurveGradient : LClass := ⟨"Curve_Gradient", some "0.0", false,
  [("z_depth", .param .real (.float (0))),
   ("amount", .param .real (.float (1))),
   ("blend_method", .blend 0),
   ("origin", .param .vector (.tuple [0, 0])),
   ("width", .param .real (.float (166666667/10000000000))),
   ("bline", .notImpl),
   ("gradient", .param .gradient (.stops [(0, [1, 1, 1, 1]), (1, [0, 0, 0, 1])])),
   ("loop", .param .bool (.bool false)),
   ("zigzag", .param .bool (.bool false)),
   ("perpendicular", .param .bool (.bool false)),
   ("fast", .param .bool (.bool true))]⟩

/-- `Conical_Gradient`, `sangfroid/layer/tbd.py:361-379`. -/
def lcConicalGradient : LClass := ⟨"Conical_Gradient", some "0.2", false,
  [("z_depth", .param .real (.float (0))),
   ("amount", .param .real (.float (1))),
   ("blend_method", .blend 0),
   ("gradient", .param .gradient (.stops [(0, [1, 1, 1, 1]), (1, [0, 0, 0, 1])])),
   ("center", .param .vector (.tuple [0, 0])),
   ("angle", .param .angle (.float (0))),
   ("symmetric", .param .bool (.bool false))]⟩

/-- `Mandelbrot`, `sangfroid/layer/tbd.py:384-424`. -/
def lcMandelbrot : LClass := ⟨"Mandelbrot", some "0.2", false,
  [("iterations", .param .integer (.int (32))),
   ("bailout", .param .real (.float (2))),
   ("broken", .param .bool (.bool false)),
   ("distort_inside", .param .bool (.bool true)),
   ("shade_inside", .param .bool (.bool true)),
   ("solid_inside", .param .bool (.bool false)),
   ("invert_inside", .param .bool (.bool false)),
   ("gradient_inside", .param .gradient (.stops [(0, [1, 0, 0, 1]), (1, [1, 1, 0, 1])])),
   ("gradient_offset_inside", .param .real (.float (0))),
   ("gradient_loop_inside", .param .bool (.bool true)),
   ("distort_outside", .param .bool (.bool true)),
   ("shade_outside", .param .bool (.bool true)),
   ("solid_outside", .param .bool (.bool false)),
   ("invert_outside", .param .bool (.bool false)),
   ("gradient_outside", .param .gradient (.stops [(0, [0, 0, 0, 0]), (1, [0, 0, 0, 1])])),
   ("smooth_outside", .param .bool (.bool true)),
   ("gradient_offset_outside", .param .real (.float (0))),
   ("gradient_scale_outside", .param .real (.float (1)))]⟩

/-- `Julia`, `sangfroid/layer/tbd.py:429-471`. -/
def lcJulia : LClass := ⟨"Julia", some "0.1", false,
  [("icolor", .param .color (.tuple [0, 0, 0, 1])),
   ("ocolor", .param .color (.tuple [0, 0, 0, 1])),
   ("color_shift", .param .angle (.float (0))),
   ("iterations", .param .integer (.int (32))),
   ("seed", .param .vector (.tuple [0, 0])),
   ("bailout", .param .real (.float (2))),
   ("distort_inside", .param .bool (.bool true)),
   ("shade_inside", .param .bool (.bool true)),
   ("solid_inside", .param .bool (.bool false)),
   ("invert_inside", .param .bool (.bool false)),
   ("color_inside", .param .bool (.bool true)),
   ("distort_outside", .param .bool (.bool true)),
   ("shade_outside", .param .bool (.bool true)),
   ("solid_outside", .param .bool (.bool false)),
   ("invert_outside", .param .bool (.bool false)),
   ("color_outside", .param .bool (.bool false)),
   ("color_cycle", .param .bool (.bool false)),
   ("smooth_outside", .param .bool (.bool true)),
   ("broken", .param .bool (.bool false))]⟩

/-- `Lumakey`, `sangfroid/layer/tbd.py:476-482`. -/
def lcLumakey : LClass := ⟨"Lumakey", some "0.2", false,
  [("z_depth", .param .real (.float (0)))]⟩

/-- `Halftone3`, `sangfroid/layer/tbd.py:487-506`. -/
def lcHalftone3 : LClass := ⟨"Halftone3", some "0.0", false,
  [("z_depth", .param .real (.float (0))),
   ("amount", .param .real (.float (1))),
   ("blend_method", .blend 1),
   ("size", .param .vector (.tuple [1/4, 1/4])),
   ("type_", .param .integer (.int (0))),
   ("subtractive", .param .bool (.bool true)),
   ("color", .param .color (.tuple [0, 1, 1, 1])),
   ("tone", .param (.tbd "tone") .none)]⟩

/-- `Halftone2`, `sangfroid/layer/tbd.py:511-533`. -/
def lcHalftone2 : LClass := ⟨"Halftone2", some "0.0", false,
  [("z_depth", .param .real (.float (0))),
   ("amount", .param .real (.float (1))),
   ("blend_method", .blend 1),
   ("origin", .param .vector (.tuple [0, 0])),
   ("angle", .param .angle (.float (0))),
   ("size", .param .vector (.tuple [1/4, 1/4])),
   ("color_light", .param .color (.tuple [1, 1, 1, 1])),
   ("color_dark", .param .color (.tuple [0, 0, 0, 1])),
   ("type_", .param .integer (.int (0)))]⟩

/-- `Colorcorrect`, `sangfroid/layer/tbd.py:538-552`. -/
def lcColorcorrect : LClass := ⟨"Colorcorrect", some "0.1", false,
  [("hue_adjust", .param .angle (.float (0))),
   ("brightness", .param .real (.float (0))),
   ("contrast", .param .real (.float (1))),
   ("exposure", .param .real (.float (0))),
   ("gamma", .param .real (.float (1)))]⟩

/-- `Clamp`, `sangfroid/layer/tbd.py:557-569`. -/
def lcClamp : LClass := ⟨"Clamp", some "0.2", false,
  [("invert_negative", .param .bool (.bool false)),
   ("clamp_ceiling", .param .bool (.bool true)),
   ("ceiling", .param .real (.float (1))),
   ("floor", .param .real (.float (0)))]⟩

/-- `Chromakey`, `sangfroid/layer/tbd.py:574-594`. -/
def lcChromakey : LClass := ⟨"Chromakey", some "0.1", false,
  [("z_depth", .param .real (.float (0))),
   ("key_color", .param .color (.tuple [0, 1, 0, 1])),
   ("lower_bound", .param .real (.float (1/1000))),
   ("upper_bound", .param .real (.float (1/1000))),
   ("supersample_width", .param .integer (.int (2))),
   ("supersample_height", .param .integer (.int (2))),
   ("desaturate", .param .bool (.bool true)),
   ("invert", .param .bool (.bool false))]⟩

/-- `Simple_Circle`, `sangfroid/layer/tbd.py:599-615`. -/
def lcSimpleCircle : LClass := ⟨"Simple_Circle", some "0.1", false,
  [("z_depth", .param .real (.float (0))),
   ("amount", .param .real (.float (1))),
   ("blend_method", .blend 0),
   ("color", .param .color (.tuple [1, 1, 1, 1])),
   ("center", .param .vector (.tuple [0, 0])),
   ("radius", .param .real (.float (1/2)))]⟩

/-- `Metaballs`, `sangfroid/layer/tbd.py:620-644`. -/
def lcMetaballs : LClass := ⟨"Metaballs", some "0.1", false,
  [("z_depth", .param .real (.float (0))),
   ("amount", .param .real (.float (1))),
   ("blend_method", .blend 0),
   ("gradient", .param .gradient (.stops [(0, [1, 1, 1, 1]), (1, [0, 0, 0, 1])])),
   ("centers", .notImpl),
   ("radii", .notImpl),
   ("weights", .notImpl),
   ("threshold", .param .real (.float (0))),
   ("threshold2", .param .real (.float (1))),
   ("positive", .param .bool (.bool false))]⟩

/-- `Warp`, `sangfroid/layer/tbd.py:649-669`. -/
def lcWarp : LClass := ⟨"Warp", some "0.2", false,
  [("src_tl", .param .vector (.tuple [-2, 2])),
   ("src_br", .param .vector (.tuple [2, -2])),
   ("dest_tl", .param .vector (.tuple [-17999999523/10000000000, 10499999523/5000000000])),
   ("dest_tr", .param .vector (.tuple [17999999523/10000000000, 10499999523/5000000000])),
   ("dest_br", .param .vector (.tuple [22000000477/10000000000, -2])),
   ("dest_bl", .param .vector (.tuple [-22000000477/10000000000, -2])),
   ("clip", .param .bool (.bool true)),
   ("interpolation", .param .integer (.int (3)))]⟩

/-- `Twirl`, `sangfroid/layer/tbd.py:674-688`. -/
def lcTwirl : LClass := ⟨"Twirl", some "0.1", false,
  [("center", .param .vector (.tuple [0, 0])),
   ("radius", .param .real (.float (1))),
   ("rotations", .param .angle (.float (0))),
   ("distort_inside", .param .bool (.bool true)),
   ("distort_outside", .param .bool (.bool false))]⟩

/-- `Stretch`, `sangfroid/layer/tbd.py:693-701`. -/
def lcStretch : LClass := ⟨"Stretch", some "0.1", false,
  [("amount", .param .vector (.tuple [1, 1])),
   ("center", .param .vector (.tuple [0, 0]))]⟩

/-- `Spherize`, `sangfroid/layer/tbd.py:706-720`. -/
def lcSpherize : LClass := ⟨"Spherize", some "0.2", false,
  [("center", .param .vector (.tuple [0, 0])),
   ("radius", .param .real (.float (1))),
   ("amount", .param .real (.float (1))),
   ("clip", .param .bool (.bool false)),
   ("type_", .param .integer (.int (0)))]⟩

/-- `Skeleton_Deformation`, `sangfroid/layer/tbd.py:725-745`. -/
def lcSkeletonDeformation : LClass := ⟨"Skeleton_Deformation", some "0.2", false,
  [("z_depth", .param .real (.float (0))),
   ("amount", .param .real (.float (1))),
   ("blend_method", .blend 1),
   ("bones", .notImpl),
   ("point1", .param .vector (.tuple [-4, 4])),
   ("point2", .param .vector (.tuple [4, -4])),
   ("x_subdivisions", .param .integer (.int (32))),
   ("y_subdivisions", .param .integer (.int (32)))]⟩

/-- `Noise_Distort`, `sangfroid/layer/tbd.py:750-774`. -/
def lcNoiseDistort : LClass := ⟨"Noise_Distort", some "0.0", false,
  [("z_depth", .param .real (.float (0))),
   ("amount", .param .real (.float (1))),
   ("blend_method", .blend 1),
   ("displacement", .param .vector (.tuple [1/4, 1/4])),
   ("size", .param .vector (.tuple [1, 1])),
   ("seed", .param .integer (.int (1700432512))),
   ("smooth", .param .integer (.int (2))),
   ("detail", .param .integer (.int (4))),
   ("speed", .param .real (.float (0))),
   ("turbulent", .param .bool (.bool false))]⟩

/-- `Inside_Out`, `sangfroid/layer/tbd.py:779-785`. -/
def lcInsideOut : LClass := ⟨"Inside_Out", some "0.1", false,
  [("origin", .param .vector (.tuple [0, 0]))]⟩

/-- `Curve_Warp`, `sangfroid/layer/tbd.py:790-806`. -/
def lcCurveWarp : LClass := ⟨"Curve_Warp", some "0.0", false,
  [("origin", .param .vector (.tuple [0, 0])),
   ("perp_width", .param .real (.float (1))),
   ("start_point", .param .vector (.tuple [-5/2, -1/2])),
   ("end_point", .param .vector (.tuple [5/2, -3000000119/10000000000])),
   ("bline", .notImpl),
   ("fast", .param .bool (.bool true))]⟩

/-- `Scale`, `sangfroid/layer/transform.py:6-13`. -/
def lcScale : LClass := ⟨"Scale", none, false,
  []⟩

/-- `Zoom`, `sangfroid/layer/transform.py:29-36`. Its superclass is `Scale`, which has no fields. -/
def lcZoom : LClass := ⟨"Zoom", some "0.1", false,
  [("amount", .param .real (.float (0))),
   ("center", .param .vector (.tuple [0, 0]))]⟩

/-- `Translate`, `sangfroid/layer/transform.py:42-49`. -/
def lcTranslate : LClass := ⟨"Translate", some "0.1", false,
  [("origin", .param .vector (.tuple [0, 0]))]⟩

/-- `Rotate`, `sangfroid/layer/transform.py:54-63`. -/
def lcRotate : LClass := ⟨"Rotate", some "0.1", false,
  [("origin", .param .vector (.tuple [0, 0])),
   ("amount", .param .angle (.float (0)))]⟩

/-- All of them, in the order of registration. -/
def layerClasses : List LClass :=
  [lcBlur, lcRadialBlur, lcMotionBlur, lcStar, lcSolidColor,
   lcRegion, lcRectangle, lcPolygon, lcOutline, lcCircle,
   lcCheckerBoard, lcAdvancedOutline, lcGroup, lcImport, lcShade,
   lcBevel, lcText, lcTimeloop, lcStroboscope, lcFreetime,
   lcXorPattern, lcSwitch, lcSuperSample, lcSound, lcSkeleton,
   lcPlant, lcFilterGroup, lcDuplicate, lcSpiralGradient, lcRadialGradient,
   lcNoise, lcLinearGradient, lcCurveGradient, lcConicalGradient, lcMandelbrot,
   lcJulia, lcLumakey, lcHalftone3, lcHalftone2, lcColorcorrect,
   lcClamp, lcChromakey, lcSimpleCircle, lcMetaballs, lcWarp,
   lcTwirl, lcStretch, lcSpherize, lcSkeletonDeformation, lcNoiseDistort,
   lcInsideOut, lcCurveWarp, lcScale, lcZoom, lcTranslate,
   lcRotate]

/-- `Layer.handles_type`, `sangfroid/layer/layer.py:320`, once `sangfroid.layer` is imported. -/
def layerRegistry : Registry LClass :=
  layerClasses.foldl (fun r c => r.register none c.name.toList c) []

end Sang
