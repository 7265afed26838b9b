import Verif.Xml

/-!
# Specification of an animation's header and keyframes: where they are in the file

Independent of the model of animations.
-/

namespace Sang.Spec

mutual
/-- All the elements called `s` in a node, itself included, in document order. -/
def eltsNamed (s : String) : Node → List Node
  | .text _ => []
  | .tag n a ks => (if n = s then [.tag n a ks] else []) ++ eltsNamedIn s ks

/-- All the elements called `s` in a list of nodes, in document order. -/
def eltsNamedIn (s : String) : List Node → List Node
  | [] => []
  | x :: r => eltsNamed s x ++ eltsNamedIn s r
end

/-- The attribute of the root element in which Synfig keeps each field of the header. -/
def synfigName : List (String × String) :=
  [("version", "version"), ("width", "width"), ("height", "height"), ("xres", "xres"),
   ("yres", "yres"), ("gamma_r", "gamma-r"), ("gamma_g", "gamma-g"), ("gamma_b", "gamma-b"),
   ("view_box", "view-box"), ("antialias", "antialias"), ("fps", "fps"), ("bgcolor", "bgcolor")]

/-- What a field of the header is if the file doesn't say: a whole number, a decimal number or text. -/
inductive HeaderDefault where
  | whole (i : ℤ)
  | decimal (q : ℚ)
  | text (s : Str)
  deriving DecidableEq

/-- The defaults that the documentation gives. -/
def headerDefaults : List (String × HeaderDefault) :=
  [("version", .decimal 1.2), ("width", .whole 480), ("height", .whole 270),
   ("xres", .decimal 2834.645669), ("yres", .decimal 2834.645669), ("gamma_r", .decimal 1),
   ("gamma_g", .decimal 1), ("gamma_b", .decimal 1),
   ("view_box", .text "-4.0 2.25 4.0 -2.25".toList), ("antialias", .whole 1), ("fps", .decimal 24),
   ("bgcolor", .text "0.5 0.5 0.5 1.0".toList)]

/-- The fields whose name in Python differs from Synfig's. -/
def hyphenated : List String := ["gamma_r", "gamma_g", "gamma_b", "view_box"]

/-- Words with single spaces between them. -/
def spaced : List Str → Str
  | [] => []
  | [w] => w
  | w :: v :: r => w ++ ' ' :: spaced (v :: r)

end Sang.Spec
