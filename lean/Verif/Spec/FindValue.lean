import Verif.Spec.Program
import Verif.Spec.Colors
import Verif.Compare
import Verif.Find

/-!
# Searching by the value of a field
-/

namespace Sang.Spec

/-- The names which are attributes of every layer, and the one which `find_all` treats in its own way. -/
def generalNames : List String := ["type", "type_", "active", "exclude_from_rendering", "desc", "version"]

/-- The value (its class and its element) which a layer of a class has under a name: that of the layer's field of that
name; or, if its class has none, the part of that name of a group's transformation. -/
inductive ValueOf (k : String) (c : LClass) (x : Node) : VCls → Node → Prop
  | field {cls : VCls} {dv : Lit} {m : Node} (h : c.fields.lookup k = some (.param cls dv))
      (hv : fieldValue k x = .ok (cls, m)) : ValueOf k c x cls m
  | part {cls : VCls} {m : Node} (h : c.fields.lookup k = none) (hg : c.isGroup = true)
      (hk : k ∈ ["offset", "angle", "skew_angle", "scale"])
      (hv : getShortcut k x = .ok (cls, m)) : ValueOf k c x cls m

/-- Something that a value of a class can be set to, and which it keeps closely enough to be equal to it. -/
inductive KeptAs : Fl → VCls → PV → Prop
  | real {F : Fl} {q : ℚ} (h : |q| ≤ 10 ^ 11) : KeptAs F .real (.float q)
  | integer {F : Fl} {i : ℤ} : KeptAs F .integer (.int i)
  | bool {F : Fl} {b : Bool} : KeptAs F .bool (.bool b)
  | angle {F : Fl} {q : ℚ} (h : F.rep q) : KeptAs F .angle (.float q)
  | string {F : Fl} {s : Str} : KeptAs F .string (.str s)
  | color {F : Fl} {hash : Bool} {ds : Str} (h : IsColorDigits ds) : KeptAs F .color (.str (written hash ds))

/-- The value equals a number: a real within a ten-thousandth (rounded as floats are), an angle exactly, an integer if
the number is that after leaving out its decimals, and a bool if it is true exactly for numbers other than zero. Nothing
else equals a number. -/
def EqualsNumber (F : Fl) (q : ℚ) (cls : VCls) (m : Node) : Prop :=
  match cls with
  | .real => ∃ p, getFloat F m = .ok p ∧ |F.rnd (p - q)| ≤ F.rnd (1 / 10000)
  | .angle => getFloat F m = .ok q
  | .integer => getInt m = .ok (if q < 0 then ⌈q⌉ else ⌊q⌋)
  | .bool => getBool m = .ok (decide (q ≠ 0))
  | _ => False

/-- The value equals a text. -/
def EqualsText (F : Fl) (s : Str) (cls : VCls) (m : Node) : Prop :=
  match cls with
  | .string => getString m = s
  | .real => ∃ p q, getFloat F m = .ok p ∧ pyFloat F s = .ok q ∧ |F.rnd (p - q)| ≤ F.rnd (1 / 10000)
  | .angle => ∃ q, getFloat F m = .ok q ∧ pyFloat F s = .ok q
  | .integer => ∃ i, getInt m = .ok i ∧ pyInt s = .ok i
  | .bool => getBool m = .ok (decide (s ≠ []))
  | .color => ∃ a, colorStr F m = .ok a ∧ a = colorText s
  | .vector => m.name ≠ "animated" ∧ vectorDict m = [] ∧ s = []
  | _ => False

/-- The time that a value holds, at the frame rate of the animation with that root, is at frame `q`. -/
def AtFrame (F : Fl) (root : Option Attrs) (m : Node) (q : ℚ) : Prop := ∃ t, getTime F root m = .ok t ∧ t.frames = q

end Sang.Spec
