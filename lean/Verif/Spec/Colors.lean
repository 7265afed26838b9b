import Verif.Py

/-!
# What colour text means

Independent of the code: a colour is written as six or eight hexadecimal digits (red, green,
blue and perhaps alpha), in either case, with or without a `#`.
-/

namespace Sang.Spec

/-- The hexadecimal digits, in both cases. -/
def hexDigits : List Char := "0123456789abcdefABCDEF".toList

/-- Six or eight hexadecimal digits. -/
def IsColorDigits (ds : Str) : Prop :=
  (∀ c ∈ ds, c ∈ hexDigits) ∧ (ds.length = 6 ∨ ds.length = 8)

/-- With or without a hash. -/
def written (hash : Bool) (ds : Str) : Str := if hash then '#' :: ds else ds

/-- The canonical way to write it: a hash, lower case, and no alpha if it is fully opaque. -/
def canonical (ds : Str) : Str :=
  '#' :: (if (lower ds).drop 6 = ['f', 'f'] then (lower ds).take 6 else lower ds)

/-- The byte a component between 0 and 1 stands for: the nearest of 256 levels, in float
arithmetic. -/
def level (F : Fl) (x : ℚ) : ℤ := rhe (F.rnd (x * 255))

end Sang.Spec
