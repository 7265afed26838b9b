import Mathlib.Data.Int.Log
import Verif.Py

/-! # Specification: decimals with six significant digits -/

namespace Sang

/-- The nearest decimal with six significant digits, for a positive number. -/
def sixPos (q : ℚ) : ℚ :=
  (rhe (q * (10:ℚ) ^ (5 - Int.log 10 q)) : ℚ) * (10:ℚ) ^ (Int.log 10 q - 5)

/-- The nearest decimal with six significant digits. -/
def six (q : ℚ) : ℚ := if q = 0 then 0 else if q < 0 then -sixPos (-q) else sixPos q

/-- The least positive number that `'%g'` writes without an exponent, as it is 0.0001 to six digits. -/
def tiny : ℚ := 9999995 / 10 ^ 11

end Sang
