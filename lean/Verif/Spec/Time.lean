import Verif.Py

/-!
# What a time specification means

Independent of the parser: a specification is a list of parts, each an amount and a unit,
written one after another with blanks before each part and after the last.
-/

namespace Sang.Spec

/-- Hours, minutes, seconds, frames. -/
inductive TimeUnit where
  | h | m | s | f
  deriving DecidableEq

/-- The letter for a unit. -/
def TimeUnit.char : TimeUnit → Char
  | .h => 'h' | .m => 'm' | .s => 's' | .f => 'f'

/-- A decimal number as written: sign, digits, and digits after a point (no point if there are
none). -/
structure Amount where
  neg : Bool
  whole : Str
  frac : Str

/-- It has at least one digit before the point, and digits are digits. -/
def Amount.Valid (a : Amount) : Prop :=
  a.whole ≠ [] ∧ (∀ c ∈ a.whole, isDig c = true) ∧ (∀ c ∈ a.frac, isDig c = true)

/-- How it is written. -/
def Amount.text (a : Amount) : Str :=
  (if a.neg then ['-'] else []) ++ a.whole ++ (if a.frac = [] then [] else '.' :: a.frac)

/-- The number it denotes. -/
def Amount.value (a : Amount) : ℚ :=
  (if a.neg then -1 else 1) * ((natVal (a.whole ++ a.frac) : ℚ) / 10 ^ a.frac.length)

/-- One part of a specification, with the blanks written before it. -/
structure Part where
  blanks : Str
  amt : Amount
  unit : TimeUnit

/-- Blanks are blank and the amount is well written. -/
def Part.Valid (p : Part) : Prop :=
  (∀ c ∈ p.blanks, isSpace c = true) ∧ p.amt.Valid

/-- The whole specification, as text, with blanks after it. -/
def specText (ps : List Part) (trail : Str) : Str :=
  (ps.flatMap fun p => p.blanks ++ p.amt.text ++ [p.unit.char]) ++ trail

/-- The amount given for a unit; zero if it isn't mentioned. -/
def amount (ps : List Part) (u : TimeUnit) : ℚ :=
  match ps.find? (fun p => p.unit == u) with
  | some p => p.amt.value
  | none => 0

/-- The number of seconds a specification gives. -/
def seconds (ps : List Part) : ℚ :=
  3600 * amount ps .h + 60 * amount ps .m + amount ps .s

/-- The number of frames a specification denotes at a frame rate: frames count away from the
start, in the direction the seconds go. -/
def frames (fps : ℚ) (ps : List Part) : ℚ :=
  seconds ps * fps + (if seconds ps < 0 then -amount ps .f else amount ps .f)

/-- No unit is given twice. -/
def Distinct (ps : List Part) : Prop := (ps.map Part.unit).Nodup

end Sang.Spec
