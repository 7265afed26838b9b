import Verif.Py

/-!
# How text is cut into the parts of a time

Independent of the parser: the pattern for a part, and what cutting text at all the places where the pattern
is found gives.
-/

namespace Sang.Spec

/-- A part of a time specification: `-?[0-9.]+[hmsf]`. -/
def IsPart (p : Str) : Prop :=
  ∃ sign num u, p = sign ++ num ++ [u] ∧ (sign = [] ∨ sign = ['-']) ∧ num ≠ [] ∧
    (∀ c ∈ num, c ∈ "0123456789.".toList) ∧ u ∈ "hmsf".toList

/-- Text cut into what is between parts and the parts, in turn: the first part of the text comes second, after what is
before it, and then it goes on with what is after it. -/
inductive Cut : Str → List Str → Prop where
  | rest {s : Str} (h : ∀ a p b, s = a ++ p ++ b → ¬ IsPart p) : Cut s [s]
  | part {a p b : Str} {l : List Str} (h : IsPart p)
      (first : ∀ a' p' b', a ++ p ++ b = a' ++ p' ++ b' → IsPart p' → a.length ≤ a'.length)
      (r : Cut b l) : Cut (a ++ p ++ b) (a :: p :: l)

/-- The pieces that aren't blank. -/
def inked (l : List Str) : List Str := l.filter fun p => p.any fun c => !isSpace c

/-- What a piece says: its last character is the unit, and what is before that, the amount. -/
def PieceSays (F : Fl) (p : Str) (u : Char) (q : ℚ) : Prop :=
  ∃ s, p = s ++ [u] ∧ pyFloat F s = .ok q

/-- Every piece which isn't blank says something, and no two have the same unit. -/
def Readable (F : Fl) (l : List Str) : Prop :=
  ((inked l).map List.getLast?).Nodup ∧ ∀ p ∈ inked l, ∃ u q, PieceSays F p u q

/-- The amount that is given for a unit. -/
def Gives (F : Fl) (l : List Str) (u : Char) (q : ℚ) : Prop := ∃ p ∈ inked l, PieceSays F p u q

/-- The amount that is given for a unit, or zero. -/
def GivesOr0 (F : Fl) (l : List Str) (u : Char) (q : ℚ) : Prop :=
  Gives F l u q ∨ q = 0 ∧ ∀ q', ¬ Gives F l u q'

/-- The seconds there are in so many hours, minutes and seconds, in floating point. -/
def wholeSeconds (F : Fl) (h m s : ℚ) : ℚ := F.rnd (F.rnd (F.rnd (h * 3600) + F.rnd (m * 60)) + s)

end Sang.Spec
