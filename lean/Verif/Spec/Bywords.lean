import Verif.Py

/-!
# Specification of bywords: words, normal forms and the exact schedule

Independent of how `bywords` cuts up and compares texts.
-/

namespace Sang.Spec

/-- What separates words: a space, a tab or a line break. -/
def Blank (c : Char) : Prop := c = ' ' ∨ c = '\t' ∨ c = '\n'

instance (c : Char) : Decidable (Blank c) := inferInstanceAs (Decidable (_ ∨ _))

/-- A word of `s` ends just before position `i`. -/
def WordEnd (s : Str) (i : ℕ) : Prop :=
  0 < i ∧ (∃ c, s[i - 1]? = some c ∧ ¬ Blank c) ∧ ∀ c, s[i]? = some c → Blank c

/-- A letter (anything but white space) stands just before position `i`. -/
def LetterEnd (s : Str) (i : ℕ) : Prop := 0 < i ∧ ∃ c, s[i - 1]? = some c ∧ isSpace c = false

/-- `ts` is the initial parts of `s` that end at the positions for which `P` holds, each once,
shortest first. -/
def InitialParts (P : ℕ → Prop) (s : Str) (ts : List Str) : Prop :=
  ∃ l : List ℕ, l.Pairwise (· < ·) ∧ (∀ i, i ∈ l ↔ P i) ∧ ts = l.map s.take

/-- The capital letters, each with its small letter. -/
def capitals : List (Char × Char) :=
  "ABCDEFGHIJKLMNOPQRSTUVWXYZ".toList.zip "abcdefghijklmnopqrstuvwxyz".toList

/-- The characters that count when texts are compared. -/
def counting : Str := "abcdefghijklmnopqrstuvwxyz0123456789 ".toList

/-- What a character counts as: capital letters as small ones, and others than `a`-`z`, `0`-`9` and
the space as nothing. -/
def normalC (c : Char) : Option Char :=
  match capitals.lookup c with
  | some d => some d
  | none => if counting.contains c then some c else none

/-- The text lower-cased, and without anything but `a`-`z`, `0`-`9` and spaces. -/
def normal (s : Str) : Str := s.filterMap normalC

/-- When the `k`th text comes, in milliseconds, if the duration is shared out in proportion to
`lens`. -/
def shareTime (start duration : ℚ) (lens : List ℕ) (k : ℕ) : ℚ :=
  start + duration * (lens.take k).sum / lens.sum

end Sang.Spec
