import Verif.Value

/-!
# What Python literals mean

Independent of the code: which Python object a piece of program text denotes, for the literals of
the Python language reference (numbers, text, tuples and dicts). The text of a literal may denote
at most what these rules give.
-/

namespace Sang.Spec

/-- The value of a hexadecimal digit. -/
def hexDigit? (c : Char) : Option ℕ :=
  if '0' ≤ c ∧ c ≤ '9' then some (c.toNat - 48)
  else if 'a' ≤ c ∧ c ≤ 'f' then some (c.toNat - 87)
  else if 'A' ≤ c ∧ c ≤ 'F' then some (c.toNat - 55)
  else none

/-- The number some hexadecimal digits stand for. -/
def hexNumber? (s : Str) : Option ℕ :=
  s.foldl (fun a c => match a, hexDigit? c with
    | some n, some d => some (16 * n + d)
    | _, _ => none) (some 0)

/-- The text between the quotes, and what it stands for. Between quotes, a backslash begins an
escape; everything else but a quote or an end of line stands for itself. -/
inductive Between (quote : Char) : Str → Str → Prop
  | nil : Between quote [] []
  | plain (c : Char) (t s : Str) (h : c ≠ quote) (h' : c ≠ '\\') (hn : c ≠ '\n') (hr : c ≠ '\r') :
      Between quote t s → Between quote (c :: t) (c :: s)
  | same (c : Char) (t s : Str) (h : c = '\\' ∨ c = '\'' ∨ c = '"') :
      Between quote t s → Between quote ('\\' :: c :: t) (c :: s)
  | newline (t s : Str) : Between quote t s → Between quote ('\\' :: 'n' :: t) ('\n' :: s)
  | return (t s : Str) : Between quote t s → Between quote ('\\' :: 'r' :: t) ('\r' :: s)
  | tab (t s : Str) : Between quote t s → Between quote ('\\' :: 't' :: t) ('\t' :: s)
  | hex (k : Char) (ds t s : Str) (c : Char)
      (hk : (k, ds.length) ∈ [('x', 2), ('u', 4), ('U', 8)])
      (h : hexNumber? ds = some c.toNat) :
      Between quote t s → Between quote ('\\' :: k :: (ds ++ t)) (c :: s)

/-- Only spaces and ends of lines. -/
def OnlySpace (s : Str) : Prop := ∀ c ∈ s, c = ' ' ∨ c = '\n'

/-- One or more decimal digits. -/
def Digits (s : Str) : Prop := s ≠ [] ∧ ∀ c ∈ s, c ∈ "0123456789".toList

mutual

/-- `LiteralFor F s v`: the program text `s` is a literal for the object `v`. -/
inductive LiteralFor (F : Fl) : Str → PV → Prop
  /-- A whole number has no leading zero, unless it is zero. -/
  | int (ds : Str) (h : Digits ds) (h0 : ds.head? ≠ some '0' ∨ ds = ['0']) :
      LiteralFor F ds (.int (natVal ds))
  | float (w f : Str) (hw : Digits w) (hf : Digits f) :
      LiteralFor F (w ++ '.' :: f) (.float (F.rnd ((natVal (w ++ f) : ℚ) / 10 ^ f.length)))
  | floatExp (w e : Str) (neg : Bool) (hw : Digits w) (he : Digits e) :
      LiteralFor F (w ++ 'e' :: (if neg then '-' else '+') :: e)
        (.float (F.rnd ((natVal w : ℚ) * (10:ℚ) ^ (if neg then -(natVal e : ℤ) else natVal e))))
  | floatFracExp (w f e : Str) (neg : Bool) (hw : Digits w) (hf : Digits f) (he : Digits e) :
      LiteralFor F (w ++ '.' :: (f ++ 'e' :: (if neg then '-' else '+') :: e))
        (.float (F.rnd ((natVal (w ++ f) : ℚ) / 10 ^ f.length *
          (10:ℚ) ^ (if neg then -(natVal e : ℤ) else natVal e))))
  | minusInt (s : Str) (i : ℤ) : LiteralFor F s (.int i) → LiteralFor F ('-' :: s) (.int (-i))
  | minusFloat (s : Str) (q : ℚ) : LiteralFor F s (.float q) → LiteralFor F ('-' :: s) (.float (-q))
  | true : LiteralFor F "True".toList (.bool Bool.true)
  | false : LiteralFor F "False".toList (.bool Bool.false)
  | str (quote : Char) (t s : Str) (hq : quote = '\'' ∨ quote = '"') (h : Between quote t s) :
      LiteralFor F (quote :: (t ++ [quote])) (.str s)
  | tuple (t : Str) (l : List PV) (h2 : 2 ≤ l.length) : Items F t l →
      LiteralFor F ('(' :: (t ++ [')'])) (.tuple l)
  | dict (t : Str) (l : List (String × PV)) (hd : (l.map Prod.fst).Nodup) :
      Pairs F t (l.map fun p => (.str p.1.toList, p.2)) → LiteralFor F ('{' :: (t ++ ['}'])) (.dict l)
  | stops (t : Str) (l : List (ℚ × PV)) (hd : (l.map Prod.fst).Nodup) :
      Pairs F t (l.map fun p => (.float p.1, p.2)) → LiteralFor F ('{' :: (t ++ ['}'])) (.stops l)

/-- Items with commas between them. -/
inductive Items (F : Fl) : Str → List PV → Prop
  | one (a s b : Str) (v : PV) (ha : OnlySpace a) (hb : OnlySpace b) : LiteralFor F s v →
      Items F (a ++ (s ++ b)) [v]
  | cons (a s b r : Str) (v : PV) (l : List PV) (ha : OnlySpace a) (hb : OnlySpace b) : LiteralFor F s v →
      Items F r l → Items F (a ++ (s ++ (b ++ ',' :: r))) (v :: l)

/-- Pairs of keys and values with commas between them, and perhaps another comma at the end. -/
inductive Pairs (F : Fl) : Str → List (PV × PV) → Prop
  | nil (a : Str) (ha : OnlySpace a) : Pairs F a []
  | one (a k b c s d : Str) (x v : PV) (ha : OnlySpace a) (hb : OnlySpace b) (hc : OnlySpace c) (hd : OnlySpace d) :
      LiteralFor F k x → LiteralFor F s v → Pairs F (a ++ (k ++ (b ++ ':' :: (c ++ (s ++ d))))) [(x, v)]
  | cons (a k b c s d r : Str) (x v : PV) (l : List (PV × PV)) (ha : OnlySpace a) (hb : OnlySpace b)
      (hc : OnlySpace c) (hd : OnlySpace d) : LiteralFor F k x → LiteralFor F s v → Pairs F r l →
      Pairs F (a ++ (k ++ (b ++ ':' :: (c ++ (s ++ (d ++ ',' :: r)))))) ((x, v) :: l)

end

end Sang.Spec
