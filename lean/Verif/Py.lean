import Mathlib.Data.Int.Log
import Mathlib.Data.Rat.Floor
import Mathlib.Algebra.Order.Round

/-!
# The parts of Python the code stands on

Strings, exceptions, number text and float arithmetic. Nothing here is specific to sangfroid;
each definition cites the places in `/repo` that call the Python feature it models.
-/

namespace Sang

/-- A Python `str`: a list of Unicode scalar values (surrogates are not modelled).
Used throughout `/repo`. -/
abbrev Str := List Char

/-- The exceptions the code can raise, by class. `unmodelled` marks inputs on which the model
makes no claim (see `pyFloat`). Raised throughout `/repo`, e.g. `sangfroid/t.py:82-118`. -/
inductive Err where
  | value | key | type | attr | index | notImpl | assertion | unbound | zeroDiv | notFound
  | unmodelled
  deriving DecidableEq, Repr

/-- The result of Python code that may raise. -/
abbrev Res (α : Type) := Except Err α

deriving instance DecidableEq for Except

/-! ## Characters and strings -/

/-- `str.isspace` for one character, as used by `str.strip()`
(`sangfroid/t.py:129,140`, `sangfroid/template/replacer.py`). -/
def isSpace (c : Char) : Bool :=
  let n := c.toNat
  (9 ≤ n && n ≤ 13) || (28 ≤ n && n ≤ 32) || n == 0x85 || n == 0xA0 || n == 0x1680 ||
  (0x2000 ≤ n && n ≤ 0x200A) || n == 0x2028 || n == 0x2029 || n == 0x202F || n == 0x205F ||
  n == 0x3000

/-- `str.strip()` (`sangfroid/t.py:129,140`). -/
def strip (s : Str) : Str := ((s.dropWhile isSpace).reverse.dropWhile isSpace).reverse

/-- ASCII decimal digits, `[0-9]`. -/
def isDig (c : Char) : Bool := decide (48 ≤ c.toNat) && decide (c.toNat ≤ 57)

/-- `str.lower()` on one character. Simplification: ASCII letters only
(`sangfroid/util.py:12`, `sangfroid/format.py:97`). -/
def lowerC (c : Char) : Char :=
  if 65 ≤ c.toNat ∧ c.toNat ≤ 90 then Char.ofNat (c.toNat + 32) else c

/-- `str.lower()`, ASCII letters only. -/
def lower (s : Str) : Str := s.map lowerC

/-- `sep.join(parts)` (`sangfroid/t.py:278`, `bywords/bywords.py:56`). -/
def join (sep : Str) : List Str → Str
  | [] => []
  | [s] => s
  | s :: t :: r => s ++ sep ++ join sep (t :: r)

/-! ## Whole numbers as text -/

/-- The character of a decimal digit. -/
def digC (d : ℕ) : Char := Char.ofNat (48 + d)

/-- The value of a decimal digit character. -/
def digV (c : Char) : ℕ := c.toNat - 48

/-- Digits of `n`, least significant first, with `fuel` bounding the recursion. -/
def natStrAux : ℕ → ℕ → Str → Str
  | 0, _, acc => acc
  | f + 1, n, acc =>
    if n < 10 then digC n :: acc else natStrAux f (n / 10) (digC (n % 10) :: acc)

/-- `str(n)`, `'%d' % n` for `n ≥ 0` (`sangfroid/t.py:266`, `sangfroid/value/simple.py`). -/
def natStr (n : ℕ) : Str := natStrAux (n + 1) n []

/-- `str(i)` for an `int`. -/
def intStr (i : ℤ) : Str := if i < 0 then '-' :: natStr i.natAbs else natStr i.natAbs

/-- The value of a string of decimal digits. -/
def natVal (s : Str) : ℕ := s.foldl (fun a c => 10 * a + digV c) 0

/-- Exactly `k` digits of `m` (leading zeros kept): the digits after the point in `'%.kf'`. -/
def fracStr : ℕ → ℕ → Str
  | 0, _ => []
  | k + 1, m => fracStr k (m / 10) ++ [digC (m % 10)]

/-! ## Float arithmetic -/

/-- Round to the nearest whole number, ties to even: Python's `round`, and the rounding of
`%`-formatting and of float arithmetic (`sangfroid/value/color.py:13`). -/
def rhe (q : ℚ) : ℤ :=
  let f := ⌊q⌋
  if q - f < 1/2 then f else if 1/2 < q - f then f + 1 else if f % 2 = 0 then f else f + 1

/-- A float arithmetic: what the exact result of an operation is rounded to.
Models CPython's `float` throughout `/repo`. Simplification: no overflow,
subnormals, NaN, infinities or negative zero. -/
structure Fl where
  rnd : ℚ → ℚ

/-- The laws of binary64 rounding used in proofs. -/
structure Fl.Lawful (F : Fl) : Prop where
  /-- results are representable -/
  idem : ∀ q, F.rnd (F.rnd q) = F.rnd q
  /-- nothing representable is nearer -/
  nearest : ∀ q x, F.rnd x = x → |F.rnd q - q| ≤ |x - q|
  /-- relative error at most 2^-53 -/
  err : ∀ q, |F.rnd q - q| ≤ |q| / 2 ^ 53
  /-- numbers with at most 53 significant bits are representable -/
  exact : ∀ (m : ℤ) (e : ℤ), |m| ≤ 2 ^ 53 → F.rnd (m * (2:ℚ) ^ e) = m * (2:ℚ) ^ e
  /-- rounding is symmetric -/
  neg : ∀ q, F.rnd (-q) = -F.rnd q
  /-- distinct representable numbers are not closer than 2^-53, relatively -/
  spacing : ∀ x y, F.rnd x = x → F.rnd y = y → x ≠ y → |x| / 2 ^ 53 ≤ |x - y|

/-- A number is a float if rounding does nothing to it. -/
def Fl.rep (F : Fl) (q : ℚ) : Prop := F.rnd q = q

instance (F : Fl) (q : ℚ) : Decidable (F.rep q) := inferInstanceAs (Decidable (F.rnd q = q))

/-- Binary64 with unbounded exponent: round half to even at 53 bits. -/
def rnd53 (q : ℚ) : ℚ :=
  if q = 0 then 0 else
    let e := Int.log 2 |q| - 52
    (rhe (q / (2:ℚ) ^ e) : ℚ) * (2:ℚ) ^ e

/-- The concrete float arithmetic. -/
def double : Fl := ⟨rnd53⟩

/-- Python's `x % y` on floats, `y > 0`: exact (`sangfroid/t.py:267,270`). -/
def fmod (x y : ℚ) : ℚ := x - y * ⌊x / y⌋

/-- Python's `int(x)` on a float: toward zero (`sangfroid/t.py:202`). -/
def truncQ (q : ℚ) : ℤ := if q < 0 then -⌊-q⌋ else ⌊q⌋

/-- `l[i]` on a list (`sangfroid/layer/group.py:137`, `sangfroid/value/vector.py:85`). -/
def pyIndex {α : Type} (l : List α) (i : ℤ) : Res α :=
  let j := if i < 0 then i + l.length else i
  if j < 0 then .error .index
  else match l[j.toNat]? with
    | none => .error .index
    | some x => .ok x

/-! ## Number text -/

/-- Underscores are allowed in numbers, but only between digits; `none` if misplaced.
`prev` is the character before. -/
def dropUnderscores : Option Char → Str → Option Str
  | _, [] => some []
  | prev, '_' :: cs =>
    match prev, cs with
    | some p, d :: _ => if isDig p && isDig d then dropUnderscores (some '_') cs else none
    | _, _ => none
  | _, c :: cs => (dropUnderscores (some c) cs).map (c :: ·)

/-- A decimal numeral split into sign, digits before and after the point, and exponent. -/
structure Numeral where
  neg : Bool
  whole : Str
  frac : Str
  exp : ℤ
  deriving DecidableEq

/-- The exact value of a numeral. -/
def Numeral.val (n : Numeral) : ℚ :=
  (if n.neg then -1 else 1) * (natVal (n.whole ++ n.frac) : ℚ) * (10:ℚ) ^ (n.exp - n.frac.length)

/-- Take an optional sign. -/
def takeSign : Str → Bool × Str
  | '-' :: r => (true, r)
  | '+' :: r => (false, r)
  | r => (false, r)

/-- Parse the exponent part: empty, or `e`/`E`, sign, digits, then the end. -/
def parseExp (s : Str) : Option ℤ :=
  match s with
  | [] => some 0
  | c :: r =>
    if c = 'e' ∨ c = 'E' then
      let ds := (takeSign r).2
      if ds ≠ [] ∧ ds.all isDig then
        some (if (takeSign r).1 then -(natVal ds : ℤ) else natVal ds)
      else none
    else none

/-- Parse `[sign] digits [. digits] [exponent]`, at least one digit around the point. -/
def parseNumeral (s : Str) : Option Numeral :=
  let (neg, s) := takeSign s
  let whole := s.takeWhile isDig
  let s1 := s.dropWhile isDig
  match s1 with
  | '.' :: s2 =>
    let frac := s2.takeWhile isDig
    if whole = [] ∧ frac = [] then none
    else (parseExp (s2.dropWhile isDig)).map (fun e => ⟨neg, whole, frac, e⟩)
  | _ =>
    if whole = [] then none
    else (parseExp s1).map (fun e => ⟨neg, whole, [], e⟩)

/-- The words `float()` accepts for non-finite numbers. -/
def isNonFiniteWord (s : Str) : Bool :=
  let w := lower (takeSign s).2
  w == "inf".toList || w == "infinity".toList || w == "nan".toList

/-- `float(s)` for a `str` (`sangfroid/t.py:89,148`, `sangfroid/value/simple.py`,
`sangfroid/value/color.py`, `sangfroid/value/vector.py`).
Non-finite words and non-ASCII characters (Unicode digits) are `unmodelled`. -/
def pyFloat (F : Fl) (s : Str) : Res ℚ :=
  let s := strip s
  if s.any (fun c => decide (128 ≤ c.toNat)) then .error .unmodelled
  else if isNonFiniteWord s then .error .unmodelled
  else match dropUnderscores none s with
    | none => .error .value
    | some s => match parseNumeral s with
      | none => .error .value
      | some n => .ok (F.rnd n.val)

/-- `int(s)` for a `str` (`sangfroid/value/simple.py:29,41`). -/
def pyInt (s : Str) : Res ℤ :=
  let s := strip s
  if s.any (fun c => decide (128 ≤ c.toNat)) then .error .unmodelled
  else match dropUnderscores none s with
    | none => .error .value
    | some s =>
      let ds := (takeSign s).2
      if ds ≠ [] ∧ ds.all isDig then .ok (if (takeSign s).1 then -(natVal ds : ℤ) else natVal ds)
      else .error .value

/-- `'%.kf' % q` for `q ≥ 0`. -/
def fixedNN (k : ℕ) (q : ℚ) : Str :=
  let m := (rhe (q * 10 ^ k)).toNat
  natStr (m / 10 ^ k) ++ (if k = 0 then [] else '.' :: fracStr k (m % 10 ^ k))

/-- `'%.kf' % q` (`sangfroid/value/simple.py:94` with k=10, `sangfroid/value/color.py` with
k=6). -/
def fixed (k : ℕ) (q : ℚ) : Str :=
  if q < 0 then '-' :: fixedNN k (-q) else fixedNN k q

/-- Remove trailing zeros, and then a trailing point. -/
def stripZeros (s : Str) : Str :=
  let r := s.reverse.dropWhile (· == '0')
  (match r with
   | '.' :: r' => r'
   | r => r).reverse

/-- The nearest decimal with `n` significant digits to `q > 0`: digits and exponent of the
first digit. -/
def sigDigits (n : ℕ) (q : ℚ) : ℕ × ℤ :=
  let e := Int.log 10 q
  let m := (rhe (q * (10:ℚ) ^ ((n:ℤ) - 1 - e))).toNat
  if m = 10 ^ n then (10 ^ (n - 1), e + 1) else (m, e)

/-- A two-digit (at least) exponent with its sign: `+06`, `-05`, `+100`. -/
def expStr (e : ℤ) : Str :=
  (if e < 0 then '-' else '+') ::
    (if e.natAbs < 10 then '0' :: natStr e.natAbs else natStr e.natAbs)

/-- `'%.ng' % q` for `q > 0`. -/
def gPos (n : ℕ) (q : ℚ) : Str :=
  let (m, e) := sigDigits n q
  let v : ℚ := m * (10:ℚ) ^ (e - (n - 1))
  if -4 ≤ e ∧ e < n then
    let p := ((n:ℤ) - 1 - e).toNat
    if p = 0 then fixedNN 0 v else stripZeros (fixedNN p v)
  else
    stripZeros (fixedNN (n - 1) ((m : ℚ) / 10 ^ (n - 1))) ++ 'e' :: expStr e

/-- `'%g' % q` (`sangfroid/t.py:252,271`) and `'%.06g'` (`sangfroid/value/gradient.py`). -/
def fmtG (q : ℚ) : Str :=
  if q = 0 then ['0'] else if q < 0 then '-' :: gPos 6 (-q) else gPos 6 q

/-- The least number of digits, from `n` on, at which the nearest decimal rounds back to `q`;
17 if the search runs out. -/
def shortest (F : Fl) (q : ℚ) : ℕ → ℕ → ℕ
  | 0, n => n
  | f + 1, n =>
    let (m, e) := sigDigits n q
    if F.rnd (m * (10:ℚ) ^ (e - ((n:ℤ) - 1))) = q then n else shortest F q f (n + 1)

/-- `str(q)` for a float `q > 0`: shortest digits that read back as `q`; positional from 1e-4
up to 1e16, otherwise with an exponent. Simplification: the nearest decimal of each length is
tried, whereas CPython may use another decimal of that length at exact powers of two. -/
def reprPos (F : Fl) (q : ℚ) : Str :=
  let n := shortest F q 16 1
  let (m, e) := sigDigits n q
  let v : ℚ := m * (10:ℚ) ^ (e - ((n:ℤ) - 1))
  if -4 ≤ e ∧ e < 16 then
    let p := ((n:ℤ) - 1 - e).toNat
    if p = 0 then natStr (rhe v).toNat ++ ".0".toList else fixedNN p v
  else
    (if n = 1 then natStr m else fixedNN (n - 1) ((m : ℚ) / 10 ^ (n - 1))) ++ 'e' :: expStr e

/-- `str(q)` for a float (`sangfroid/value/simple.py` for Angle, `bywords/adjust.py`). -/
def reprF (F : Fl) (q : ℚ) : Str :=
  if q = 0 then "0.0".toList else if q < 0 then '-' :: reprPos F (-q) else reprPos F q

end Sang
