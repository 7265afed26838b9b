import Verif.Xml
import Mathlib.Data.Nat.Digits.Defs

/-!
# The ways in which a document can be written as XML
-/

namespace Sang.Spec

/-- A character which XML allows. -/
def Allowed (c : Char) : Prop :=
  c = '\t' ∨ c = '\n' ∨ c = '\r' ∨ (32 ≤ c.toNat ∧ c.toNat ≠ 0xFFFE ∧ c.toNat ≠ 0xFFFF)

/-- White space. -/
def Blanks (s : Str) : Prop := ∀ c ∈ s, c = ' ' ∨ c = '\t' ∨ c = '\n'

/-- A name (here: of ASCII letters, digits, `_`, `-` and `.`). -/
def XmlName (s : Str) : Prop :=
  s ≠ [] ∧ ∀ c ∈ s, c.isUpper = true ∨ c.isLower = true ∨ c.isDigit = true ∨ c = '_' ∨ c = '-' ∨ c = '.'

/-- A decimal digit and its value. -/
def DecDigit (c : Char) (v : ℕ) : Prop := v < 10 ∧ c = Nat.digitChar v

/-- A hexadecimal digit, in either case, and its value. -/
def HexDigit (c : Char) (v : ℕ) : Prop := v < 16 ∧ (c = Nat.digitChar v ∨ c = (Nat.digitChar v).toUpper)

/-- The references to a character, without the `&` and the `;`. Numbers may have zeros before them. -/
inductive RefTo (c : Char) : Str → Prop
  | amp : c = '&' → RefTo c "amp".toList
  | lt : c = '<' → RefTo c "lt".toList
  | gt : c = '>' → RefTo c "gt".toList
  | quot : c = '"' → RefTo c "quot".toList
  | apos : c = '\'' → RefTo c "apos".toList
  | dec {ds : Str} {vs : List ℕ} : Allowed c → ds ≠ [] → List.Forall₂ DecDigit ds vs →
    Nat.ofDigits 10 vs.reverse = c.toNat → RefTo c ('#' :: ds)
  | hex {ds : Str} {vs : List ℕ} : Allowed c → ds ≠ [] → List.Forall₂ HexDigit ds vs →
    Nat.ofDigits 16 vs.reverse = c.toNat → RefTo c ('#' :: 'x' :: ds)

/-- The ways to write text. -/
inductive TextAs : Str → Str → Prop
  | nil : TextAs [] []
  | char {c s t} : Allowed c → c ≠ '&' → c ≠ '<' → c ≠ '\r' → TextAs s t → TextAs (c :: s) (c :: t)
  | ref {c r s t} : RefTo c r → TextAs s t → TextAs (c :: s) ('&' :: r ++ ';' :: t)

/-- The ways to write the value of an attribute between the quotes `q`. -/
inductive ValueAs (q : Char) : Str → Str → Prop
  | nil : ValueAs q [] []
  | char {c s t} : Allowed c → c ≠ '&' → c ≠ '<' → c ≠ q → c ≠ '\r' → c ≠ '\n' → c ≠ '\t' →
    ValueAs q s t → ValueAs q (c :: s) (c :: t)
  | blank {c s t} : c = '\n' ∨ c = '\t' → ValueAs q s t → ValueAs q (' ' :: s) (c :: t)
  | ref {c r s t} : RefTo c r → ValueAs q s t → ValueAs q (c :: s) ('&' :: r ++ ';' :: t)

/-- The ways to write attributes. -/
inductive AttrsAs : Attrs → Str → Prop
  | nil : AttrsAs [] []
  | cons {k v q b c d t a u} : Blanks b → b ≠ [] → XmlName k.toList → Blanks c → Blanks d → q = '"' ∨ q = '\'' →
    ValueAs q v t → AttrsAs a u →
    AttrsAs ((k, .str v) :: a) (b ++ k.toList ++ c ++ '=' :: d ++ q :: t ++ q :: u)

/-- What the text between two tags is in the document: nothing but white space counts as one newline (if there was
one) or one space. -/
def betweenTags (s : Str) : List Node :=
  if s = [] then []
  else if ∀ c ∈ s, c = ' ' ∨ c = '\t' ∨ c = '\n' ∨ c = '\r' ∨ c = '\x0c' then
    [.text (if '\n' ∈ s then ['\n'] else [' '])]
  else [.text s]

mutual
/-- The ways to write an element. -/
inductive ElementAs : Node → Str → Prop
  | short {n a t b} : XmlName n.toList → (a.map Prod.fst).Nodup → AttrsAs a t → Blanks b →
    ElementAs (.tag n a []) ('<' :: n.toList ++ t ++ b ++ ['/', '>'])
  | long {n a t b ks u c} : XmlName n.toList → (a.map Prod.fst).Nodup → AttrsAs a t → Blanks b → ContentAs ks u →
    Blanks c → ElementAs (.tag n a ks) ('<' :: n.toList ++ t ++ b ++ '>' :: u ++ '<' :: '/' :: n.toList ++ c ++ ['>'])

/-- The ways to write what is in an element. -/
inductive ContentAs : List Node → Str → Prop
  | text {s t} : TextAs s t → ContentAs (betweenTags s) t
  | cons {s t x u ks v} : TextAs s t → ElementAs x u → ContentAs ks v →
    ContentAs (betweenTags s ++ x :: ks) (t ++ u ++ v)
end

/-- The XML declaration, or nothing. -/
inductive DeclAs : Str → Prop
  | none : DeclAs []
  | some {c : Char} {s : Str} : c = ' ' ∨ c = '\t' ∨ c = '\n' ∨ c = '\r' → '?' ∉ s →
    DeclAs ("<?xml".toList ++ c :: s ++ "?>".toList)

/-- The ways to end lines. -/
inductive LinesAs : Str → Str → Prop
  | nil : LinesAs [] []
  | char {c s t} : c ≠ '\r' → LinesAs s t → LinesAs (c :: s) (c :: t)
  | crlf {s t} : LinesAs s t → LinesAs ('\n' :: s) ('\r' :: '\n' :: t)
  | cr {s t} : t.head? ≠ some '\n' → LinesAs s t → LinesAs ('\n' :: s) ('\r' :: t)

/-- The ways to write a document. -/
inductive DocAs (x : Node) : Str → Prop
  | mk {d b t e u} : DeclAs d → Blanks b → ElementAs x t → Blanks e → LinesAs (b ++ t ++ e) u → DocAs x (d ++ u)

/-- The start of a comment, a document type or a processing instruction. -/
def StartsMisc (s : Str) : Prop := ∃ r, s = '<' :: '!' :: r ∨ (s = '<' :: '?' :: r ∧ ¬ "xml".toList <+: r)

end Sang.Spec
