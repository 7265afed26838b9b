import Verif.Spec.Replacer

/-!
# Specification of what the scripts in `etc/` look for
-/

namespace Sang.Spec

/-- At place `k` in the line there is `BLEND_NAME=v`, in capitals and decimal digits. -/
def SaysAt (line : Str) (k : ℕ) (name : Str) (v : ℕ) : Prop :=
  ∃ before digits after, line = before ++ "BLEND_".toList ++ name ++ "=".toList ++ digits ++ after ∧
    before.length = k ∧ name ≠ [] ∧ (∀ c ∈ name, c ∈ "ABCDEFGHIJKLMNOPQRSTUVWXYZ_".toList) ∧
    digits ≠ [] ∧ (∀ c ∈ digits, c ∈ "0123456789".toList) ∧ (∀ c ∈ after.head?, c ∉ "0123456789".toList) ∧
    natVal digits = v

/-- The line says that blend method `name` is number `v`. If it says something more than once, only the first
counts; the marks for the end and for "by layer" don't count. -/
def SaysBlend (line name : Str) (v : ℕ) : Prop :=
  (∃ k, SaysAt line k name v ∧ ∀ j < k, ∀ n w, ¬ SaysAt line j n w) ∧
    name ≠ "END".toList ∧ name ≠ "BY_LAYER".toList

/-- Of the lines that say which blend method is number `v`, the last says that it is `name`. -/
def BlendIs (lines : List Str) (v : ℕ) (name : Str) : Prop :=
  ∃ pre l post, lines = pre ++ l :: post ∧ SaysBlend l name v ∧ ∀ m ∈ post, ∀ n, ¬ SaysBlend m n v

/-- `names` are exactly the blend methods, in order, without a gap. -/
def AreBlends (lines : List Str) (names : List Str) : Prop :=
  (∀ (i : ℕ) (n : Str), names[i]? = some n → BlendIs lines i n) ∧
    ∀ i, names.length ≤ i → ∀ l ∈ lines, ∀ n, ¬ SaysBlend l n i

/-- The lines of the class: an empty one, and one for each method. -/
def blendBody (names : List Str) : List Str :=
  [] :: (List.range names.length).map (fun i => names.getD i [] ++ " = ".toList ++ natStr i) ++ [[]]

/-- At place `k` in the line there is `class Name(Super`. -/
def DefinesAt (line : Str) (k : ℕ) (name super : Str) : Prop :=
  ∃ before after, line = before ++ "class ".toList ++ name ++ "(".toList ++ super ++ after ∧
    before.length = k ∧ name ≠ [] ∧ (∀ c ∈ name, IsWordChar c) ∧ super ≠ [] ∧ (∀ c ∈ super, IsWordChar c) ∧
    ∀ c ∈ after.head?, ¬ IsWordChar c

/-- The line begins a class. -/
def DefinesClass (line name super : Str) : Prop :=
  ∃ k, DefinesAt line k name super ∧ ∀ j < k, ∀ n s, ¬ DefinesAt line j n s

/-- The line begins a class derived directly from `Layer`. -/
def DefinesLayer (line name : Str) : Prop := DefinesClass line name "Layer".toList

/-- At place `k` in the line there is `SYMBOL = '…`, with whatever spaces and either kind of quote. -/
def SymbolAt (line : Str) (k : ℕ) (s : Str) : Prop :=
  ∃ before i j q after, line = before ++ "SYMBOL".toList ++ blanks i ++ "=".toList ++ blanks j ++ [q] ++ s ++ after ∧
    before.length = k ∧ (q = '\'' ∨ q = '"') ∧ (∀ c ∈ s, c ≠ '\'' ∧ c ≠ '"') ∧
    ∀ c ∈ after.head?, c = '\'' ∨ c = '"'

/-- The line sets a symbol. A line that also begins a class derived from another than `Layer` doesn't count. -/
def SetsSymbol (line s : Str) : Prop :=
  (∃ k, SymbolAt line k s ∧ ∀ j < k, ∀ t, ¬ SymbolAt line j t) ∧
    ∀ n super, DefinesClass line n super → super = "Layer".toList

/-- The symbol set last in these lines, if any. -/
def LastSymbol (lines : List Str) (s : Option Str) : Prop :=
  (∃ pre l post t, lines = pre ++ l :: post ∧ SetsSymbol l t ∧ (∀ m ∈ post, ∀ u, ¬ SetsSymbol m u) ∧ s = some t) ∨
  ((∀ m ∈ lines, ∀ u, ¬ SetsSymbol m u) ∧ s = none)

end Sang.Spec
