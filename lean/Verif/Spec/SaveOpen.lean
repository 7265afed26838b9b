import Verif.XmlText

/-!
# The same place in two documents
-/

namespace Sang.Spec

/-- The element which is reached from `n` by going to the `i`th child element, and so on. -/
def elementAt : List ℕ → Node → Option Node
  | [], n => some n
  | i :: p, n => match n.tagKids[i]? with
    | none => none
    | some x => elementAt p x

/-- `x` is where in the document `d` `y` is in the document `e`. -/
def SamePlace (d e x y : Node) : Prop := ∃ p, elementAt p d = some x ∧ elementAt p e = some y

/-- The document `e` is what is opened after `d` was saved. (Whether empty elements are written with one tag or
two is open.) -/
def SavedAs (F : Fl) (d e : Node) : Prop := ∃ short, parseXml (docText F short d) = .ok e

/-- Text which saving leaves alone when it is in an attribute: without tabs and line ends. -/
def OneLine (s : Str) : Prop := ∀ c ∈ s, c ≠ '\r' ∧ c ≠ '\n' ∧ c ≠ '\t'

/-- An attribute that holds a number: text (as it is in a file), or a number which a float can hold. -/
def NumberAttr (F : Fl) (n : Node) (k : String) : Prop := ∀ a, n.attrs.get k = some a →
  (∃ s, a = .str s) ∨ (∃ q, a = .num q ∧ F.rep q) ∨ ∃ i, a = .int i

/-- The names of the parameters in an element are text, on one line. -/
def ParamNames (n : Node) : Prop := ∀ x ∈ n.descTags, x.name = "param" →
  ∀ a, x.attrs.get "name" = some a → ∃ s, a = .str s ∧ OneLine s

end Sang.Spec
