import Verif.Spec.SaveOpen
import Verif.Animation

/-!
# Headers as they are in files, or as they are set
-/

namespace Sang.Spec

/-- The attributes of an element are as they are in a file, or as header fields are set: text on one line, and numbers
which a float can hold. -/
def PlainAttrs (F : Fl) (n : Node) : Prop := ∀ k a, n.attrs.get k = some a →
  (∃ s, a = .str s ∧ OneLine s) ∨ (∃ q, a = .num q ∧ F.rep q) ∨ ∃ i, a = .int i

/-- Text which saving leaves alone when it is in an element: not blank, and without carriage returns. -/
def Lasting (s : Str) : Prop := (∃ c ∈ s, ¬ c ∈ [' ', '\t', '\n', '\r', '\x0c']) ∧ '\r' ∉ s

end Sang.Spec
