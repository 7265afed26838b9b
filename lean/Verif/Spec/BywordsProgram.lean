import Verif.Spec.Program
import Verif.Layer

/-!
# Specification of bywords: which texts of an animation it may change

`layer.desc` is `getDesc`.
-/

namespace Sang.Spec

/-- A group whose description begins with "bywords", in small letters or capitals. -/
def BywordsGroup (F : Fl) (g : Node) : Prop :=
  IsLayer "group" g ∧ ∃ s, getDesc F g = some s ∧ "bywords".toList <+: lower s

/-- The text layers in something, in the order of the file. -/
def textLayers (g : Node) : List Node :=
  (layersBelow g).filter fun x => x.attrs.get "type" = some (.str "text".toList)

/-- What a group says: the descriptions of its text layers, from the last in the file to the first, each in
normal form, with spaces between. -/
def groupWords (F : Fl) (g : Node) : Str :=
  [' '].intercalate ((textLayers g).reverse.map fun x => normal ((getDesc F x).getD []))

/-- At this place is a text layer in a bywords group which says what one of the lines says. -/
def Matched (F : Fl) (lines : List Str) (n : Node) (p : List ℕ) : Prop :=
  ∃ q r g x, p = q ++ r ∧ q ≠ [] ∧ r ≠ [] ∧ nodeAt q n = some g ∧ BywordsGroup F g ∧
    (∃ l ∈ lines, normal l = groupWords F g) ∧ nodeAt r g = some x ∧ IsLayer "text" x

end Sang.Spec
