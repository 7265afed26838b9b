import Verif.Xml
import Mathlib.Data.List.Perm.Basic

/-!
# What a document looks like after being written as XML and read back
-/

namespace Sang.Spec

/-- The text before, between and after the child elements: one more piece than there are elements. -/
def texts : List Node → List Str
  | [] => [[]]
  | .text s :: r => match texts r with
    | t :: ts => (s ++ t) :: ts
    | [] => [s]
  | .tag _ _ _ :: r => [] :: texts r

/-- The child elements. -/
def elements (ks : List Node) : List Node := ks.filter Node.isTag

/-- Text as it is read: line ends are newlines, and nothing but white space counts as one newline (if
there was one) or one space. -/
def textAsRead (s : Str) : Str :=
  if newlines s ≠ [] ∧ (newlines s).all asciiSpace then
    if '\n' ∈ newlines s then ['\n'] else [' ']
  else newlines s

/-- The value of an attribute as it is read: tabs and line ends are spaces. -/
def valueAsRead (s : Str) : Str := (newlines s).map fun c => if c = '\n' ∨ c = '\t' then ' ' else c

mutual
/-- The second element is what becomes of the first one. -/
inductive ReadBack (F : Fl) : Node → Node → Prop
  | mk {n a a' ks ks'} :
    a'.Perm (a.map fun p => (p.1, AttrV.str (valueAsRead (p.2.str' F)))) →
    texts ks' = (texts ks).map textAsRead →
    ReadBackAll F (elements ks) (elements ks') →
    ReadBack F (.tag n a ks) (.tag n a' ks')

/-- One by one. -/
inductive ReadBackAll (F : Fl) : List Node → List Node → Prop
  | nil : ReadBackAll F [] []
  | cons {x y xs ys} : ReadBack F x y → ReadBackAll F xs ys → ReadBackAll F (x :: xs) (y :: ys)
end

mutual
/-- The same but for the order in which attributes are written. -/
inductive SameButOrder : Node → Node → Prop
  | text (s : Str) : SameButOrder (.text s) (.text s)
  | tag {n a a' ks ks'} : a.Perm a' → SameButOrderAll ks ks' →
    SameButOrder (.tag n a ks) (.tag n a' ks')

/-- One by one. -/
inductive SameButOrderAll : List Node → List Node → Prop
  | nil : SameButOrderAll [] []
  | cons {x y xs ys} : SameButOrder x y → SameButOrderAll xs ys → SameButOrderAll (x :: xs) (y :: ys)
end

mutual
/-- Nothing in the document is such that only a character reference (such as `&#10;`) can put it there: tabs and line
ends in attributes, carriage returns in text. -/
def Direct : Node → Prop
  | .text s => '\r' ∉ s
  | .tag _ a ks => (∀ k v, (k, AttrV.str v) ∈ a → '\t' ∉ v ∧ '\n' ∉ v ∧ '\r' ∉ v) ∧ DirectAll ks

/-- Nor in its children. -/
def DirectAll : List Node → Prop
  | [] => True
  | x :: r => Direct x ∧ DirectAll r
end

end Sang.Spec
