import Verif.T
import Verif.Registry

/-!
# Beautiful Soup trees

The library keeps the whole document as a Beautiful Soup tree (bs4 4.12.2) and reads and writes
it in place. Here a tree is an immutable value; operations that change it return the new tree.
Identity and parent pointers are modelled separately, in `Verif.Dom`.
-/

namespace Sang

/-- A piece of text (`bs4.NavigableString`) or an element (`bs4.Tag`). Comments, processing
instructions and namespaces are not modelled. -/
inductive Node where
  | text (s : Str)
  | tag (name : String) (attrs : Attrs) (kids : List Node)

mutual
/-- Trees can be compared. (Not modelling any code; used to check examples.) -/
def Node.decEq : (a b : Node) → Decidable (a = b)
  | .text s, .text t =>
    if h : s = t then isTrue (by rw [h]) else isFalse (by intro e; injection e with e; exact h e)
  | .text _, .tag _ _ _ => isFalse (by intro e; cases e)
  | .tag _ _ _, .text _ => isFalse (by intro e; cases e)
  | .tag n a k, .tag n' a' k' =>
    if hn : n = n' then
      if ha : a = a' then
        match Node.decEqList k k' with
        | isTrue hk => isTrue (by rw [hn, ha, hk])
        | isFalse hk => isFalse (by intro e; injection e with _ _ e; exact hk e)
      else isFalse (by intro e; injection e with _ e; exact ha e)
    else isFalse (by intro e; injection e with e; exact hn e)

/-- Lists of trees can be compared. -/
def Node.decEqList : (a b : List Node) → Decidable (a = b)
  | [], [] => isTrue rfl
  | [], _ :: _ => isFalse (by intro e; cases e)
  | _ :: _, [] => isFalse (by intro e; cases e)
  | x :: xs, y :: ys =>
    match Node.decEq x y with
    | isTrue h =>
      match Node.decEqList xs ys with
      | isTrue h' => isTrue (by rw [h, h'])
      | isFalse h' => isFalse (by intro e; injection e with _ e; exact h' e)
    | isFalse h => isFalse (by intro e; injection e with e; exact h e)
end

instance : DecidableEq Node := Node.decEq

namespace Node

/-- `isinstance(t, bs4.Tag)`, as in `sangfroid/value/value.py:125-126`. -/
def isTag : Node → Bool
  | text _ => false
  | tag _ _ _ => true

/-- `tag.name`. -/
def name : Node → String
  | text _ => ""
  | tag n _ _ => n

/-- `tag.attrs`. -/
def attrs : Node → Attrs
  | text _ => []
  | tag _ a _ => a

/-- `tag.contents`. -/
def kids : Node → List Node
  | text _ => []
  | tag _ _ k => k

/-- `[t for t in tag.children if isinstance(t, bs4.Tag)]`, as in
`sangfroid/value/value.py:570`. -/
def tagKids (n : Node) : List Node := n.kids.filter isTag

/-- `tag.name = s`. -/
def setName (s : String) : Node → Node
  | text t => text t
  | tag _ a k => tag s a k

/-- `tag.attrs = a`. -/
def setAttrs (a : Attrs) : Node → Node
  | text t => text t
  | tag n _ k => tag n a k

/-- Replacing the contents; `tag.clear()` followed by appends. -/
def setKids (k : List Node) : Node → Node
  | text t => text t
  | tag n a _ => tag n a k

/-- `tag[k] = v`. -/
def setAttr (k : String) (v : AttrV) : Node → Node
  | text t => text t
  | tag n a ks => tag n (dictSet k v a) ks

/-- `tag.append(x)` for a new `x`. -/
def append : Node → Node → Node
  | text t, _ => text t
  | tag n a ks, x => tag n a (ks ++ [x])

/-- `bs4.Tag(name=s)`. -/
def new (s : String) : Node := tag s [] []

/-- `tag.string = s`: the contents become one piece of text. -/
def setString (s : Str) : Node → Node := setKids [text s]

mutual
/-- `tag.string`: the text, if there is a single piece of text inside a chain of single
children; otherwise `None`. -/
def string? : Node → Option Str
  | text s => some s
  | tag _ _ ks => stringKids? ks

/-- Of a list of children. -/
def stringKids? : List Node → Option Str
  | [] => none
  | x :: r =>
    match r with
    | [] => string? x
    | _ :: _ => none
end

mutual
/-- `tag.text`: all the text inside. -/
def allText : Node → Str
  | text s => s
  | tag _ _ ks => allTextKids ks

/-- Of a list of children. -/
def allTextKids : List Node → Str
  | [] => []
  | x :: r => allText x ++ allTextKids r
end

mutual
/-- The node and everything below it, in document order. -/
def subtree : Node → List Node
  | text s => [text s]
  | tag n a ks => tag n a ks :: nodesIn ks

/-- Everything in a list of nodes, in document order. -/
def nodesIn : List Node → List Node
  | [] => []
  | x :: r => subtree x ++ nodesIn r
end

/-- `tag.find_all(True)`: all the elements strictly inside, in document order. -/
def descTags (n : Node) : List Node := (nodesIn n.kids).filter isTag

/-- `tag.find_all(name)`, also `tag(name)`. -/
def findAll (s : String) (n : Node) : List Node := n.descTags.filter fun x => x.name = s

/-- `tag.find(name)`. -/
def find (s : String) (n : Node) : Option Node := (n.findAll s).head?

end Node

/-! ## Saving and loading again -/

/-- `str(value)` of an attribute, as the serializer writes it. Simplification: integers stored
as attributes print in decimal and floats as `repr`. `sangfroid/field.py:194-196`,
`sangfroid/value/value.py:543`. -/
def AttrV.str' (F : Fl) : AttrV → Str
  | .str s => s
  | .t v => v.str F
  | .num q => reprF F q
  | .int i => intStr i

/-- XML line endings: `\r\n` and `\r` are read as `\n` (the serializer doesn't escape them). -/
def newlines : Str → Str
  | [] => []
  | '\r' :: '\n' :: r => '\n' :: newlines r
  | '\r' :: r => '\n' :: newlines r
  | c :: r => c :: newlines r

/-- White space in an XML attribute is read as spaces (the serializer doesn't escape it). -/
def attrSpaces (s : Str) : Str := (newlines s).map fun c => if c = '\n' ∨ c = '\t' then ' ' else c

/-- Beautiful Soup's `ASCII_SPACES`. -/
def asciiSpace (c : Char) : Bool := c == ' ' || c == '\n' || c == '\t' || c == '\x0c' || c == '\r'

/-- The text node (if any) read from a run of text. Beautiful Soup's `endData` replaces a run of
white space by one newline or space. Characters which XML forbids are not modelled. -/
def readText (s : Str) : List Node :=
  let s := newlines s
  if s = [] then []
  else if s.all asciiSpace then [.text (if s.contains '\n' then ['\n'] else [' '])]
  else [.text s]

mutual
/-- What an element looks like after being written to a file and read back
(`sangfroid/format.py:138-139,153-158`): attributes are text, empty pieces of text vanish,
neighbouring pieces join up, white space is normalised. -/
def Node.reload (F : Fl) : Node → Node
  | .text s => .text s
  | .tag n a ks =>
    .tag n (a.map fun p => (p.1, .str (attrSpaces (p.2.str' F)))) (Node.reloadKids F [] ks)

/-- The same for a list of siblings; `acc` is the text just before them. -/
def Node.reloadKids (F : Fl) (acc : Str) : List Node → List Node
  | [] => readText acc
  | x :: r =>
    match x with
    | .text s => Node.reloadKids F (acc ++ s) r
    | .tag n a ks => readText acc ++ Node.reload F (.tag n a ks) :: Node.reloadKids F [] r
end

end Sang
