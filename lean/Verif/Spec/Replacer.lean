import Verif.Py

/-!
# Specification of block replacement

Independent of the code: what the marker lines look like, what a well-marked file is, and what it should
become.
-/

namespace Sang.Spec

/-- Letters, digits and underscores. -/
def IsWordChar (c : Char) : Prop :=
  c ∈ "ABCDEFGHIJKLMNOPQRSTUVWXYZabcdefghijklmnopqrstuvwxyz0123456789_".toList

/-- `k` spaces. -/
def blanks (k : ℕ) : Str := List.replicate k ' '

/-- A line such as `    ### {{{ name`, indented by `k`. The name may be missing, in which case it is
empty here. -/
def IsStart (line : Str) (k : ℕ) (name : Str) : Prop :=
  ∃ gap rest, line = blanks k ++ "### {{{".toList ++ blanks gap ++ name ++ rest ∧
    (∀ c ∈ name, IsWordChar c) ∧ (∀ c ∈ rest.head?, ¬ IsWordChar c) ∧
    (name = [] → ∀ c ∈ rest.head?, c ≠ ' ')

/-- A line such as `    ### }}}`; `rest` is what follows the marker. -/
def IsEnd (line rest : Str) : Prop := ∃ k, line = blanks k ++ "### }}}".toList ++ rest

/-- A line such as `class Name(Layer):`. -/
def NamesClass (line name : Str) : Prop :=
  ∃ rest, line = "class ".toList ++ name ++ rest ∧ name ≠ [] ∧ (∀ c ∈ name, IsWordChar c) ∧
    ∀ c ∈ rest.head?, ¬ IsWordChar c

/-- Neither starts nor ends a block. -/
def Ordinary (line : Str) : Prop := (¬ ∃ k name, IsStart line k name) ∧ ¬ ∃ rest, IsEnd line rest

/-- `cls'` is the class named last in `lines`, or `cls` if none is. -/
def LastClass (cls : Option Str) (lines : List Str) (cls' : Option Str) : Prop :=
  (∃ pre l post c, lines = pre ++ l :: post ∧ NamesClass l c ∧ (∀ m ∈ post, ∀ d, ¬ NamesClass m d) ∧
    cls' = some c) ∨
  ((∀ m ∈ lines, ∀ d, ¬ NamesClass m d) ∧ cls' = cls)

/-- A piece of a well-marked file. -/
inductive Seg where
  | line (l : Str)
  | block (start : Str) (body : List Str) (stop : Str)

/-- Its lines. -/
def Seg.lines : Seg → List Str
  | .line l => [l]
  | .block a body b => a :: body ++ [b]

/-- All the lines of a file. -/
def segLines (segs : List Seg) : List Str := segs.flatMap Seg.lines

/-- The text of a file. -/
def segText (segs : List Seg) : Str := (segLines segs).flatten

/-- Blocks begin and end with markers and have none inside; there are none outside. -/
def Seg.Ok : Seg → Prop
  | .line l => Ordinary l
  | .block a body b => (∃ k name, IsStart a k name) ∧ (∀ l ∈ body, Ordinary l) ∧ ∃ rest, IsEnd b rest

/-- Without white space at the end. -/
def trimEnd (s : Str) : Str := (s.reverse.dropWhile isSpace).reverse

/-- The lines, each ending in a newline, for a replacement with lines `ws` in a block indented by `k`. -/
def insertedLines (k : ℕ) (ws : List Str) : List Str := ws.map fun w => trimEnd (blanks k ++ w) ++ ['\n']

/-- How an end marker is written back. -/
def endLine (k : ℕ) (rest : Str) : Str := blanks k ++ "### }}}".toList ++ trimEnd rest ++ ['\n']

/-- `v` is the text with lines `ws`. -/
def IsLines (v : Str) (ws : List Str) : Prop := ws ≠ [] ∧ (∀ w ∈ ws, '\n' ∉ w) ∧ v = join ['\n'] ws

/-- `Outcome fields cls segs out replaced names`: the pieces `segs` become `out`, where `cls` is the class
name available at the start; `replaced` says whether any block had a replacement, and `names` are the
blocks' names in order. A block without a name takes that of the class named last, which can be used only
once. -/
inductive Outcome (fields : List (Str × Str)) :
    Option Str → List Seg → List Seg → Bool → List Str → Prop where
  | nil {cls} : Outcome fields cls [] [] false []
  | line {cls cls' l r out b ns} : LastClass cls [l] cls' → Outcome fields cls' r out b ns →
      Outcome fields cls (.line l :: r) (.line l :: out) b ns
  | kept {cls cls1 cls2 k written name a body z rest r out b ns} : IsStart a k written →
      (written = [] ∧ cls = some name ∧ cls1 = none ∨ written ≠ [] ∧ name = written ∧ cls1 = cls) →
      fields.lookup name = none → IsEnd z rest → LastClass cls1 body cls2 →
      Outcome fields cls2 r out b ns →
      Outcome fields cls (.block a body z :: r) (.block a body (endLine k rest) :: out) b (name :: ns)
  | replaced {cls cls1 cls2 k written name a body z rest v ws r out b ns} : IsStart a k written →
      (written = [] ∧ cls = some name ∧ cls1 = none ∨ written ≠ [] ∧ name = written ∧ cls1 = cls) →
      fields.lookup name = some v → IsLines v ws → IsEnd z rest → LastClass cls1 body cls2 →
      Outcome fields cls2 r out b ns →
      Outcome fields cls (.block a body z :: r)
        (.block a (insertedLines k ws) (endLine k rest) :: out) true (name :: ns)

/-- Every line ends in a newline and has no other; the last may lack one. -/
def IsFile : List Str → Prop
  | [] => True
  | [l] => l ≠ [] ∧ ((∃ w, l = w ++ ['\n'] ∧ '\n' ∉ w) ∨ '\n' ∉ l)
  | l :: m :: r => (∃ w, l = w ++ ['\n'] ∧ '\n' ∉ w) ∧ IsFile (m :: r)

/-- The last marker in these lines starts a block. -/
def InBlock (ls : List Str) : Prop :=
  ∃ pre l post, ls = pre ++ l :: post ∧ (∃ k name, IsStart l k name) ∧ ∀ m ∈ post, Ordinary m

/-- After these lines a block without a name would be called `c`: it is the class named last, and no such
block has come after it. -/
def Available (ls : List Str) (c : Str) : Prop :=
  ∃ pre post, ls = pre ++ post ∧ (pre = [] ∨ ∃ a l k, pre = a ++ [l] ∧ IsStart l k []) ∧
    (∀ l ∈ post, ¬ ∃ k, IsStart l k []) ∧ LastClass none post (some c)

/-- Something is wrong with the markers in these lines: a block ends which hasn't started, the file ends
in the middle of a block, or a block without a name has no class to be called after. -/
def Malformed (ls : List Str) : Prop :=
  (∃ pre l post, ls = pre ++ l :: post ∧ (∃ rest, IsEnd l rest) ∧ ¬ InBlock pre) ∨
  InBlock ls ∨
  (∃ pre l post k, ls = pre ++ l :: post ∧ IsStart l k [] ∧ ¬ ∃ c, Available pre c)

/-- A replacement text without markers, class names or carriage returns. -/
def Markerless (v : Str) : Prop :=
  '\r' ∉ v ∧ ∀ ws, IsLines v ws → ∀ w ∈ ws, Ordinary w ∧ ∀ c, ¬ NamesClass w c

/-- Some block in these lines is called `n`, by its own marker or after a class. -/
def BlockNamed (ls : List Str) (n : Str) : Prop :=
  ∃ pre l post k w, ls = pre ++ l :: post ∧ IsStart l k w ∧ (w ≠ [] ∧ w = n ∨ w = [] ∧ Available pre n)

end Sang.Spec
