import Verif.Replacer
import Mathlib.Data.List.Sort

/-!
# The scripts in `etc/`

`etc/scan-synfig-source.py` makes the list of blend methods from Synfig's source, and
`etc/get-symbols.py` collects the symbols of the layer classes.
-/

namespace Sang

/-! ## `etc/scan-synfig-source.py` -/

/-- `[A-Z_]`, `etc/scan-synfig-source.py:6`. -/
def isUpC (c : Char) : Bool := c == '_' || (decide (65 ≤ c.toNat) && decide (c.toNat ≤ 90))

/-- What `BLEND_ENUM_RE` matches at the start of a text, `etc/scan-synfig-source.py:6`. Simplification:
the only digits are those of ASCII. -/
def blendHere (s : Str) : Option (Str × ℕ) :=
  if "BLEND_".toList.isPrefixOf s then
    match (s.drop 6).dropWhile isUpC with
    | '=' :: t =>
      if (s.drop 6).takeWhile isUpC = [] ∨ t.takeWhile isDig = [] then none
      else some ((s.drop 6).takeWhile isUpC, natVal (t.takeWhile isDig))
    | _ => none
  else none

/-- `BLEND_ENUM_RE.search(line)`, `etc/scan-synfig-source.py:31-34`. -/
def blendIn : Str → Option (Str × ℕ)
  | [] => blendHere []
  | c :: r => match blendHere (c :: r) with
    | some m => some m
    | none => blendIn r

/-- `blend_methods[val] = name`, `etc/scan-synfig-source.py:39`. -/
def putBlend (v : ℕ) (name : Str) : List (ℕ × Str) → List (ℕ × Str)
  | [] => [(v, name)]
  | p :: r => if p.1 = v then (v, name) :: r else p :: putBlend v name r

/-- One line of the header, `etc/scan-synfig-source.py:31-39`. -/
def scanLine (d : List (ℕ × Str)) (line : Str) : List (ℕ × Str) :=
  match blendIn line with
  | none => d
  | some (name, v) => if name = "END".toList ∨ name = "BY_LAYER".toList then d else putBlend v name d

/-- The names of the blend methods, in order: `etc/scan-synfig-source.py:26,29-44`. -/
def scanHeader (text : Str) : Res (List Str) :=
  let d := (fileLines [] (newlines text)).foldl scanLine []
  if (List.range d.length).all fun i => (d.map Prod.fst).contains i then
    .ok ((d.insertionSort fun a b => a.1 ≤ b.1).map Prod.snd)
  else .error .assertion

/-- The text for the block, `etc/scan-synfig-source.py:46-49`, beginning with number `i`. -/
def blendLines : ℕ → List Str → Str
  | _, [] => []
  | i, v :: r => v ++ (" = ".toList ++ (natStr i ++ '\n' :: blendLines (i + 1) r))

/-- What is replaced, `etc/scan-synfig-source.py:46-51`. -/
def blendFields (names : List Str) : RFields := [("BlendMethod".toList, '\n' :: blendLines 0 names)]

/-- `main()`, `etc/scan-synfig-source.py:18-53`, from where the arguments are parsed, for a directory of
sources that exists; given the name of the header and the names `glob` finds. -/
def scanMain (d : TextDisk) (header : Str) (files : List Str) : TextDisk × Res Unit :=
  match d header with
  | none => (d, .error .notFound)
  | some text => match scanHeader text with
    | .error e => (d, .error e)
    | .ok names => (handleFiles (blendFields names) [] d files).2

/-! ## `etc/get-symbols.py` -/

/-- What `LAYER_CLASS_DEF_RE` matches at the start of a text, `etc/get-symbols.py:8`. -/
def classHere (s : Str) : Option (Str × Str) :=
  if "class ".toList.isPrefixOf s then
    match (s.drop 6).dropWhile isWordC with
    | '(' :: t =>
      if (s.drop 6).takeWhile isWordC = [] ∨ t.takeWhile isWordC = [] then none
      else some ((s.drop 6).takeWhile isWordC, t.takeWhile isWordC)
    | _ => none
  else none

/-- `LAYER_CLASS_DEF_RE.search(line)`, `etc/get-symbols.py:19-21`. -/
def classIn : Str → Option (Str × Str)
  | [] => classHere []
  | c :: r => match classHere (c :: r) with
    | some m => some m
    | none => classIn r

/-- A quote of either kind. -/
def isQuote (c : Char) : Bool := c == '\'' || c == '"'

/-- What `SYMBOL_RE` matches at the start of a text, `etc/get-symbols.py:9`. -/
def symbolHere (s : Str) : Option Str :=
  if "SYMBOL".toList.isPrefixOf s then
    match (s.drop 6).dropWhile isSp with
    | '=' :: t => match t.dropWhile isSp with
      | c :: u => if isQuote c then some (u.takeWhile fun x => !isQuote x) else none
      | [] => none
    | _ => none
  else none

/-- `SYMBOL_RE.search(line)`, `etc/get-symbols.py:31-33`. -/
def symbolIn : Str → Option Str
  | [] => symbolHere []
  | c :: r => match symbolHere (c :: r) with
    | some m => some m
    | none => symbolIn r

/-- The classes found, each with its symbol if it has any, and the current class:
`etc/get-symbols.py:11-13`. -/
structure SymState where
  results : List (Str × Option Str)
  current : Option Str
  deriving DecidableEq

/-- `results[name]['symbol'] = s`, `etc/get-symbols.py:33`. -/
def putSymbol (name s : Str) (l : List (Str × Option Str)) : List (Str × Option Str) :=
  l.map fun p => if p.1 = name then (name, some s) else p

/-- `etc/get-symbols.py:30-33`. -/
def takeSymbol (st : SymState) (line : Str) : SymState :=
  match st.current with
  | none => st
  | some name => match symbolIn line with
    | none => st
    | some s => { st with results := putSymbol name s st.results }

/-- One line, `etc/get-symbols.py:18-33`. -/
def symLine (st : SymState) (line : Str) : Res SymState :=
  match classIn line with
  | none => .ok (takeSymbol st line)
  | some (name, super) =>
    if super ≠ "Layer".toList then .ok st
    else if (st.results.map Prod.fst).contains name then .error .assertion
    else .ok (takeSymbol ⟨st.results ++ [(name, none)], some name⟩ line)

/-- All lines of all files, in the order in which `glob` gives them: `etc/get-symbols.py:13-33`. -/
def symLines (st : SymState) : List Str → Res SymState
  | [] => .ok st
  | l :: r => match symLine st l with
    | .error e => .error e
    | .ok st => symLines st r

/-- `etc/get-symbols.py:11-40`, given the texts of the files. What is written is the dict; writing it as
JSON isn't modelled. -/
def getSymbols (texts : List Str) : Res (List (Str × Option Str)) :=
  match symLines ⟨[], none⟩ (texts.flatMap fun t => fileLines [] (newlines t)) with
  | .error e => .error e
  | .ok st => .ok st.results

end Sang
