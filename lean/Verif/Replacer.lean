import Verif.Xml

/-!
# Rewriting marked blocks of source files: `sangfroid/template/replacer.py`

Text is a list of characters; encodings are not modelled. Printing progress (`verbose`) is not
modelled.
-/

namespace Sang

/-! ## Lines and patterns -/

/-- `[A-Za-z0-9_]`, `sangfroid/template/replacer.py:5-6`. -/
def isWordC (c : Char) : Bool :=
  isDig c || c == '_' || (decide (65 ≤ c.toNat) && decide (c.toNat ≤ 90)) ||
    (decide (97 ≤ c.toNat) && decide (c.toNat ≤ 122))

/-- `' '*k`. -/
def spaces (k : ℕ) : Str := List.replicate k ' '

/-- Whether a character is a space (not other white space). -/
def isSp (c : Char) : Bool := c == ' '

/-- What `CLASSNAME_RE` finds, `sangfroid/template/replacer.py:5,53-55`. -/
def className (line : Str) : Option Str :=
  if "class ".toList.isPrefixOf line then
    match (line.drop 6).takeWhile isWordC with
    | [] => none
    | c :: w => some (c :: w)
  else none

/-- What `START_BLOCK_RE` finds: the indent and the name, perhaps empty.
`sangfroid/template/replacer.py:6,57-60`. -/
def startMark (line : Str) : Option (ℕ × Str) :=
  let r := line.dropWhile isSp
  if "### {{{".toList.isPrefixOf r then
    some ((line.takeWhile isSp).length, ((r.drop 7).dropWhile isSp).takeWhile isWordC)
  else none

/-- Whether `END_BLOCK_RE` matches, `sangfroid/template/replacer.py:7,86`. -/
def endMark (line : Str) : Bool := "### }}}".toList.isPrefixOf (line.dropWhile isSp)

/-- The lines of a file opened in text mode, each with its newline, after `\r\n` and `\r` have become
`\n` (see `newlines`). `sangfroid/template/replacer.py:44-46`. `acc` is the line so far, reversed. -/
def fileLines (acc : Str) : Str → List Str
  | [] => if acc = [] then [] else [acc.reverse]
  | c :: r => if c = '\n' then (c :: acc).reverse :: fileLines [] r else fileLines (c :: acc) r

/-- `s.split('\n')`, `sangfroid/template/replacer.py:79`. -/
def splitNl (acc : Str) : Str → List Str
  | [] => [acc.reverse]
  | c :: r => if c = '\n' then acc.reverse :: splitNl [] r else splitNl (c :: acc) r

/-- `s.rstrip()`, `sangfroid/template/replacer.py:77`. -/
def rstrip (s : Str) : Str := (s.reverse.dropWhile isSpace).reverse

/-! ## One file -/

/-- The replacements, by block name: `self.fields`, `sangfroid/template/replacer.py:14`. -/
abbrev RFields := List (Str × Str)

/-- The local variables of `handle`, and `seen_fields`. `current_indent` is only used when there is a
current block. `sangfroid/template/replacer.py:36-42`. -/
structure RState where
  result : Str
  latest : Option Str
  block : Option Str
  indent : ℕ
  changed : Bool
  ignore : Bool
  seen : List Str
  deriving DecidableEq

/-- At the start of a file, `sangfroid/template/replacer.py:36-42`. -/
def RState.start (seen : List Str) : RState := ⟨[], none, none, 0, false, false, seen⟩

/-- What is put in a block, `sangfroid/template/replacer.py:75-81`. -/
def blockText (indent : ℕ) (value : Str) : Str :=
  join ['\n'] ((splitNl [] value).map fun l => rstrip (spaces indent ++ l))

/-- A line that starts a block called `name`, `sangfroid/template/replacer.py:68-83`. -/
def enterBlock (fields : RFields) (line : Str) (indent : ℕ) (name : Str) (latest : Option Str)
    (st : RState) : RState :=
  match fields.lookup name with
  | none =>
    { st with result := st.result ++ line, latest := latest, block := some name, indent := indent,
              ignore := false, seen := name :: st.seen }
  | some v =>
    { st with result := st.result ++ line ++ blockText indent v, latest := latest, block := some name,
              indent := indent, ignore := true, changed := true, seen := name :: st.seen }

/-- One line, `sangfroid/template/replacer.py:53-100`. -/
def replaceLine (fields : RFields) (st : RState) (line : Str) : RState × Res Unit :=
  let latest := match className line with
    | some c => some c
    | none => st.latest
  match startMark line with
  | some (indent, []) =>
    match latest with
    | none => ({ st with latest := none, block := none, indent := indent }, .error .value)
    | some name => (enterBlock fields line indent name none st, .ok ())
  | some (indent, name) => (enterBlock fields line indent name latest st, .ok ())
  | none =>
    if endMark line then
      match st.block with
      | none => ({ st with latest := latest }, .error .value)
      | some _ =>
        ({ st with
            result := st.result ++ (if st.ignore then ['\n'] else []) ++ spaces st.indent ++
              strip line ++ ['\n'],
            latest := latest, block := none, ignore := false }, .ok ())
    else if st.ignore then ({ st with latest := latest }, .ok ())
    else ({ st with result := st.result ++ line, latest := latest }, .ok ())

/-- The loop over the lines, `sangfroid/template/replacer.py:46-100`. -/
def replaceLines (fields : RFields) (st : RState) : List Str → RState × Res Unit
  | [] => (st, .ok ())
  | l :: r => match replaceLine fields st l with
    | (st, .error e) => (st, .error e)
    | (st, .ok ()) => replaceLines fields st r

/-- What `handle` does with a text: the names seen so far, and the text to write (`none` if nothing is
written). `sangfroid/template/replacer.py:31-106`. -/
def handleText (fields : RFields) (seen : List Str) (text : Str) : List Str × Res (Option Str) :=
  if fields = [] then (seen, .ok none)
  else match replaceLines fields (.start seen) (fileLines [] (newlines text)) with
    | (st, .error e) => (st.seen, .error e)
    | (st, .ok ()) =>
      if st.block.isSome then (st.seen, .error .value)
      else (st.seen, .ok (if st.changed then some st.result else none))

/-! ## Files -/

/-- The text files on disk. -/
abbrev TextDisk := Str → Option Str

/-- Write a file. -/
def TextDisk.put (d : TextDisk) (p : Str) (s : Str) : TextDisk := fun q => if q = p then some s else d q

/-- `os.rename(a, b)`, atomically. -/
def TextDisk.move (d : TextDisk) (a b : Str) : TextDisk := fun q =>
  if q = b then d a else if q = a then none else d q

/-- The name of the temporary file, `sangfroid/template/replacer.py:115`. -/
def tempName (p : Str) : Str := p ++ ".1".toList

/-- The disks that a process which dies during `write_to` may leave behind: before anything, after the
temporary file is opened, after any part of the text has reached it, and after the rename.
`sangfroid/template/replacer.py:113-120`. -/
def writeToStates (d : TextDisk) (p : Str) (s : Str) : List TextDisk :=
  d :: (List.range (s.length + 1)).map (fun i => d.put (tempName p) (s.take i)) ++
    [(d.put (tempName p) s).move (tempName p) p]

/-- `write_to`, `sangfroid/template/replacer.py:113-120`. -/
def writeTo (d : TextDisk) (p : Str) (s : Str) : TextDisk :=
  (d.put (tempName p) s).move (tempName p) p

/-- `handle(filename)`, `sangfroid/template/replacer.py:31-106`. A file that isn't there is an error,
unless there is nothing to replace. -/
def handleFile (fields : RFields) (seen : List Str) (d : TextDisk) (p : Str) :
    List Str × TextDisk × Res Unit :=
  if fields = [] then (seen, d, .ok ())
  else match d p with
    | none => (seen, d, .error .notFound)
    | some text => match handleText fields seen text with
      | (seen, .error e) => (seen, d, .error e)
      | (seen, .ok none) => (seen, d, .ok ())
      | (seen, .ok (some s)) => (seen, writeTo d p s, .ok ())

/-- The disks that a process which dies during `handle(filename)` may leave behind. -/
def handleStates (fields : RFields) (seen : List Str) (d : TextDisk) (p : Str) : List TextDisk :=
  if fields = [] then [d]
  else match d p with
    | none => [d]
    | some text => match (handleText fields seen text).2 with
      | .ok (some s) => writeToStates d p s
      | _ => [d]

/-- `handle_all_files()`, `sangfroid/template/replacer.py:21-29`, given the names that `glob` finds, in
order. -/
def handleFiles (fields : RFields) (seen : List Str) (d : TextDisk) :
    List Str → List Str × TextDisk × Res Unit
  | [] => (seen, d, .ok ())
  | p :: r => match handleFile fields seen d p with
    | (seen, d, .error e) => (seen, d, .error e)
    | (seen, d, .ok ()) => handleFiles fields seen d r

/-- The names that `check_everything_was_seen()` complains about, in any order.
`sangfroid/template/replacer.py:108-111`. -/
def unseenFields (fields : RFields) (seen : List Str) : List Str :=
  (fields.map Prod.fst).filter fun n => !seen.contains n

end Sang
