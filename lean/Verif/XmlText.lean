import Verif.Timeline
import Verif.Format
import Mathlib.Data.String.Basic

/-!
# Documents as text: Beautiful Soup's serializer and an XML parser

`str(soup)` (`sangfroid/format.py:138-139`) is modelled on Beautiful Soup 4.12.2's `Tag.decode` with the
`minimal` formatter. `BeautifulSoup(f, features='xml')` (`sangfroid/format.py:153-158`) is modelled as an
XML 1.0 parser without comments and processing instructions inside the root, CDATA or
namespaces: it raises `Err.unmodelled` on those. Malformed documents are refused, though
the code asks for recovery from errors.
-/

namespace Sang

/-! ## The serializer -/

/-- `EntitySubstitution.quoted_attribute_value`. -/
def quoteAttr (s : Str) : Str :=
  if s.contains '"' then
    if s.contains '\'' then
      '"' :: (s.flatMap fun c => if c = '"' then "&quot;".toList else [c]) ++ ['"']
    else '\'' :: s ++ ['\'']
  else '"' :: s ++ ['"']

/-- `Formatter.attributes`: in the order of their names. -/
def sortAttrs (a : Attrs) : Attrs := a.insertionSort fun p q => p.1 ≤ q.1

/-- An attribute with the space before it. -/
def attrText (F : Fl) (p : String × AttrV) : Str :=
  ' ' :: p.1.toList ++ '=' :: quoteAttr (escapeXml (p.2.str' F))

mutual
/-- `tag.decode()`. `e` says which elements with nothing in them are written without an end-tag: those
that were read from a file, but not all of those made by the library. -/
def Node.xml (F : Fl) (e : Node → Bool) : Node → Str
  | .text s => escapeXml s
  | .tag n a ks =>
    '<' :: n.toList ++ (sortAttrs a).flatMap (attrText F) ++
      (if ks.isEmpty && e (.tag n a ks) then "/>".toList
      else '>' :: Node.xmlKids F e ks ++ '<' :: '/' :: n.toList ++ ['>'])

/-- Of the children. -/
def Node.xmlKids (F : Fl) (e : Node → Bool) : List Node → Str
  | [] => []
  | x :: r => Node.xml F e x ++ Node.xmlKids F e r
end

/-- `str(soup)`. -/
def docText (F : Fl) (e : Node → Bool) (n : Node) : Str :=
  "<?xml version=\"1.0\" encoding=\"utf-8\"?>\n".toList ++ n.xml F e

/-! ## The parser -/

/-- Characters allowed in XML. (There are no surrogates among Lean's characters.) -/
def xmlChar (c : Char) : Bool :=
  c == '\t' || c == '\n' || c == '\r' || (' ' ≤ c && c != '￾' && c != '￿')

/-- XML's white space. -/
def xmlSpace (c : Char) : Bool := c == ' ' || c == '\t' || c == '\n' || c == '\r'

/-- Characters of names. Simplification: ASCII, and the first character may be any of them. -/
def nameChar (c : Char) : Bool := c.isAlphanum || c == '_' || c == '-' || c == '.'

/-- The character with this number, if there may be one in XML. -/
def xmlCharOf (n : ℕ) : Option Char :=
  if n.isValidChar ∧ xmlChar (Char.ofNat n) = true then some (Char.ofNat n) else none

/-- Character references, without the `&` and the `;`: `#` and decimal digits, or `#x` and hexadecimal ones.
Simplification: those to characters not allowed in XML raise `Err.unmodelled`, and those to white space are let through
outside the root. -/
def charRef : Str → Option Char
  | '#' :: 'x' :: ds => if ds = [] then none else (hexNat? ds).bind xmlCharOf
  | '#' :: ds => if ds ≠ [] ∧ ds.all isDig then xmlCharOf (natVal ds) else none
  | _ => none

/-- The predefined entities, and character references. -/
def xmlEntity (r : Str) : Option Char :=
  if r = "amp".toList then some '&'
  else if r = "lt".toList then some '<'
  else if r = "gt".toList then some '>'
  else if r = "quot".toList then some '"'
  else if r = "apos".toList then some '\''
  else charRef r

/-- Where the parser is. -/
inductive XSt where
  /-- in character data -/
  | text
  /-- after `&` in character data -/
  | textRef (r : Str)
  /-- after `<` -/
  | lt
  /-- in the name of a start-tag -/
  | openName (n : Str)
  /-- in a start-tag, after white space -/
  | inTag (n : Str) (as : Attrs)
  /-- in the name of an attribute -/
  | attrName (n : Str) (as : Attrs) (k : Str)
  /-- after white space that comes after the name of an attribute -/
  | attrEq (n : Str) (as : Attrs) (k : Str)
  /-- after `=` -/
  | attrQ (n : Str) (as : Attrs) (k : Str)
  /-- in the value of an attribute, which `q` ends -/
  | attrVal (n : Str) (as : Attrs) (k : Str) (q : Char) (v : Str)
  /-- after `&` in the value of an attribute -/
  | attrRef (n : Str) (as : Attrs) (k : Str) (q : Char) (v r : Str)
  /-- after the value of an attribute -/
  | afterVal (n : Str) (as : Attrs)
  /-- after `/` in a start-tag -/
  | slash (n : Str) (as : Attrs)
  /-- in the name of an end-tag -/
  | closeName (n : Str)
  /-- after white space that comes after the name of an end-tag -/
  | closeEnd (n : Str)

/-- The parser: the elements which are open, innermost first, with what they have so far; the text since
the last tag; and the root once it is closed. -/
structure XMach where
  stack : List (String × Attrs × List Node)
  data : Str
  st : XSt
  root : Option Node

/-- Beautiful Soup's `endData`: a run of white space becomes one newline or space. -/
def textRun (s : Str) : List Node :=
  if s = [] then []
  else if s.all asciiSpace then [.text (if s.contains '\n' then ['\n'] else [' '])]
  else [.text s]

/-- The text since the last tag goes into the innermost open element. Outside the root there may be
white space only. -/
def XMach.flush (m : XMach) : Res XMach :=
  match m.stack with
  | [] => if m.data.all xmlSpace then .ok { m with data := [] } else .error .value
  | (n, a, ks) :: r => .ok { m with stack := (n, a, ks ++ textRun m.data) :: r, data := [] }

/-- A complete element goes into the innermost open element, or is the root. -/
def XMach.place (x : Node) (m : XMach) : Res XMach :=
  match m.stack with
  | (n, a, ks) :: r => .ok { m with stack := (n, a, ks ++ [x]) :: r, st := .text }
  | [] => match m.root with
    | none => .ok { m with root := some x, st := .text }
    | some _ => .error .value

/-- A character in a start-tag which isn't in a name or a value. -/
def XMach.tagChar (m : XMach) (n : Str) (as : Attrs) (c : Char) : Res XMach :=
  if xmlSpace c then .ok { m with st := .inTag n as }
  else if c = '/' then .ok { m with st := .slash n as }
  else if c = '>' then .ok { m with stack := (String.ofList n, as, []) :: m.stack, st := .text }
  else .error .value

/-- The innermost open element ends, if it is called that. -/
def XMach.close (m : XMach) (n : Str) : Res XMach :=
  match m.stack with
  | [] => .error .value
  | (n', a, ks) :: r =>
    if n' = String.ofList n then XMach.place (.tag n' a ks) { m with stack := r } else .error .value

/-- One character. Line ends have been normalised. Comments, processing instructions and document types outside the
root are in `soup.contents`, which `sangfroid/animation.py:124` asserts has one thing in it. Simplification: what comes
after the start of such a thing is not looked at. -/
def XMach.step (m : XMach) (c : Char) : Res XMach :=
  match m.st with
  | .text =>
    if c = '<' then match m.flush with
      | .error e => .error e
      | .ok m => .ok { m with st := .lt }
    else if c = '&' then .ok { m with st := .textRef [] }
    else if xmlChar c then .ok { m with data := m.data ++ [c] }
    else .error .value
  | .textRef r =>
    if c = ';' then match xmlEntity r with
      | some d => .ok { m with data := m.data ++ [d], st := .text }
      | none => .error .unmodelled
    else .ok { m with st := .textRef (r ++ [c]) }
  | .lt =>
    if c = '/' then .ok { m with st := .closeName [] }
    else if nameChar c then .ok { m with st := .openName [c] }
    else if m.stack = [] ∧ (c = '!' ∨ c = '?') then .error .assertion
    else .error .unmodelled
  | .openName n => if nameChar c then .ok { m with st := .openName (n ++ [c]) } else m.tagChar n [] c
  | .inTag n as => if nameChar c then .ok { m with st := .attrName n as [c] } else m.tagChar n as c
  | .attrName n as k =>
    if c = '=' then .ok { m with st := .attrQ n as k }
    else if nameChar c then .ok { m with st := .attrName n as (k ++ [c]) }
    else if xmlSpace c then .ok { m with st := .attrEq n as k }
    else .error .unmodelled
  | .attrEq n as k =>
    if c = '=' then .ok { m with st := .attrQ n as k }
    else if xmlSpace c then .ok m
    else .error .value
  | .attrQ n as k =>
    if c = '"' ∨ c = '\'' then .ok { m with st := .attrVal n as k c [] }
    else if xmlSpace c then .ok m
    else .error .value
  | .attrVal n as k q v =>
    if c = q then
      if (as.map Prod.fst).contains (String.ofList k) then .error .value
      else .ok { m with st := .afterVal n (as ++ [(String.ofList k, .str v)]) }
    else if c = '&' then .ok { m with st := .attrRef n as k q v [] }
    else if c = '<' then .error .value
    else if xmlChar c then
      .ok { m with st := .attrVal n as k q (v ++ [if c = '\n' ∨ c = '\t' then ' ' else c]) }
    else .error .value
  | .attrRef n as k q v r =>
    if c = ';' then match xmlEntity r with
      | some d => .ok { m with st := .attrVal n as k q (v ++ [d]) }
      | none => .error .unmodelled
    else .ok { m with st := .attrRef n as k q v (r ++ [c]) }
  | .afterVal n as => m.tagChar n as c
  | .slash n as => if c = '>' then m.place (.tag (String.ofList n) as []) else .error .value
  | .closeName n =>
    if c = '>' then m.close n
    else if nameChar c then .ok { m with st := .closeName (n ++ [c]) }
    else if xmlSpace c then .ok { m with st := .closeEnd n }
    else .error .unmodelled
  | .closeEnd n =>
    if c = '>' then m.close n
    else if xmlSpace c then .ok m
    else .error .value

/-- All of them. -/
def XMach.run (m : XMach) : Str → Res XMach
  | [] => .ok m
  | c :: r => match m.step c with
    | .error e => .error e
    | .ok m => m.run r

/-- What comes after the first `?>`. -/
def afterDecl : Str → Str
  | [] => []
  | c :: r => if c = '?' ∧ r.head? = some '>' then r.tail else afterDecl r

/-- Without the XML declaration. -/
def dropDecl (s : Str) : Str :=
  if "<?xml".toList.isPrefixOf s && (s.drop 5).head?.any xmlSpace then afterDecl s else s

/-- The root of a document given as text. If there is none, the assertion in `sangfroid/animation.py:124` fails. -/
def parseXml (s : Str) : Res Node :=
  match XMach.run ⟨[], [], .text, none⟩ (newlines (dropDecl s)) with
  | .error e => .error e
  | .ok m => match m.stack, m.st, m.root with
    | [], .text, some n => if m.data.all xmlSpace then .ok n else .error .value
    | [], .text, none => if m.data.all xmlSpace then .error .assertion else .error .value
    | _, _, _ => .error .value

/-! ## Bytes -/

/-- `s.encode('UTF-8')`, `sangfroid/format.py:139`. -/
def utf8 (s : Str) : Bytes := s.flatMap String.utf8EncodeChar

/-- Text from bytes in UTF-8. -/
def unUtf8 (b : Bytes) : Res Str :=
  match (ByteArray.mk b.toArray).utf8Decode? with
  | some a => .ok a.toList
  | none => .error .value

end Sang
