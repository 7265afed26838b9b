import Verif.Py
import Mathlib.Logic.Function.Basic

/-!
# Files: `sangfroid/format.py` and the saving and loading of `sangfroid/animation.py`

The file system is a map from names to bytes. A save is a list of states, one for each point at
which the process could die, and a final state.
-/

namespace Sang

/-- File contents. -/
abbrev Bytes := List UInt8

/-- The disk: what each name holds, if anything. -/
abbrev Disk := Str → Option Bytes

/-- The disk after the file `p` is made to hold `b`. -/
def Disk.put (fs : Disk) (p : Str) (b : Bytes) : Disk := Function.update fs p (some b)

/-- What the code relies on: the XML serializer (`str(soup).encode`,
`sangfroid/format.py:138-139`), the XML parser (`BeautifulSoup(f, features='xml')` and the check
for one root, `sangfroid/format.py:153-158`, `sangfroid/animation.py:121-125`), gzip
(`sangfroid/format.py:186,191`), and whether the operating system lets us open a name for
writing. Rendering may raise (e.g. on a lone surrogate). `xmlCodec` in `Props/XmlText.lean` is the one for
XML in UTF-8, proved to obey the laws assumed in `Props/Files.lean`. -/
structure Codec (D : Type) where
  render : D → Res Bytes
  parse : Bytes → Res D
  gzip : Bytes → Bytes
  gunzip : Bytes → Res Bytes
  canOpen : Str → Bool

/-- The format classes, `sangfroid/format.py:166-226`. -/
inductive Fmt where
  | sif | sifz | sfg | blank
  deriving DecidableEq, Repr

/-- `Format.handlers()`: the subclasses in order of definition, `sangfroid/format.py:141-151`. -/
def handlers : List Fmt := [.sif, .sifz, .sfg, .blank]

/-- `magic_number`, `sangfroid/format.py:168,182,196,214`. -/
def Fmt.magic : Fmt → Option Bytes
  | .sif => some [0x3c, 0x3f]
  | .sifz => some [0x1f, 0x8b]
  | .sfg => some [0x50, 0x4b]
  | .blank => none

/-- `extensions`, `sangfroid/format.py:169,183,197,215`. -/
def Fmt.extensions : Fmt → List Str
  | .sif => ["sif".toList]
  | .sifz => ["sifz".toList]
  | .sfg => ["sfg".toList]
  | .blank => []

/-- `os.path.splitext(p)[1]`, used at `sangfroid/format.py:97`. POSIX: the last dot of the last
component starts the extension, unless only dots precede it there. -/
def splitext (p : Str) : Str :=
  let base := p.reverse.takeWhile (· != '/')
  match base.dropWhile (· != '.') with
  | [] => []
  | _ :: stem => if stem.any (· != '.') then '.' :: (base.takeWhile (· != '.')).reverse else []

/-- The list of matching handlers, which must be exactly one.
`sangfroid/format.py:90-95,101-109`. -/
def pickHandler (hs : List Fmt) : Res Fmt :=
  match hs with
  | [] => .error .value
  | [h] => .ok h
  | _ => .error .assertion

/-- `Format.from_filename(filename, load=True)` up to making the object,
`sangfroid/format.py:83-95,109-115`. -/
def fmtForLoading (fs : Disk) (filename : Str) : Res Fmt :=
  match fs filename with
  | none => .error .notFound
  | some b =>
    if b.take 2 = [] then .error .value
    else pickHandler (handlers.filter fun h => h.magic = some (b.take 2))

/-- Removing the extension's dot, `sangfroid/format.py:98-99`. -/
def dropDot : Str → Str
  | '.' :: e => e
  | e => e

/-- `Format.from_filename(filename, load=False)` up to making the object,
`sangfroid/format.py:96-115`. -/
def fmtForSaving (filename : Str) : Res Fmt :=
  let ext := dropDot (lower (splitext filename))
  pickHandler (handlers.filter fun h => h.extensions.contains ext)

/-- The parts of an `Animation` that saving depends on: the format object's class and filename,
and the document. `sangfroid/animation.py:114-128`. -/
structure Anim (D : Type) where
  fmt : Fmt
  filename : Option Str
  doc : D
  deriving DecidableEq

/-- `Animation(filename)`: choose a handler, then `main_file()`.
`sangfroid/animation.py:109-128`, `sangfroid/format.py:171-172,185-186,199-203`. -/
def Anim.load {D : Type} (C : Codec D) (fs : Disk) (filename : Str) : Res (Anim D) :=
  match fmtForLoading fs filename, fs filename with
  | .error e, _ => .error e
  | .ok _, none => .error .notFound
  | .ok .sif, some b =>
    match C.parse b with
    | .error e => .error e
    | .ok d => .ok ⟨.sif, some filename, d⟩
  | .ok .sifz, some b =>
    match C.gunzip b with
    | .error e => .error e
    | .ok b' =>
      match C.parse b' with
      | .error e => .error e
      | .ok d => .ok ⟨.sifz, some filename, d⟩
  | .ok .sfg, some _ => .error .value
  | .ok .blank, some _ => .error .value

/-- What a save leaves behind: the disk at each point where the process could die, the disk and
the animation at the end, and whether it raised. -/
structure Saved (D : Type) where
  crash : List Disk
  disk : Disk
  anim : Anim D
  res : Res Unit

/-- The states a file goes through while it is rewritten in place: untouched, truncated by
`open(..., 'wb')`, then every prefix of what is being written.
`sangfroid/format.py:177-178,191-192`. -/
def rewriteStates (fs : Disk) (p : Str) (b : Bytes) : List Disk :=
  fs :: (List.range (b.length + 1)).map fun i => fs.put p (b.take i)

/-- `Sif.save` and `Sifz.save`, `sangfroid/format.py:174-178,188-192`. The name is recorded
before the file is opened; the document is rendered after that. When rendering raises, a gzip
file is still closed, and so holds an empty stream. -/
def writeOut {D : Type} (C : Codec D) (fs : Disk) (a : Anim D) (wrap : Bytes → Bytes)
    (empty : Bytes) (filename : Str) : Saved D :=
  let a' : Anim D := { a with filename := some filename }
  if C.canOpen filename then
    match C.render a.doc with
    | .error e => ⟨rewriteStates fs filename empty, fs.put filename empty, a', .error e⟩
    | .ok b => ⟨rewriteStates fs filename (wrap b), fs.put filename (wrap b), a', .ok ()⟩
  else ⟨[fs], fs, a', .error .notFound⟩

/-- `self._format.save(content, filename)` for each class, `sangfroid/format.py:117-128,174-178,
188-192,223-226`. `Sfg` inherits the abstract method. -/
def fmtSave {D : Type} (C : Codec D) (fs : Disk) (a : Anim D) (filename : Option Str) : Saved D :=
  match a.fmt, filename with
  | .sif, some p => writeOut C fs a id [] p
  | .sifz, some p => writeOut C fs a C.gzip (C.gzip []) p
  | .sfg, _ => ⟨[fs], fs, a, .error .notImpl⟩
  | .blank, _ => ⟨[fs], fs, a, .error .value⟩
  -- a sif or sifz always has a filename
  | _, none => ⟨[fs], fs, a, .error .type⟩

/-- `Animation.save`, `sangfroid/animation.py:219-246`. The new format object replaces the old
one before anything is written. -/
def Anim.save {D : Type} (C : Codec D) (fs : Disk) (a : Anim D) (filename : Option Str) : Saved D :=
  match filename with
  | none => fmtSave C fs a a.filename
  | some p =>
    match fmtForSaving p with
    | .error e => ⟨[fs], fs, a, .error e⟩
    | .ok f => fmtSave C fs { a with fmt := f, filename := some p } (some p)

/-- `Animation()`, `sangfroid/animation.py:116-117`, `sangfroid/format.py:217-221`. -/
def Anim.blank {D : Type} (d : D) : Anim D := ⟨.blank, none, d⟩

end Sang
