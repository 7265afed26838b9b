import Verif.Format

/-!
# Saving to a disk without enough room
-/

namespace Sang

/-- How a save ends. -/
inductive Ending where
  /-- As if there had been room: it returns, or raises. -/
  | came (r : Res Unit)
  /-- `OSError`: no space left on the device. -/
  | full
  deriving DecidableEq

/-- `Sif.save` and `Sifz.save`, `sangfroid/format.py:174-178,188-192`, if there is room for `room` bytes in the file.
What there is room for is written; then `write`, or `close`, raises. As in `writeOut`, the name is recorded first. -/
def writeIn {D : Type} (C : Codec D) (room : ℕ) (fs : Disk) (a : Anim D) (wrap : Bytes → Bytes) (empty : Bytes)
    (filename : Str) : Disk × Anim D × Ending :=
  let a' : Anim D := { a with filename := some filename }
  if C.canOpen filename then
    let out : Bytes × Res Unit := match C.render a.doc with
      | .error e => (empty, .error e)
      | .ok b => (wrap b, .ok ())
    if out.1.length ≤ room then (fs.put filename out.1, a', .came out.2)
    else (fs.put filename (out.1.take room), a', .full)
  else (fs, a', .came (.error .notFound))

/-- `self._format.save(content, filename)` for each class, `sangfroid/format.py:117-128,174-178,188-192,223-226`, as in
`fmtSave`. -/
def fmtSaveIn {D : Type} (C : Codec D) (room : ℕ) (fs : Disk) (a : Anim D) (filename : Option Str) :
    Disk × Anim D × Ending :=
  match a.fmt, filename with
  | .sif, some p => writeIn C room fs a id [] p
  | .sifz, some p => writeIn C room fs a C.gzip (C.gzip []) p
  | .sfg, _ => (fs, a, .came (.error .notImpl))
  | .blank, _ => (fs, a, .came (.error .value))
  | _, none => (fs, a, .came (.error .type))

/-- `Animation.save`, `sangfroid/animation.py:219-246`, as in `Anim.save`. -/
def Anim.saveIn {D : Type} (C : Codec D) (room : ℕ) (fs : Disk) (a : Anim D) (filename : Option Str) :
    Disk × Anim D × Ending :=
  match filename with
  | none => fmtSaveIn C room fs a a.filename
  | some p =>
    match fmtForSaving p with
    | .error e => (fs, a, .came (.error e))
    | .ok f => fmtSaveIn C room fs { a with fmt := f, filename := some p } (some p)

/-- One `animation.save(...)` after another, each with some room, and whether it raises or not (a program which catches
the exception and tries again). -/
def Anim.savesIn {D : Type} (C : Codec D) : List (Option Str × ℕ) → Disk → Anim D → Disk × Anim D
  | [], fs, a => (fs, a)
  | (name, room) :: l, fs, a =>
    let (fs', a', _) := a.saveIn C room fs name
    Anim.savesIn C l fs' a'

end Sang
