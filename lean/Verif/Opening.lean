import Verif.Concurrent

/-!
# Opening an animation, step by step

`Animation(name)` opens the file twice: once to look at its first two bytes, and again to read it. It is read in pieces,
until there is no more of it. Other processes may save to it in the meantime.
-/

namespace Sang

/-- How far `Animation(name)` has got. -/
inductive Opening (D : Type) where
  /-- It hasn't looked at the file. -/
  | start
  /-- It has chosen a format, by the first two bytes. -/
  | sniffed (f : Fmt)
  /-- It has the file open, and has read `got`. -/
  | reading (f : Fmt) (got : Bytes)
  /-- It has returned, or raised. -/
  | done (r : Res (Anim D))

/-- What is made of all that was read: `FileContextHandler`, and the rest of `Animation.__init__`.
`sangfroid/format.py:153-158,171-172,185-186`, `sangfroid/animation.py:121-128`. Simplification: what is wrong with
compressed data is found when all has been read. -/
def finishOpening {D : Type} (C : Codec D) (f : Fmt) (name : Str) (got : Bytes) : Res (Anim D) :=
  match f with
  | .sif => match C.parse got with
    | .error e => .error e
    | .ok d => .ok ⟨.sif, some name, d⟩
  | .sifz => match C.gunzip got with
    | .error e => .error e
    | .ok b => match C.parse b with
      | .error e => .error e
      | .ok d => .ok ⟨.sifz, some name, d⟩
  | _ => .error .value

/-- `Format.from_filename(filename)`, the first of the two times the file is opened. `sangfroid/format.py:83-115`. -/
def sniffStep {D : Type} (fs : Disk) (name : Str) : Opening D :=
  match fmtForLoading fs name with
  | .error e => .done (.error e)
  | .ok f => .sniffed f

/-- The beginning of `main_file()`: the file is opened again. `sangfroid/format.py:171-172,185-186,199-203`. -/
def openStep {D : Type} (fs : Disk) (name : Str) (f : Fmt) : Opening D :=
  match f with
  | .sfg | .blank => .done (.error .value)
  | f => match fs name with
    | none => .done (.error .notFound)
    | some _ => .reading f []

/-- A step of `Animation(name)`, when the disk is `fs`. `piece` is a `read(2)`, which gives some of what comes after what
has been read; `ends` is one which gives nothing. -/
inductive OpenStep {D : Type} (C : Codec D) (name : Str) (fs : Disk) : Opening D → Opening D → Prop where
  | sniff : OpenStep C name fs .start (sniffStep fs name)
  | «open» {f : Fmt} : OpenStep C name fs (.sniffed f) (openStep fs name f)
  | piece {f : Fmt} {got b : Bytes} {k : ℕ} (hb : fs name = some b) (h0 : 0 < k) (hk : got.length + k ≤ b.length) :
    OpenStep C name fs (.reading f got) (.reading f (got ++ (b.drop got.length).take k))
  | ends {f : Fmt} {got b : Bytes} (hb : fs name = some b) (hle : b.length ≤ got.length) :
    OpenStep C name fs (.reading f got) (.done (finishOpening C f name got))

/-- Processes that save, and one that opens. -/
inductive Meanwhile {D ι : Type} [DecidableEq ι] (C : Codec D) (prog : ι → D → D × Res Unit) (sif : Str) :
    Sys ι × Opening D → Sys ι × Opening D → Prop where
  | other {s t : Sys ι} {o : Opening D} (h : AnyStep C prog sif s t) : Meanwhile C prog sif (s, o) (t, o)
  | ours {s : Sys ι} {o o' : Opening D} (h : OpenStep C sif s.disk o o') : Meanwhile C prog sif (s, o) (s, o')

end Sang
