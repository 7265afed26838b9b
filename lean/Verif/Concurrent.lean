import Verif.Program
import Mathlib.Logic.Relation

/-!
# Several processes, each running a program on the same file

Each process opens the animation, works on it and saves it, as `runProgram` does (`bywords/__main__.py:41-50`), and
the steps of the processes come in any order. Nothing in the code prevents them from running at the same time.
-/

namespace Sang

/-- How far a process has got. -/
inductive Proc where
  /-- It hasn't read the file. -/
  | waiting
  /-- It has done its work and is about to open the file for writing. It will write `b`, and end with `r`. -/
  | ready (b : Bytes) (r : Res Unit)
  /-- It has the file open, and has written the first `off` bytes of `b`. -/
  | writing (b : Bytes) (off : ℕ) (r : Res Unit)
  /-- It has ended. -/
  | done (r : Res Unit)

/-- The disk, and the processes. -/
structure Sys (ι : Type) where
  disk : Disk
  procs : ι → Proc

/-- Writing `piece` at `off` to a file that holds `f`, as `write(2)` does for a file that is open at `off`: the rest of
the file stays as it is, and if the file is shorter than `off` then zeros are put in between. This is what becomes of
`f.write(...)` in `sangfroid/format.py:178,192`: `open` and `gzip.open` give the file a position of its own. -/
def writeAt (f : Bytes) (off : ℕ) (piece : Bytes) : Bytes :=
  (f ++ List.replicate (off - f.length) 0).take off ++ piece ++ f.drop (off + piece.length)

/-- What is left to do when `Animation.save` is called, `sangfroid/animation.py:219-246`,
`sangfroid/format.py:96-115,174-178,188-192,223-226`. -/
def saving {D : Type} (C : Codec D) (d : D) (p : Str) : Proc :=
  let out (wrap : Bytes → Bytes) (empty : Bytes) : Proc :=
    if C.canOpen p then
      match C.render d with
      | .error e => .ready empty (.error e)
      | .ok b => .ready (wrap b) (.ok ())
    else .done (.error .notFound)
  match fmtForSaving p with
  | .error e => .done (.error e)
  | .ok .sif => out id []
  | .ok .sifz => out C.gzip (C.gzip [])
  | .ok .sfg => .done (.error .notImpl)
  | .ok .blank => .done (.error .value)

/-- Reading the file and working on what is in it, `bywords/__main__.py:41-48`. Simplified: the file is read at one
moment. -/
def begin {D : Type} (C : Codec D) (prog : D → D × Res Unit) (sif : Str) (fs : Disk) : Proc :=
  match Anim.load C fs sif with
  | .error e => .done (.error e)
  | .ok a => match prog a.doc with
    | (_, .error e) => .done (.error e)
    | (n, .ok ()) => saving C n sif

/-- A step of the process `i`. `write` writes any number of bytes, since `BufferedWriter` writes in pieces. -/
inductive Step {D ι : Type} [DecidableEq ι] (C : Codec D) (prog : ι → D → D × Res Unit) (sif : Str) (i : ι) :
    Sys ι → Sys ι → Prop where
  | read {s : Sys ι} (h : s.procs i = .waiting) :
    Step C prog sif i s ⟨s.disk, Function.update s.procs i (begin C (prog i) sif s.disk)⟩
  | «open» {s : Sys ι} {b : Bytes} {r : Res Unit} (h : s.procs i = .ready b r) :
    Step C prog sif i s ⟨s.disk.put sif [], Function.update s.procs i (.writing b 0 r)⟩
  | write {s : Sys ι} {b f : Bytes} {off k : ℕ} {r : Res Unit} (h : s.procs i = .writing b off r)
    (hf : s.disk sif = some f) (h0 : 0 < k) (hk : off + k ≤ b.length) :
    Step C prog sif i s
      ⟨s.disk.put sif (writeAt f off ((b.drop off).take k)), Function.update s.procs i (.writing b (off + k) r)⟩
  | close {s : Sys ι} {b : Bytes} {r : Res Unit} (h : s.procs i = .writing b b.length r) :
    Step C prog sif i s ⟨s.disk, Function.update s.procs i (.done r)⟩

/-- Some process makes a step. -/
def AnyStep {D ι : Type} [DecidableEq ι] (C : Codec D) (prog : ι → D → D × Res Unit) (sif : Str) (s t : Sys ι) : Prop :=
  ∃ i, Step C prog sif i s t

end Sang
