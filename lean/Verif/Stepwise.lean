import Verif.Opening

/-!
# Several processes, each running a program on the same file, which is read step by step

As `Verif.Concurrent`, but with reading as in `Verif.Opening` and not at one moment.
-/

namespace Sang

/-- How far a process has got. -/
inductive FProc (D : Type) where
  /-- It is opening the animation. -/
  | opening (o : Opening D)
  /-- It has done its work, and is saving, or has ended. -/
  | working (p : Proc)

/-- The disk, and the processes. -/
structure FSys (D ι : Type) where
  disk : Disk
  procs : ι → FProc D

/-- Working on what has been opened, `bywords/__main__.py:41-48`. -/
def work {D : Type} (C : Codec D) (prog : D → D × Res Unit) (sif : Str) : Res (Anim D) → Proc
  | .error e => .done (.error e)
  | .ok a => match prog a.doc with
    | (_, .error e) => .done (.error e)
    | (n, .ok ()) => saving C n sif

/-- A step of the process `i`: one of opening the animation, its work on what it has opened, or a step of saving, which
is as in `Step`. `bywords/__main__.py:41-50`. -/
inductive FStep {D ι : Type} [DecidableEq ι] (C : Codec D) (prog : ι → D → D × Res Unit) (sif : Str) (i : ι) :
    FSys D ι → FSys D ι → Prop where
  | opens {s : FSys D ι} {o o' : Opening D} (h : s.procs i = .opening o) (ho : OpenStep C sif s.disk o o') :
    FStep C prog sif i s ⟨s.disk, Function.update s.procs i (.opening o')⟩
  | works {s : FSys D ι} {r : Res (Anim D)} (h : s.procs i = .opening (.done r)) :
    FStep C prog sif i s ⟨s.disk, Function.update s.procs i (.working (work C (prog i) sif r))⟩
  | saves {s : FSys D ι} {p p' : Proc} {fs : Disk} (h : s.procs i = .working p) (hp : p ≠ .waiting)
    (hs : Step C (fun _ : Unit => prog i) sif () ⟨s.disk, fun _ => p⟩ ⟨fs, fun _ => p'⟩) :
    FStep C prog sif i s ⟨fs, Function.update s.procs i (.working p')⟩

end Sang
