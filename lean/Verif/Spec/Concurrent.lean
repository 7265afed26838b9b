import Verif.Concurrent

/-!
# Specification of programs running at the same time
-/

namespace Sang.Spec

variable {D ι : Type} [DecidableEq ι]

/-- `t` can come after `s`, if the processes make their steps in some order. -/
def Leads (C : Codec D) (prog : ι → D → D × Res Unit) (sif : Str) : Sys ι → Sys ι → Prop :=
  Relation.ReflTransGen (AnyStep C prog sif)

/-- Processes which are about to save; `bytes i` is what `i` will write. -/
def savers (fs : Disk) (bytes : ι → Bytes) : Sys ι := ⟨fs, fun i => .ready (bytes i) (.ok ())⟩

/-- Processes which have yet to begin. -/
def starters (fs : Disk) : Sys ι := ⟨fs, fun _ => .waiting⟩

/-- The process has ended. -/
def _root_.Sang.Proc.Ended (p : Proc) : Prop := ∃ r, p = .done r

/-- The process is in the middle of writing. -/
def _root_.Sang.Proc.Writes (p : Proc) : Prop := ∃ b off r, p = .writing b off r

/-- The process has begun and not ended. -/
def _root_.Sang.Proc.Busy (p : Proc) : Prop := p ≠ .waiting ∧ ¬ p.Ended

/-- A step that respects a lock on saving: nobody opens the file for writing while another is writing. -/
def SaveLocked (C : Codec D) (prog : ι → D → D × Res Unit) (sif : Str) (s t : Sys ι) : Prop :=
  ∃ i, Step C prog sif i s t ∧ ((∃ b r, s.procs i = .ready b r) → ∀ j, ¬ (s.procs j).Writes)

/-- A step that respects a lock on running: nobody begins while another is busy. -/
def RunLocked (C : Codec D) (prog : ι → D → D × Res Unit) (sif : Str) (s t : Sys ι) : Prop :=
  ∃ i, Step C prog sif i s t ∧ (s.procs i = .waiting → ∀ j, ¬ (s.procs j).Busy)

/-- The disk after the programs are run one after another. -/
def oneByOne (C : Codec D) (prog : ι → D → D × Res Unit) (sif : Str) : List ι → Disk → Disk
  | [], fs => fs
  | i :: is, fs => oneByOne C prog sif is (runProgram C (prog i) sif sif fs).1

end Sang.Spec
