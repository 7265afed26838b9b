import Verif.Stepwise
import Verif.Spec.Concurrent

/-! # What C154 speaks of, when files are read step by step -/

namespace Sang.Spec

variable {D ι : Type} [DecidableEq ι]

/-- `t` can come after `s`, if the processes make their steps in some order. -/
def LeadsStepwise (C : Codec D) (prog : ι → D → D × Res Unit) (sif : Str) : FSys D ι → FSys D ι → Prop :=
  Relation.ReflTransGen fun s t => ∃ i, FStep C prog sif i s t

/-- Processes which have yet to begin. -/
def beginners (fs : Disk) : FSys D ι := ⟨fs, fun _ => .opening .start⟩

/-- The process has ended. -/
def _root_.Sang.FProc.Ended (p : FProc D) : Prop := ∃ r, p = .working (.done r)

/-- The process has begun and not ended. -/
def _root_.Sang.FProc.Busy (p : FProc D) : Prop := p ≠ .opening .start ∧ ¬ p.Ended

/-- A step that respects a lock on running: nobody begins while another is busy. -/
def RunLockedStepwise (C : Codec D) (prog : ι → D → D × Res Unit) (sif : Str) (s t : FSys D ι) : Prop :=
  ∃ i, FStep C prog sif i s t ∧ (s.procs i = .opening .start → ∀ j, ¬ (s.procs j).Busy)

end Sang.Spec
