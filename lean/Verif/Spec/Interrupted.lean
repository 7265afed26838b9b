import Verif.Interrupted
import Verif.Spec.Replacer
import Mathlib.Logic.Relation

/-! # What C164 speaks of -/

namespace Sang.Spec

/-- `d'` is what is left of `d` after any number of runs on the files `ps`, each of them interrupted at any point. Each
run is that of a new process, which has seen no blocks. -/
def AfterInterruptions (fields : RFields) (ps : List Str) : TextDisk → TextDisk → Prop :=
  Relation.ReflTransGen fun x y => y ∈ handleFilesStates fields [] x ps

/-- A file in which no block starts inside another, and none has a line naming a class in it. -/
def PlainBlocks (text : Str) : Prop :=
  ∃ segs : List Seg, (∀ s ∈ segs, s.Ok) ∧ IsFile (segLines segs) ∧ newlines text = segText segs ∧
    ∀ a body z, Seg.block a body z ∈ segs → ∀ l ∈ body, ∀ c, ¬ NamesClass l c

end Sang.Spec
