import Verif.Opening
import Verif.Spec.Concurrent

/-! # What C161 speaks of -/

namespace Sang.Spec

variable {D ι : Type} [DecidableEq ι]

/-- A step which leaves the file as it is. -/
def Undisturbed (C : Codec D) (prog : ι → D → D × Res Unit) (sif : Str) (x y : Sys ι × Opening D) : Prop :=
  Meanwhile C prog sif x y ∧ y.1.disk sif = x.1.disk sif

/-- The first `k` bytes of `a`, and after them those of the first `m` bytes of `b` which come after the first `k`. -/
def patched (a b : Bytes) (k m : ℕ) : Bytes := a.take k ++ (b.take m).drop k

end Sang.Spec
