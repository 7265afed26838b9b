import Verif.ReplacerAtOnce

/-! # What C162 speaks of -/

namespace Sang.Spec

variable {ι : Type} [DecidableEq ι]

/-- What the file `q` holds, if there is one. -/
def _root_.Sang.TSys.held (s : TSys ι) (q : Str) : Option Str := (s.names q).map s.files

/-- `t` can come after `s`, if the processes make their steps in some order. -/
def Rewrites (p : Str) : TSys ι → TSys ι → Prop := Relation.ReflTransGen fun s t => ∃ i, TStep p i s t

/-- The process has the temporary file open. -/
def _root_.Sang.TProc.Open (x : TProc) : Prop := ∃ text off fd, x = .writing text off fd

/-- The same, if nobody opens the temporary file before another is done with it. -/
def RewritesInTurn (p : Str) : TSys ι → TSys ι → Prop := Relation.ReflTransGen fun s t =>
  ∃ i, TStep p i s t ∧ ((∃ text, s.procs i = .ready text) → ∀ j, ¬ (s.procs j).Open)

/-- Processes about to rewrite a file; `text i` is what `i` makes of it. Each name is that of a file of its own. -/
structure AboutTo (s : TSys ι) (text : ι → Str) : Prop where
  ready : ∀ i, s.procs i = .ready (text i)
  old : ∀ q n, s.names q = some n → n < s.next
  own : ∀ q q' n, s.names q = some n → s.names q' = some n → q = q'

end Sang.Spec
