import Verif.Replacer
import Mathlib.Logic.Relation
import Mathlib.Logic.Function.Basic

/-!
# Several processes, each rewriting the same file with `write_to`

`write_to` writes a temporary file, always of the same name, and then renames it. A process which has a file open goes on
writing to it whatever becomes of its name, and so a name is here the name of a file with a number.
-/

namespace Sang

/-- How far `write_to(filename, text)` has got in a process. -/
inductive TProc where
  /-- It has yet to open the temporary file. -/
  | ready (text : Str)
  /-- It has file number `fd` open, and has written the first `off` characters. -/
  | writing (text : Str) (off fd : ℕ)
  /-- It has ended. -/
  | done (r : Res Unit)

/-- The disk, and the processes: which names there are, what is in the files, and the number of the next file to be
made. -/
structure TSys (ι : Type) where
  names : Str → Option ℕ
  files : ℕ → Str
  next : ℕ
  procs : ι → TProc

/-- Writing `piece` at `off` to a file that holds `f`; as `writeAt` for bytes. `sangfroid/template/replacer.py:118`. -/
def textAt (f : Str) (off : ℕ) (piece : Str) : Str :=
  (f ++ List.replicate (off - f.length) (Char.ofNat 0)).take off ++ piece ++ f.drop (off + piece.length)

/-- A step of the process `i`, rewriting the file `p`: `sangfroid/template/replacer.py:113-120`. `open(..., 'w')` empties
the temporary file if there is one (`truncate`) and otherwise makes one (`create`); the text is written in pieces; and
`os.rename` gives the file which is called that by now, whoever made it, the name `p`. -/
inductive TStep {ι : Type} [DecidableEq ι] (p : Str) (i : ι) : TSys ι → TSys ι → Prop where
  | create {s : TSys ι} {text : Str} (h : s.procs i = .ready text) (ht : s.names (tempName p) = none) :
    TStep p i s ⟨Function.update s.names (tempName p) (some s.next), Function.update s.files s.next [], s.next + 1,
      Function.update s.procs i (.writing text 0 s.next)⟩
  | truncate {s : TSys ι} {text : Str} {fd : ℕ} (h : s.procs i = .ready text) (ht : s.names (tempName p) = some fd) :
    TStep p i s ⟨s.names, Function.update s.files fd [], s.next, Function.update s.procs i (.writing text 0 fd)⟩
  | write {s : TSys ι} {text : Str} {off fd k : ℕ} (h : s.procs i = .writing text off fd) (h0 : 0 < k)
    (hk : off + k ≤ text.length) :
    TStep p i s ⟨s.names, Function.update s.files fd (textAt (s.files fd) off ((text.drop off).take k)), s.next,
      Function.update s.procs i (.writing text (off + k) fd)⟩
  | rename {s : TSys ι} {text : Str} {fd fd' : ℕ} (h : s.procs i = .writing text text.length fd)
    (ht : s.names (tempName p) = some fd') :
    TStep p i s ⟨Function.update (Function.update s.names p (some fd')) (tempName p) none, s.files, s.next,
      Function.update s.procs i (.done (.ok ()))⟩
  | gone {s : TSys ι} {text : Str} {fd : ℕ} (h : s.procs i = .writing text text.length fd)
    (ht : s.names (tempName p) = none) :
    TStep p i s ⟨s.names, s.files, s.next, Function.update s.procs i (.done (.error .notFound))⟩

end Sang
