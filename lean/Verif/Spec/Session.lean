import Verif.Session
import Verif.Spec.DiskFull

/-!
# What C165 speaks of: a store of documents

A machine without bytes, XML or compression. A file either is as it was in the beginning, or holds a document.
-/

namespace Sang.Spec

/-- The files that have been saved to, with the documents in them; and the animations made so far. -/
structure Store (D : Type) where
  files : Str → Option (Fmt × D)
  anims : List (Anim D)

variable {D : Type}

/-- What `Animation(name)` gives: the document last saved there, or what was in the file in the beginning (`first`). -/
def Store.load (first : Str → Res (Anim D)) (s : Store D) (name : Str) : Res (Anim D) :=
  match s.files name with
  | some (f, d) => .ok ⟨f, some name, d⟩
  | none => first name

/-- Saving the animation `a`, whose format and name are set: the file comes to hold the document, as it reads when opened
(`norm`). -/
def Store.put (canOpen : Str → Bool) (norm : D → D) (s : Store D) (a : Anim D) : Store D × Res Unit :=
  match a.fmt, a.filename with
  | .sfg, _ => (s, .error .notImpl)
  | .blank, _ => (s, .error .value)
  | _, none => (s, .error .type)
  | f, some p =>
    if canOpen p then (⟨fun q => if q = p then some (f, norm a.doc) else s.files q, s.anims⟩, .ok ())
    else (s, .error .notFound)

/-- Running a statement. `save(name)` makes `name` the animation's own, if its extension is known. -/
def Store.run (canOpen : Str → Bool) (norm : D → D) (first : Str → Res (Anim D)) (blank : D) :
    SOp D → Store D → Store D × Res Unit
  | .new, s => (⟨s.files, s.anims ++ [⟨.blank, none, blank⟩]⟩, .ok ())
  | .open name, s => match s.load first name with
    | .error e => (s, .error e)
    | .ok a => (⟨s.files, s.anims ++ [a]⟩, .ok ())
  | .edit i f, s => match s.anims[i]? with
    | none => (s, .error .unbound)
    | some a => (⟨s.files, s.anims.set i ⟨a.fmt, a.filename, (f a.doc).1⟩⟩, (f a.doc).2)
  | .save i none, s => match s.anims[i]? with
    | none => (s, .error .unbound)
    | some a => s.put canOpen norm a
  | .save i (some p), s => match s.anims[i]? with
    | none => (s, .error .unbound)
    | some a => match fmtForSaving p with
      | .error e => (s, .error e)
      | .ok f => Store.put canOpen norm ⟨s.files, s.anims.set i ⟨f, some p, a.doc⟩⟩ ⟨f, some p, a.doc⟩

/-- Running statements one after another, whatever they raise. -/
def runStore (canOpen : Str → Bool) (norm : D → D) (first : Str → Res (Anim D)) (blank : D) :
    List (SOp D) → Store D → Store D × List (Res Unit)
  | [], s => (s, [])
  | o :: os, s =>
    let (s', r) := Store.run canOpen norm first blank o s
    let (s'', rs) := runStore canOpen norm first blank os s'
    (s'', r :: rs)

/-- Of these statements, run from this state, none is a `save` to the file `p`. -/
def NoneSavesTo (C : Codec D) (blank : D) (p : Str) : List (SOp D) → Session D → Prop
  | [], _ => True
  | o :: os, s => (∀ i name a, o = .save i name → s.anims[i]? = some a → savedTo a name ≠ some p) ∧
    NoneSavesTo C blank p os (o.run C blank s).1

end Sang.Spec
