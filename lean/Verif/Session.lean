import Verif.Format

/-!
# A program that works with several animations and files

Each `Animation` object has a document of its own. The program makes and opens animations, changes them and saves them, and
goes on whatever raises.
-/

namespace Sang

/-- The disk, and the animations made so far, in order. -/
structure Session (D : Type) where
  disk : Disk
  anims : List (Anim D)

/-- A statement. Animations are referred to by number, as they were made. -/
inductive SOp (D : Type) where
  /-- `Animation()` -/
  | new
  /-- `Animation(name)` -/
  | «open» (name : Str)
  /-- Any change to the `i`th animation, which may raise. -/
  | edit (i : ℕ) (f : D → D × Res Unit)
  /-- `a.save()` or `a.save(name)` for the `i`th animation -/
  | save (i : ℕ) (name : Option Str)

/-- Running a statement: `Animation.__init__`, `sangfroid/animation.py:109-128`; `Animation.save`,
`sangfroid/animation.py:219-246`. `blank` is the document of a new animation. A statement about an animation which there
isn't does nothing. -/
def SOp.run {D : Type} (C : Codec D) (blank : D) : SOp D → Session D → Session D × Res Unit
  | .new, s => (⟨s.disk, s.anims ++ [.blank blank]⟩, .ok ())
  | .open name, s => match Anim.load C s.disk name with
    | .error e => (s, .error e)
    | .ok a => (⟨s.disk, s.anims ++ [a]⟩, .ok ())
  | .edit i f, s => match s.anims[i]? with
    | none => (s, .error .unbound)
    | some a => (⟨s.disk, s.anims.set i { a with doc := (f a.doc).1 }⟩, (f a.doc).2)
  | .save i name, s => match s.anims[i]? with
    | none => (s, .error .unbound)
    | some a =>
      let r := a.save C s.disk name
      (⟨r.disk, s.anims.set i r.anim⟩, r.res)

/-- Running statements one after another, whatever they raise. -/
def runOps {D : Type} (C : Codec D) (blank : D) : List (SOp D) → Session D → Session D × List (Res Unit)
  | [], s => (s, [])
  | o :: os, s =>
    let (s', r) := o.run C blank s
    let (s'', rs) := runOps C blank os s'
    (s'', r :: rs)

end Sang
