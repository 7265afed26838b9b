import Verif.Dom
import Mathlib.Logic.Relation

/-!
# Specification of documents in memory

What it is to be a tree, said of parents and contents only.
-/

namespace Sang.Spec

/-- `p` is the parent of `c`. -/
def Par (h : Dom) (c p : ℕ) : Prop := h.parent c = some p

/-- `x` is `y`, or somewhere inside it. -/
def Within (h : Dom) (x y : ℕ) : Prop := Relation.ReflTransGen (Par h) x y

/-- Documents are trees: what is listed in an object's contents has it as its parent and the other way
about (so that an object has at most one place), nothing is listed twice, nothing is inside itself, and
text has no contents. -/
structure Forest (h : Dom) : Prop where
  child : ∀ p c, c ∈ h.kids p ↔ Par h c p
  nodup : ∀ p, (h.kids p).Nodup
  acyclic : ∀ x, ¬ Relation.TransGen (Par h) x x
  made : ∀ p c, Par h c p → p < h.size ∧ c < h.size
  text : ∀ p s, h.lbl p = .text s → h.kids p = []

/-- The layers among the objects of a list. -/
def layersOf (h : Dom) (l : List ℕ) : List ℕ :=
  l.filter fun x => match h.lbl x with
    | .tag n _ => n = "layer"
    | .text _ => false

/-- What a program does: makes or reads elements, moves layers, assigns to layers' subscripts (value
objects, or anything else), and sets, animates and un-animates values. -/
inductive DOp where
  | make (n : Node)
  | append (k : GKind) (g x : ℕ)
  | insert (k : GKind) (g : ℕ) (i : ℤ) (x : ℕ)
  | assign (a : ℕ) (f : Str) (v : VCls × ℕ)
  | plain (F : Fl) (a : ℕ) (f : Str) (x : PV)
  | set (v : ℕ) (name : String) (attrs : Attrs) (contents : List Node)
  | unanimate (v : ℕ) (becomes : Node)

/-- What memory is like afterwards, whether or not there was an exception. -/
def run : DOp → Dom → Dom
  | .make n, h => (h.alloc n).1
  | .append k g x, h => (h.groupAppend k g x).1
  | .insert k g i x, h => (h.groupInsert k g i x).1
  | .assign a f v, h => (h.setItem a f v).1
  | .plain F a f x, h => (h.setPlain F a f x).1
  | .set v n a ks, h => h.rewrite v n a ks
  | .unanimate v m, h => (h.unanimate v m).1.1

/-- The objects exist, groups are elements, and nothing is moved into itself: neither the canvas of the
group nor the place of the param is inside what is to be put there. -/
def Proper (h : Dom) : DOp → Prop
  | .make _ => True
  | .append k g x => g < h.size ∧ x < h.size ∧ (∀ s, h.lbl g ≠ .text s) ∧
      ∀ c, h.canvas k g = .ok (some c) → ¬ Within h c x
  | .insert k g _ x => g < h.size ∧ x < h.size ∧ (∀ s, h.lbl g ≠ .text s) ∧
      ∀ c, h.canvas k g = .ok (some c) → ¬ Within h c x
  | .assign a f v => v.2 < h.size ∧
      ∀ c old p, h.getItem a f = .ok (c, old) → Par h old p → ¬ Within h p v.2
  | .plain _ _ _ _ => True
  | .set v _ _ _ => v < h.size
  | .unanimate v _ => v < h.size

/-- What can come about, from nothing. -/
inductive Reached : Dom → Prop
  | start : Reached .empty
  | step {h : Dom} {o : DOp} : Reached h → Proper h o → Reached (run o h)

end Sang.Spec
