import Verif.Spec.Dom
import Verif.Spec.Groups

/-!
# Specification of groups over time

Groups as lists of layers, and what appending and inserting do to them.
-/

namespace Sang.Spec

/-- What is done to a group: its kind, its object, and the layer. -/
inductive MoveOp where
  | append (k : GKind) (g x : ℕ)
  | insert (k : GKind) (g : ℕ) (i : ℤ) (x : ℕ)

/-- The group. -/
def MoveOp.group : MoveOp → GKind × ℕ
  | .append k g _ => (k, g)
  | .insert k g _ _ => (k, g)

/-- The layer. -/
def MoveOp.layer : MoveOp → ℕ
  | .append _ _ x => x
  | .insert _ _ _ x => x

/-- In memory. -/
def MoveOp.run : MoveOp → Dom → Dom × Res Unit
  | .append k g x, h => h.groupAppend k g x
  | .insert k g i x, h => h.groupInsert k g i x

/-- Groups as lists: each group has a list of layers. A layer that is put somewhere is taken from wherever it was, so that it's
in one list only. Appending the last layer of a list to that list, or inserting a layer before itself, is refused. -/
def MoveOp.lists : MoveOp → (ℕ → List ℕ) → (ℕ → List ℕ) × Res Unit
  | .append _ g x, st =>
    if (st g).getLast? = some x then (st, .error .value)
    else (fun q => (st q).filter (· ≠ x) ++ if q = g then [x] else [], .ok ())
  | .insert _ g i x, st =>
    let j := position (st g).length i
    if j < 0 then (st, .error .index)
    else match (st g)[j.toNat]? with
      | none => (st, .error .index)
      | some y =>
        if x = y then (st, .error .value)
        else (fun q =>
          if q = g then ((st q).take j.toNat).filter (· ≠ x) ++ x :: ((st q).drop j.toNat).filter (· ≠ x)
          else (st q).filter (· ≠ x), .ok ())

/-- Everything in `w` is neither a layer nor a canvas nor a param called canvas. -/
def Plain (h : Dom) (w : ℕ) : Prop :=
  ∀ z, Within h z w → (h.bare z).name ≠ "layer" ∧ (h.bare z).name ≠ "canvas" ∧ isParam "canvas".toList (h.bare z) = false

/-- An animation; or a group as files have it, with a param called canvas, in which there is a canvas `c`. The params before it
have no layers or canvases in them. -/
def HolderAt (h : Dom) (k : GKind) (g c : ℕ) : Prop :=
  (h.bare c).name = "canvas" ∧ g < h.size ∧
  match k with
  | .animation => c = g ∧ h.parent g = none
  | .group => (h.bare g).name = "layer" ∧ ∃ p A B A' B', h.kids g = A ++ p :: B ∧ (∀ w ∈ A, Plain h w) ∧
      isParam "canvas".toList (h.bare p) = true ∧ h.kids p = A' ++ c :: B' ∧ ∀ w ∈ A', (h.bare w).isTag = false

/-- The operations are about groups in `H` and layers of known types, and nothing is put inside itself. -/
inductive Orderly (H : Set (GKind × ℕ × ℕ)) : Dom → List MoveOp → Prop
  | nil {h : Dom} : Orderly H h []
  | cons {h : Dom} {o : MoveOp} {os : List MoveOp} {c : ℕ} : (o.group.1, o.group.2, c) ∈ H → o.layer < h.size →
      isLayer (h.bare o.layer) = true → (∃ cl, layerOf (h.bare o.layer) = .ok cl) → ¬ Within h c o.layer →
      Orderly H (o.run h).1 os → Orderly H h (o :: os)

/-- One operation after another, whether or not they raise; with what each raised. -/
def runMoves : List MoveOp → Dom → Dom × List (Res Unit)
  | [], h => (h, [])
  | o :: os, h => let r := runMoves os (o.run h).1; (r.1, (o.run h).2 :: r.2)

/-- The same for lists. -/
def runLists : List MoveOp → (ℕ → List ℕ) → (ℕ → List ℕ) × List (Res Unit)
  | [], st => (st, [])
  | o :: os, st => let r := runLists os (o.lists st).1; (r.1, (o.lists st).2 :: r.2)

end Sang.Spec
