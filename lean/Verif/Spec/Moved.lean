import Verif.Spec.SaveOpen
import Verif.Timeline
import Verif.Spec.Decimals

/-!
# Times that move when they are written and read (C157)
-/

namespace Sang.Spec
open Sang

/-- How far a time of `q` frames may be from where it was, at `r` frames per second, after it has been written and
read: five millionths of a second, and what floating point rounds off. -/
def slack (r q : ℚ) : ℚ := 5 / 10 ^ 6 * r + q / 2 ^ 50

/-- `b` is what has become of the waypoint `a` of the animation `d` in the animation `e`: its time is nearly the same,
and its interpolations and the place of its value are the same. -/
def Moved (d e : Node) (r : ℚ) (a b : Waypoint) : Prop :=
  b.time.fps = a.time.fps ∧ |b.time.frames - a.time.frames| ≤ slack r a.time.frames ∧
    b.before = a.before ∧ b.after = a.after ∧ SamePlace d e a.val b.val

/-- Any two waypoints that aren't at the same time are further from each other than both can move. -/
def FarApart (r : ℚ) (ws : List Waypoint) : Prop :=
  ∀ a ∈ ws, ∀ b ∈ ws, a.time.frames ≠ b.time.frames →
    slack r a.time.frames + slack r b.time.frames < |a.time.frames - b.time.frames|

/-- The times of the waypoints of `n` are as a program gives them, at `r` frames per second: at or after the start,
and not a tiny part of a frame past a second, unless floating point can't tell that from the second itself. -/
def BetweenFrames (F : Fl) (r : ℚ) (n : Node) : Prop :=
  ∀ x ∈ waypointTags n, ∃ q : ℚ, x.attrs.get "time" = some (.t ⟨q, some r⟩) ∧ 0 ≤ q ∧ q / r < 2 ^ 53 ∧
    ((∃ m : ℕ, F.rnd (q / r) = m) ∨ 9999995 / 10 ^ 11 ≤ q - r * ⌊q / r⌋)

end Sang.Spec
