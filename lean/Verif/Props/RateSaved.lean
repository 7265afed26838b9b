import Verif.Props.Moved
import Verif.Props.TimeRate

/-! # Waypoints at frame rates that aren't whole numbers (C158) -/

namespace Sang
open Spec

/-- C158. Whatever the animation, if its frame rate is a whole number of eighths below a thousand, and a program has put
all the waypoints of a timeline at whole frames, then they are the same after saving and opening: at the same times, with
the same interpolations, and with the values that are in the same places. -/
theorem c158_saved {F : Fl} {d e n m : Node} (hF : F.Lawful) (hd : d.XmlOk F) (ht : d.isTag = true)
    (h : SavedAs F d e) (hp : SamePlace d e n m) (hfps : NumberAttr F d "fps") {a : ℕ} (ha : 0 < a) (ha' : a < 8000)
    (hf : readFps F (some d.attrs) = .ok (some ((a:ℚ) / 8))) {par : Bool} {ws : List Waypoint}
    (hw : waypoints F ⟨some d.attrs, par⟩ n = .ok ws)
    (hs : ∀ x ∈ waypointTags n, ∃ k : ℕ, k < 2 ^ 49 ∧ x.attrs.get "time" = some (.t ⟨k, some ((a:ℚ) / 8)⟩)) :
    ∃ ws', waypoints F ⟨some e.attrs, par⟩ m = .ok ws' ∧
      List.Forall₂ (fun w w' => w.time = w'.time ∧ w.before = w'.before ∧ w.after = w'.after ∧
        SamePlace d e w.val w'.val) ws ws' := by
  refine c120_waypoints hd ht h hp hF hfps hf hw fun x hx b hb => ?_
  obtain ⟨k, hk, hxk⟩ := hs x hx
  rw [hxk] at hb
  injection hb with hb
  subst hb
  exact .eighths hk ha ha' rfl

/-- An animation at 12.5 frames per second, with waypoints of a radius. -/
def exHalf (ts : List ℕ) : Node := .tag "canvas" [("fps", .str "12.5".toList)]
  [.tag "layer" [("type", .str "circle".toList)] [.tag "param" [("name", .str "radius".toList)]
    [.tag "animated" [("type", .str "real".toList)]
      (ts.map fun k => Waypoint.tag ⟨⟨k, some (25/2)⟩, "clamped".toList, "clamped".toList,
        .tag "real" [("value", .str "1.0".toList)] []⟩)]]]

/-- Three waypoints of it. -/
example : (exHalf [0, 26, 330]).XmlOk double ∧ NumberAttr double (exHalf [0, 26, 330]) "fps" ∧
    readFps double (some (exHalf [0, 26, 330]).attrs) = .ok (some ((100:ℕ) / 8)) ∧
    radiusTimes double (exHalf [0, 26, 330]) = some (.ok [0, 26, 330]) := by
  refine ⟨xmlOkB_ok (by decide +kernel), ?_, by decide +kernel, by decide +kernel⟩
  intro a ha
  injection ha with ha
  exact .inl ⟨_, ha.symm⟩

/-- An animation at 29.97 frames per second, with a radius that has waypoints at these times. -/
def exRated (ts : List ℚ) : Node := .tag "canvas" [("fps", .str "29.97".toList)]
  [.tag "layer" [("type", .str "circle".toList)] [.tag "param" [("name", .str "radius".toList)]
    [.tag "animated" [("type", .str "real".toList)]
      (ts.map fun q => Waypoint.tag ⟨⟨q, some (double.rnd (2997/100))⟩, "clamped".toList, "clamped".toList,
        .tag "real" [("value", .str "1.0".toList)] []⟩)]]]

/-- Whether the radius has a waypoint at this frame. -/
def radiusAt (F : Fl) (d : Node) (k : ℤ) : Option (Res Bool) :=
  (elementAt [0, 0, 0] d).map fun n => match getItem F ⟨some d.attrs, true⟩ (.num k) n with
    | .ok _ => .ok true
    | .error .key => .ok false
    | .error e => .error e

/-- C158, violated. At 29.97 frames per second, frame 330 is written `11s 0.33f`, and that is read as a time before
frame 330; so a waypoint at frame 330 isn't there any more when the animation is saved and opened. -/
theorem c158_fails : ∃ e,
    T.str double ⟨330, some (double.rnd (2997/100))⟩ = "11s 0.33f".toList ∧
    (∃ x, T.new double (some (exRated []).attrs) (.str "11s 0.33f".toList) = .ok ⟨x, some (double.rnd (2997/100))⟩ ∧
      x < 330) ∧
    radiusAt double (exRated [0, 300, 330]) 330 = some (.ok true) ∧
    SavedAs double (exRated [0, 300, 330]) e ∧
    radiusAt double e 0 = some (.ok true) ∧ radiusAt double e 300 = some (.ok true) ∧
    radiusAt double e 330 = some (.ok false) := by
  refine ⟨(exRated [0, 300, 330]).opened double, by decide +kernel,
    ⟨330 - 1 / 2 ^ 44, by decide +kernel, by norm_num⟩, by decide +kernel, ⟨fun _ => true, ?_⟩, by decide +kernel,
    by decide +kernel, by decide +kernel⟩
  exact parse_docText (xmlOkB_ok (by decide +kernel)) rfl

/-- C157 applies to this animation: its rate is in range, and its waypoints at frames 0, 300, 330 and 2997 are as it
asks. -/
example : 0 < double.rnd (2997/100) ∧ double.rnd (2997/100) ≤ 999999 ∧
    readFps double (some (exRated [0, 300, 330, 2997]).attrs) = .ok (some (double.rnd (2997/100))) ∧
    ∃ n, elementAt [0, 0, 0] (exRated [0, 300, 330, 2997]) = some n ∧
      BetweenFrames double (double.rnd (2997/100)) n ∧ (waypointTags n).length = 4 := by
  refine ⟨by decide +kernel, by decide +kernel, by decide +kernel, _, rfl, ?_, rfl⟩
  intro x hx
  have hx' : x ∈ [0, 300, 330, 2997].map fun q => Waypoint.tag ⟨⟨q, some (double.rnd (2997/100))⟩, "clamped".toList,
    "clamped".toList, .tag "real" [("value", .str "1.0".toList)] []⟩ := hx
  obtain ⟨q, hq, rfl⟩ := List.mem_map.1 hx'
  refine ⟨q, rfl, ?_⟩
  simp only [List.mem_cons, List.not_mem_nil, or_false] at hq
  rcases hq with rfl | rfl | rfl | rfl
  · exact ⟨by decide +kernel, by decide +kernel, .inl ⟨0, by decide +kernel⟩⟩
  · exact ⟨by decide +kernel, by decide +kernel, .inr (by decide +kernel)⟩
  · exact ⟨by decide +kernel, by decide +kernel, .inr (by decide +kernel)⟩
  · exact ⟨by decide +kernel, by decide +kernel, .inl ⟨100, by decide +kernel⟩⟩

/-- An animation at 12.3456789 frames per second, with a radius that has waypoints at these times. -/
def exManyDigits (ts : List ℚ) : Node := .tag "canvas" [("fps", .str "12.3456789".toList)]
  [.tag "layer" [("type", .str "circle".toList)] [.tag "param" [("name", .str "radius".toList)]
    [.tag "animated" [("type", .str "real".toList)]
      (ts.map fun q => Waypoint.tag ⟨⟨q, some (double.rnd (123456789/10^7))⟩, "clamped".toList, "clamped".toList,
        .tag "real" [("value", .str "1.0".toList)] []⟩)]]]

/-- C157, violated. At a frame rate of more than six digits, a waypoint just before a second and the waypoint at that
second may change places. -/
theorem c157_fails_order : ∃ p r e x, p < r ∧ r < x ∧
    readFps double (some (exManyDigits [0, p, r]).attrs) = .ok (some r) ∧
    radiusTimes double (exManyDigits [0, p, r]) = some (.ok [0, p, r]) ∧
    SavedAs double (exManyDigits [0, p, r]) e ∧ radiusTimes double e = some (.ok [0, x, r]) := by
  refine ⟨12 + 22653 / 2 ^ 16, double.rnd (123456789/10^7),
    (exManyDigits [0, 12 + 22653 / 2 ^ 16, double.rnd (123456789/10^7)]).opened double, double.rnd (123457/10^4),
    by decide +kernel, by decide +kernel, by decide +kernel, by decide +kernel, ⟨fun _ => true, ?_⟩,
    by decide +kernel⟩
  exact parse_docText (xmlOkB_ok (by decide +kernel)) rfl

/-- An animation at 23.976 frames per second, with a radius that has waypoints at these times. -/
def exFilm (ts : List ℚ) : Node := .tag "canvas" [("fps", .str "23.976".toList)]
  [.tag "layer" [("type", .str "circle".toList)] [.tag "param" [("name", .str "radius".toList)]
    [.tag "animated" [("type", .str "real".toList)]
      (ts.map fun q => Waypoint.tag ⟨⟨q, some (double.rnd (23976/1000))⟩, "clamped".toList, "clamped".toList,
        .tag "real" [("value", .str "1.0".toList)] []⟩)]]]

/-- C157, violated. At 23.976 frames per second too, which has few digits: a waypoint a hundred-thousandth of a frame before
the fiftieth second and the one at that second change places. The frame rate isn't whole, so that 49 seconds and 23.976
frames come to more than 50 seconds in floating point. -/
theorem c157_fails_order_film : ∃ p r e x, p < r ∧ r < x ∧ r - p < 1 / 10 ^ 4 ∧
    T.str double ⟨r, some (double.rnd (23976/1000))⟩ = "50s".toList ∧
    radiusTimes double (exFilm [0, p, r]) = some (.ok [0, p, r]) ∧
    SavedAs double (exFilm [0, p, r]) e ∧ radiusTimes double e = some (.ok [0, x, r]) := by
  refine ⟨double.rnd (11988/10) - 1 / 2 ^ 16, double.rnd (11988/10),
    (exFilm [0, double.rnd (11988/10) - 1 / 2 ^ 16, double.rnd (11988/10)]).opened double,
    double.rnd (11988/10) + 1 / 2 ^ 42,
    by decide +kernel, by decide +kernel, by decide +kernel, by decide +kernel, by decide +kernel, ⟨fun _ => true, ?_⟩,
    by decide +kernel⟩
  exact parse_docText (xmlOkB_ok (by decide +kernel)) rfl

end Sang
