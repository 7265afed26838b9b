import Verif.Blank
import Verif.Props.XmlText
import Verif.Props.Animation
import Verif.Group

/-!
# C116: the new animation
-/

namespace Sang
open Spec

/-- The header of a new animation. -/
def blankHeader : List (String × String) :=
  [("version", "1.2"),
   ("width", "480"),
   ("height", "270"),
   ("xres", "2834.645669"),
   ("yres", "2834.645669"),
   ("gamma-r", "1.000000"),
   ("gamma-g", "1.000000"),
   ("gamma-b", "1.000000"),
   ("view-box", "-4.000000 2.250000 4.000000 -2.250000"),
   ("antialias", "1"),
   ("fps", "24.000"),
   ("begin-time", "0f"),
   ("end-time", "5s"),
   ("bgcolor", "0.500000 0.500000 0.500000 1.000000")]

/-- Its settings for the editor. -/
def blankMeta : List (String × String) :=
  [("background_first_color", "0.880000 0.880000 0.880000"),
   ("background_rendering", "0"),
   ("background_second_color", "0.650000 0.650000 0.650000"),
   ("background_size", "15.000000 15.000000"),
   ("grid_color", "0.623529 0.623529 0.623529"),
   ("grid_show", "0"),
   ("grid_size", "0.250000 0.250000"),
   ("grid_snap", "0"),
   ("guide_color", "0.435294 0.435294 1.000000"),
   ("guide_show", "1"),
   ("guide_snap", "0"),
   ("jack_offset", "0.000000"),
   ("onion_skin", "0"),
   ("onion_skin_future", "0"),
   ("onion_skin_keyframes", "1"),
   ("onion_skin_past", "1")]

/-- Its document. -/
def blankDoc : Node :=
  .tag "canvas" (blankHeader.map fun p => (p.1, .str p.2.toList))
    (.text ['\n'] :: .tag "name" [] [.text "New animation".toList] :: .text ['\n'] ::
      (blankMeta.flatMap fun p =>
        [.tag "meta" [("name", .str p.1.toList), ("content", .str p.2.toList)] [], .text ['\n']]) ++
      [.tag "keyframe" [("time", .str "0f".toList), ("active", .str "true".toList)]
        [.text "start".toList], .text ['\n']])

set_option maxRecDepth 10000 in
/-- What the text of a new animation reads as. -/
theorem parse_blank : parseXml blankText = .ok blankDoc := by decide +kernel

/-- C116. `Animation()` gives an animation of 480 by 270 pixels at 24 frames a second, from the start to 5
seconds, with a view from (-4, 2.25) to (4, -2.25), called `New animation` and with no description. -/
theorem c116_new_animation : ∃ n, parseXml blankText = .ok n ∧
    animSize n = .ok (480, 270) ∧
    beginTime double n = .ok ⟨0, some 24⟩ ∧ endTime double n = .ok ⟨120, some 24⟩ ∧
    framecount double n = .ok 121 ∧
    viewbox double n = .ok [-4, 9 / 4, 4, -9 / 4] ∧
    animName n = .ok (some "New animation".toList) ∧ animDesc n = some [] := by
  refine ⟨_, parse_blank, ?_, ?_, ?_, ?_, ?_, ?_, ?_⟩ <;> decide +kernel

/-- C116. It has no layers, and one keyframe, at the start. -/
theorem c116_new_contents : ∃ n, parseXml blankText = .ok n ∧ children .animation n = .ok [] ∧
    descendants .animation n = .ok [] ∧
    ∃ k, keyframes n = [k] ∧ k.name = "start".toList ∧ k.active = .ok true ∧
      k.time double = .ok ⟨0, some 24⟩ := by
  refine ⟨_, parse_blank, ?_, ?_, ?_⟩
  · have : canvasKids .animation blankDoc = .ok blankDoc.kids := rfl
    simp only [children, this]
    have h : blankDoc.kids.reverse.filter isLayer = [] := by decide +kernel
    rw [h]; rfl
  · have : canvasKids .animation blankDoc = .ok blankDoc.kids := rfl
    simp only [descendants, this]
    have h : blankDoc.kids.reverse.filter isLayer = [] := by decide +kernel
    rw [h]; rfl
  · refine ⟨⟨.tag "keyframe" [("time", .str "0f".toList), ("active", .str "true".toList)]
        [.text "start".toList], [(blankDoc.name, blankDoc.attrs), ("[document]", [])]⟩, ?_, ?_, ?_, ?_⟩
    · rfl
    · decide +kernel
    · decide +kernel
    · decide +kernel

/-- C116. The fields of the header have their defaults, but for the background, which is the same colour
written with more digits. -/
theorem c116_new_header : ∃ n, parseXml blankText = .ok n ∧
    (∀ f ∈ headerFields, f.name ≠ "bgcolor" → getHeader double f n = .ok f.dflt) ∧
    ∃ f ∈ headerFields, f.name = "bgcolor" ∧ f.dflt = .str "0.5 0.5 0.5 1.0".toList ∧
      getHeader double f n = .ok (.str "0.500000 0.500000 0.500000 1.000000".toList) := by
  refine ⟨_, parse_blank, by decide +kernel, by decide +kernel⟩

/-- C116. Saved, it opens as the same document (but for the order of attributes), and can be saved again to
the same text. -/
theorem c116_new_saved (F : Fl) : ∃ n y, parseXml blankText = .ok n ∧
    parseXml (docText F (fun _ => true) n) = .ok y ∧ SameButOrder n y ∧
      docText F (fun _ => true) y = docText F (fun _ => true) n := by
  obtain ⟨y, h⟩ := c115_opened_survives_partial F parse_blank
    (parse_tidy_noRefs (by decide +kernel) parse_blank).direct
  exact ⟨_, y, parse_blank, h⟩

end Sang
