import Verif.Lemmas.Legal
import Verif.Lemmas.XmlParse
import Verif.Props.XmlText
import Verif.Props.NewAnimation

/-!
# C124: whatever a program does to an animation, it can be saved and opened
-/

namespace Sang
open Spec

/-- C124. After any number of changes, anywhere in an opened document, with whatever legal arguments, whether
they succeeded or raised, the document can be saved and opened, and everything in it comes back. -/
theorem c124_history (F : Fl) {s : Str} {d e : Node} (hs : parseXml s = .ok d) (h : Becomes F d e)
    (short : Node → Bool) :
    ∃ t y, unUtf8 (utf8 (docText F short e)) = .ok t ∧ parseXml t = .ok y ∧ ReadBack F e y := by
  obtain ⟨ht, hi⟩ := parse_read hs
  have hg := becomes_good ⟨ht.xmlOk F, hi⟩ h
  exact c114_write_read_bytes short hg.1 hg.2

/-- C124. The same for one made with `Animation()`. -/
theorem c124_new_animation (F : Fl) {e : Node} (h : Becomes F blankDoc e) (short : Node → Bool) :
    ∃ t y, unUtf8 (utf8 (docText F short e)) = .ok t ∧ parseXml t = .ok y ∧ ReadBack F e y :=
  c124_history F parse_blank h short

/-- C124. Value objects made from legal arguments are legal arguments. -/
theorem c124_new_value {F : Fl} {c : VCls} {v : PV} (hv : LegalArg F v) {m : Node} (h : newValue F c v = .ok m)
    (root : Option Attrs) : LegalArg F (.val c root m) := .val (newValue_good hv h)

/-- C124. So are waypoints made of them. -/
theorem c124_new_waypoint {F : Fl} {root : Option Attrs} {time : TimeArg} {v : PV} {b a : Str} {w : Waypoint}
    (hv : LegalArg F v) (h : Waypoint.new F root time v b a = .ok w) : LegalWp F w := waypoint_new_legal hv h

/-- C124. So are the elements of an opened document after any changes, as when its values are assigned or its
layers are appended elsewhere. -/
theorem c124_taken (F : Fl) {s : Str} {d e : Node} (hs : parseXml s = .ok d) (h : Becomes F d e) :
    ∀ x ∈ e.descTags, Good F x := by
  obtain ⟨ht, hi⟩ := parse_read hs
  exact (becomes_good ⟨ht.xmlOk F, hi⟩ h).descTags

/-- Whether the text in a default is legal, and the names in it. -/
def Lit.legalB : Lit → Bool
  | .str s => s.toList.all xmlChar
  | .parts l => l.all fun p => !p.1.toList.isEmpty && p.1.toList.all nameChar
  | _ => true

theorem floatTuple_legal (F : Fl) (l : List ℚ) : LegalArg F (floatTuple F l) := by
  refine .tuple ?_
  intro v hv
  obtain ⟨q, -, rfl⟩ := List.mem_map.1 hv
  exact .float _

theorem Lit.legal {F : Fl} {d : Lit} (h : d.legalB = true) : LegalArg F (d.pv F) := by
  cases d with
  | none => exact .none
  | float q => exact .float _
  | int i => exact .int _
  | bool b => exact .bool _
  | str s => exact .str (legal_iff.2 h)
  | tuple l => exact floatTuple_legal F l
  | stops l =>
    refine .stops ?_
    intro p hp
    obtain ⟨x, -, rfl⟩ := List.mem_map.1 hp
    exact floatTuple_legal F _
  | parts l =>
    rw [Lit.legalB, List.all_eq_true] at h
    refine .dict ?_ ?_
    · intro p hp
      obtain ⟨x, hx, rfl⟩ := List.mem_map.1 hp
      exact nameOk_dec (h x hx)
    · intro p hp
      obtain ⟨x, hx, rfl⟩ := List.mem_map.1 hp
      simp only
      split
      · exact .float _
      · exact floatTuple_legal F _
  | layers => exact .tuple (by simp)

/-- Whether a field of a layer class makes legal elements. -/
def fieldLegalB (f : String × LField) : Bool :=
  f.1.toList.all xmlChar && match f.2 with
    | .param _ d => d.legalB
    | _ => true

theorem defaultTag_good {F : Fl} {f : LField} (h : (match f with
    | .param _ d => d.legalB
    | _ => true) = true) {m : Node} (hm : defaultTag F f = .ok m) : Good F m := by
  cases f with
  | param c d =>
    have hd := Lit.legal (F := F) h
    cases c <;> simp only [defaultTag] at hm
    case time =>
      exact construct_good (c := .time) (good_new (nameOk_dec (by decide)))
        (fun n hn => setSimple_good (nameOk_dec (by decide)) legal_nil (fun s hs => toStr_legal hd hs) hn) hm
    all_goals exact newValue_good hd hm
  | blend i =>
    cases hm
    refine good_tag.2 ⟨nameOk_dec (by decide), ⟨by simp, ?_⟩, by simp⟩
    intro p hp
    simp only [List.mem_cons, List.not_mem_nil, or_false] at hp
    rcases hp with rfl | rfl
    · exact ⟨nameOk_dec (s := "value") (by decide), legal_attr_str (legal_intStr i)⟩
    · exact ⟨nameOk_dec (s := "static") (by decide), legal_attr_str (legal_iff.2 (by decide))⟩
  | notImpl => cases hm

theorem fieldTags_ok {F : Fl} {f : String × LField} (h : fieldLegalB f = true) {l : List Node}
    (hl : fieldTags F f = .ok l) : ∀ x ∈ l, x.XmlOk F := by
  obtain ⟨k, f⟩ := f
  rw [fieldLegalB, Bool.and_eq_true] at h
  have key : ∀ m, defaultTag F f = .ok m → ∀ x ∈ [paramTag k m, .text ['\n']], x.XmlOk F := by
    intro m hm x hx
    simp only [List.mem_cons, List.not_mem_nil, or_false] at hx
    rcases hx with rfl | rfl
    · have : Good F (paramTag k m) := good_tag.2 ⟨nameOk_dec (by decide),
        attrsOk_one (nameOk_dec (by decide)) (legal_attr_str (legal_iff.2 h.1)), by
          intro y hy
          rw [List.mem_singleton] at hy
          subst hy
          exact (defaultTag_good h.2 hm).1⟩
      exact this.1
    · exact (by decide : (['\n'] : Str).all xmlChar = true)
  cases f with
  | notImpl => cases hl; simp
  | param c d =>
    simp only [fieldTags] at hl
    split at hl
    · cases hl
    · rename_i m hm; cases hl; exact key m hm
  | blend i =>
    simp only [fieldTags] at hl
    split at hl
    · cases hl
    · rename_i m hm; cases hl; exact key m hm

/-- Everything in the table of layer classes is legal. -/
theorem layerClasses_legal : ∀ c ∈ layerClasses, (lower c.name.toList).all xmlChar = true ∧
    ((c.version.getD "0.0").toList).all xmlChar = true ∧ c.fields.all fieldLegalB = true := by
  decide +kernel

/-- C124. Every layer the library makes can be put into a document: `C()` for each class. -/
theorem c124_new_layer {F : Fl} {c : LClass} (hc : c ∈ layerClasses) {n : Node} (h : newLayer F c = .ok n) :
    Good F n := by
  obtain ⟨h1, h2, h3⟩ := layerClasses_legal c hc
  rw [newLayer] at h
  split at h
  · cases h
  rename_i l hl
  cases h
  refine good_tag.2 ⟨nameOk_dec (by decide), ⟨by simp [layerAttrs], ?_⟩, ?_⟩
  · intro p hp
    simp only [layerAttrs, List.mem_cons, List.not_mem_nil, or_false] at hp
    rcases hp with rfl | rfl | rfl | rfl
    · exact ⟨nameOk_dec (s := "type") (by decide), legal_attr_str (legal_iff.2 h1)⟩
    · exact ⟨nameOk_dec (s := "version") (by decide), legal_attr_str (legal_iff.2 h2)⟩
    · exact ⟨nameOk_dec (s := "active") (by decide), legal_attr_str (legal_iff.2 (by decide))⟩
    · exact ⟨nameOk_dec (s := "exclude_from_rendering") (by decide), legal_attr_str (legal_iff.2 (by decide))⟩
  · intro x hx
    rcases List.mem_cons.1 hx with rfl | hx
    · exact (by decide : (['\n'] : Str).all xmlChar = true)
    · obtain ⟨y, hy, hx⟩ := List.mem_flatten.1 hx
      obtain ⟨f, hf, e⟩ := mapRes_mem hl hy
      exact fieldTags_ok (List.all_eq_true.1 h3 f hf) e x hx

/-- C124. And `Text(s)`. -/
theorem c124_new_text {F : Fl} {s : Str} (hs : LegalText s) {n : Node} (h : newText F s = .ok n) : Good F n := by
  rw [newText] at h
  split at h
  · cases h
  rename_i m hm
  have hg := c124_new_layer (by decide +kernel) hm
  have := setField_good (k := "text") (f := .param .string (.str "Hello wombat!")) (.str hs) hg
  split at h
  · cases h
  · rename_i e
    cases h
    rw [e] at this
    exact this

/-! ## What isn't checked -/

/-- C124. Nothing checks text for characters which XML forbids: after `animation.desc = '\x00'` the animation
can be saved, but what is in the file isn't XML. -/
theorem c124_control_character_fails :
    let d : Node := .tag "canvas" [] [.tag "desc" [] []]
    (setAnimDesc ['\x00'] d).2 = .ok () ∧
    (∃ y, parseXml (docText double (fun _ => true) d) = .ok y) ∧
    ∃ e, parseXml (docText double (fun _ => true) (setAnimDesc ['\x00'] d).1) = .error e := by
  refine ⟨by decide +kernel, ⟨.tag "canvas" [] [.tag "desc" [] []], by decide +kernel⟩, ⟨.value, by decide +kernel⟩⟩

/-- C124. Nor the keys of the dict given to a vector: `vector.value = {'x=': 1}` is accepted, but the file
then isn't XML. -/
theorem c124_dict_key_fails :
    (setVector double (.dict [("x=", .int 1)]) (.new "vector")).2 = .ok () ∧
    ∃ e, parseXml (docText double (fun _ => true)
      (setVector double (.dict [("x=", .int 1)]) (.new "vector")).1) = .error e := by
  refine ⟨by decide +kernel, ⟨.value, by decide +kernel⟩⟩

/-! ## A history -/

/-- A document is changed at three places, one of the changes failing. -/
example : Becomes double blankDoc (changeAt (fun n => ((Change.value .real (.str ['x'])).run double n).1) [1]
    (changeAt (fun n => ((Change.header ⟨"gamma_r", .float, .float 1⟩ (.float 2)).run double n).1) []
      (changeAt (fun n => ((Change.append .animation (.layer (.new "layer"))).run double n).1) [] blankDoc))) := by
  refine .step (.step (.step .refl _ ?_ _) _ ?_ _) _ ?_ _
  · exact good_new (nameOk_dec (by decide))
  · exact ⟨by simp [headerFields], .float 2⟩
  · exact .str (legal_iff.2 (by decide))

example : ((Change.value .real (.str ['x'])).run double (.new "real")).2 = .error .value := by decide +kernel

end Sang
