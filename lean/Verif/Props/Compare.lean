import Verif.Compare
import Verif.Props.Colors
import Verif.Props.Composites
import Verif.Props.Find

/-! # Truth and equality of values: properties C98–C107 -/

namespace Sang

open Spec

/-! ## C98: the truth of a value -/

/-- C98, the part that holds: in a condition, a `Bool` is true exactly if it was set to true. -/
theorem c98_bool_truth_partial (F : Fl) (ctx : Ctx) (n : Node) (hn : n.isTag = true) (b : Bool) :
    valueTruth F ctx .bool (setValue F .bool (.bool b) n).1 = .ok b :=
  (c20_bool_roundtrip F n hn b).2

/-- C98, violated: a number, time, text or colour that isn't animated is false in a condition,
whatever it holds. -/
theorem c98_static_is_false (F : Fl) (ctx : Ctx) (c : VCls)
    (hc : c ∈ [VCls.real, .integer, .angle, .time, .string, .color]) (n : Node)
    (hn : n.name ≠ "animated") : valueTruth F ctx c n = .ok false := by
  have hw : lenTimeline F ctx n = .ok 0 := by simp [lenTimeline, waypoints, waypointTags, hn]
  simp only [List.mem_cons, List.not_mem_nil, or_false] at hc
  rcases hc with rfl | rfl | rfl | rfl | rfl | rfl <;> simp [valueTruth, valueLen, hw]

/-- C98's violation on real cases: `Real(5)`, `String('yes')`. -/
example : ∃ n m, newValue double .real (.float 5) = .ok n ∧ n.name ≠ "animated" ∧
    newValue double .string (.str "yes".toList) = .ok m ∧ m.name ≠ "animated" :=
  ⟨.tag "real" [("value", .str "5.0000000000".toList)] [], .tag "string" [] [.text "yes".toList],
    by decide +kernel, by decide, by decide +kernel, by decide⟩

/-- C98: what it is true of instead: having a waypoint. -/
theorem c98_true_iff_waypoints (F : Fl) (ctx : Ctx) (c : VCls)
    (hc : c ∈ [VCls.real, .integer, .angle, .time, .string, .color]) (n : Node) :
    valueTruth F ctx c n = .ok true ↔ ∃ ws, waypoints F ctx n = .ok ws ∧ ws ≠ [] := by
  have key : valueTruth F ctx c n = match waypoints F ctx n with
      | .error e => .error e
      | .ok ws => .ok (decide (ws.length ≠ 0)) := by
    simp only [List.mem_cons, List.not_mem_nil, or_false] at hc
    rcases hc with rfl | rfl | rfl | rfl | rfl | rfl <;>
      simp only [valueTruth, valueLen, lenTimeline] <;> cases waypoints F ctx n <;> rfl
  rw [key]
  cases waypoints F ctx n with
  | error e => simp
  | ok ws => cases ws <;> simp

/-- C98: a static vector is true, even at the origin. -/
example : valueTruth double ⟨none, false⟩ .vector (.tag "vector" []
    [coordTag "x" 0, coordTag "y" 0]) = .ok true := by decide +kernel

theorem foldl_dictSet_eq_nil {α κ β : Type} [DecidableEq κ] (f : α → κ) (g : α → β) (l : List α)
    (d : List (κ × β)) : l.foldl (fun d x => dictSet (f x) (g x) d) d = [] ↔ l = [] ∧ d = [] := by
  induction l generalizing d with
  | nil => simp
  | cons a l ih =>
    rw [List.foldl_cons, ih]
    have : dictSet (f a) (g a) d ≠ [] := by
      cases d with
      | nil => simp [dictSet]
      | cons p d => rw [dictSet]; split <;> simp
    simp [this]

/-- C98. A vector is true exactly if it has any coordinates, a transformation if it has any parts, a gradient
always, if it can be read. -/
theorem c98_parts (F : Fl) (ctx : Ctx) (n : Node) :
    valueTruth F ctx .vector n = .ok (decide (n.tagKids ≠ [])) ∧
    valueTruth F ctx .composite n = .ok (decide (n.tagKids ≠ [])) ∧
    valueLen F ctx .composite n = .ok n.tagKids.length ∧
    (∀ l, vectorTuple F n = .ok l → valueLen F ctx .vector n = .ok l.length) ∧
    ∀ l, gradientStops F n = .ok l →
      valueLen F ctx .gradient n = .ok l.length ∧ valueTruth F ctx .gradient n = .ok true := by
  refine ⟨?_, ?_, rfl, ?_, ?_⟩
  · have := foldl_dictSet_eq_nil (fun x : Node => x.name) (fun x => x.string?) n.tagKids []
    simp only [and_true] at this
    simp only [valueTruth, valueLen, vectorDict, ne_eq, List.length_eq_zero_iff, this]
  · simp only [valueTruth, valueLen, ne_eq, List.length_eq_zero_iff]
  · intro l h
    rw [vectorTuple] at h
    simp only [valueLen, mapRes_length h, sortNames, List.length_insertionSort, List.length_map]
  · intro l h
    have hne : l ≠ [] := by
      rw [gradientStops] at h
      split at h
      · cases h
      · next hlen =>
        cases hm : mapRes (stopOf F) (n.findAll "color") with
        | error e => simp [hm] at h
        | ok m =>
          simp only [hm, Except.ok.injEq] at h
          rintro rfl
          have := (foldl_dictSet_eq_nil (fun p : ℚ × Node => p.1) (fun p => p.2) m []).1 h
          have hl := mapRes_length hm
          rw [this.1] at hl
          simp only [List.length_nil] at hl
          omega
    simp [valueTruth, valueLen, h, hne]

/-- C98, as one meets it: a point at the origin is true, a number isn't. -/
example : valueTruth double ⟨none, false⟩ .vector (.tag "vector" [] [coordTag "x" 0, coordTag "y" 0]) = .ok true ∧
    valueTruth double ⟨none, false⟩ .real (realNode "5.0000000000") = .ok false := by decide +kernel

/-! ## C99: the truth of a layer -/

/-- C99, violated: a layer with no layers below it is false in a condition. -/
theorem c99_leaf_layer_is_false (n : Node) : layerTruth n = true ↔ layersBelow n ≠ [] := by
  simp [layerTruth, c48_len, List.length_eq_zero_iff]

/-- C99, violated, as one meets it: `if animation.find('circle'):` fails though the circle is
there. -/
example : ∃ x, findLayer double .initial { pos := [.str "circle".toList] } true
      (.tag "canvas" [] [exLayer "star", exLayer "circle"]) = .ok (some x) ∧
    layerTruth x.2 = false :=
  ⟨(lcCircle, exLayer "circle"), by decide +kernel, by decide +kernel⟩

/-! ## C100: a value equals itself -/

/-- C100. A number, boolean, time, text or colour that can be read equals itself. -/
theorem c100_equals_itself {F : Fl} (hF : F.Lawful) (root : Option Attrs) (c : VCls)
    (hc : c ∈ [VCls.real, .integer, .bool, .angle, .time, .string, .color]) (n : Node) (v : PV)
    (h : getValue F root c n = .ok v) : valueEq F root c n (.val c root n) = .ok true := by
  simp only [List.mem_cons, List.not_mem_nil, or_false] at hc
  rcases hc with rfl | rfl | rfl | rfl | rfl | rfl | rfl
  · cases hf : getFloat F n with
    | error e => simp [getValue, hf] at h
    | ok q => exact (c74_real_eq_refl_symm hF root root n n q q hf hf).1
  · cases hf : getInt n with
    | error e => simp [getValue, hf] at h
    | ok q => simp [valueEq, plainEq, integerEq, hf]
  · cases hf : getBool n with
    | error e => simp [getValue, hf] at h
    | ok q => simp [valueEq, plainEq, boolEq, PV.toBool, hf]
  · cases hf : getFloat F n with
    | error e => simp [getValue, hf] at h
    | ok q => simp [valueEq, plainEq, angleEq, hf]
  · cases hf : getTime F root n with
    | error e => simp [getValue, hf] at h
    | ok q =>
      simp only [valueEq, plainEq, timeEq, hf, T.eq, T.compare]
      cases hq : q.fps <;> simp
  · simp [valueEq, plainEq, stringEq, getValue]
  · cases hf : colorHex F n with
    | error e => simp [getValue, hf] at h
    | ok q => simp [valueEq, plainEq, colorEqAny, colorEq, hf]

/-- C100. A vector which isn't animated and has numbers in it equals itself. -/
theorem c100_vector_equals_itself (F : Fl) (root : Option Attrs) (n : Node) (l : List ℚ)
    (h : vectorIter F n = .ok l) : valueEq F root .vector n (.val .vector root n) = .ok true := by
  simp [valueEq, plainEq, vectorEqAny, vectorEq, h]

theorem lookup_of_nodup {κ α : Type} [DecidableEq κ] {l : List (κ × α)} {k : κ} {v : α}
    (h : (l.map Prod.fst).Nodup) (hm : (k, v) ∈ l) : l.lookup k = some v := by
  induction l with
  | nil => simp at hm
  | cons p l ih =>
    obtain ⟨k', v'⟩ := p
    simp only [List.map_cons, List.nodup_cons] at h
    rcases List.mem_cons.1 hm with he | hm'
    · simp only [Prod.mk.injEq] at he
      obtain ⟨rfl, rfl⟩ := he
      simp [List.lookup]
    · have : k ≠ k' := by
        rintro rfl
        exact h.1 (List.mem_map.2 ⟨_, hm', rfl⟩)
      simp only [List.lookup, beq_eq_false_iff_ne.2 this]
      exact ih h.2 hm'

theorem gradientStops_nodup {F : Fl} {n : Node} {l : List (ℚ × Node)}
    (h : gradientStops F n = .ok l) : (l.map Prod.fst).Nodup := by
  simp only [gradientStops] at h
  split at h
  · cases h
  · cases hm : mapRes (stopOf F) (n.findAll "color") with
    | error e => simp [hm] at h
    | ok r =>
      simp only [hm, Except.ok.injEq] at h
      subst h
      exact (foldl_dictSet_keys r [] (by simp)).1

/-- C100. A gradient whose colours can be read equals itself. -/
theorem c100_gradient_equals_itself (F : Fl) (root : Option Attrs) (n : Node) (l : List (ℚ × Node))
    (h : gradientStops F n = .ok l) (hc : ∀ s ∈ l, ∃ t, colorHex F s.2 = .ok t) :
    valueEq F root .gradient n (.val .gradient root n) = .ok true := by
  have hnd := gradientStops_nodup h
  have key : ∀ m : List (ℚ × Node), m ⊆ l →
      stopsEq F m (l.map fun p => (p.1, .val .color root p.2)) = .ok true := by
    intro m hm
    induction m with
    | nil => rfl
    | cons p m ih =>
      obtain ⟨q, c⟩ := p
      have hmem : (q, c) ∈ l := hm (by simp)
      have hl : (l.map fun p : ℚ × Node => (p.1, PV.val .color root p.2)).lookup q =
          some (.val .color root c) := by
        apply lookup_of_nodup
        · simpa [List.map_map, Function.comp_def] using hnd
        · exact List.mem_map.2 ⟨_, hmem, rfl⟩
      obtain ⟨t, ht⟩ := hc _ hmem
      simp only [stopsEq, hl, colorEqAny, colorEq, ht, decide_true]
      exact ih fun x hx => hm (by simp [hx])
  simp only [valueEq, plainEq, gradientEq, h, getValue, List.length_map, ne_eq, not_true_eq_false,
    if_false]
  exact key l (fun _ h => h)

/-- C100. A transformation with each part once equals itself, if its parts do. -/
theorem c100_transformation_equals_itself (F : Fl) (root : Option Attrs) (n : Node)
    (d : List (String × VCls × Node)) (h : compositeDict n = .ok d)
    (hnd : (n.tagKids.map Node.name).Nodup)
    (hne : ∀ p ∈ d, p.2.1 ≠ .composite)
    (hp : ∀ p ∈ d, valueEq F root p.2.1 p.2.2 (.val p.2.1 root p.2.2) = .ok true) :
    valueEq F root .composite n (.val .composite root n) = .ok true := by
  replace hp : ∀ p ∈ d, plainEq F root p.2.1 p.2.2 (.val p.2.1 root p.2.2) = .ok true := by
    intro p hpd
    have hv := hp p hpd
    unfold valueEq at hv
    split at hv
    · rename_i e; exact absurd e (hne p hpd)
    · exact hv
  have hd := h
  simp only [compositeDict] at hd
  cases hm : mapRes compositeField n.tagKids with
  | error e => simp [hm] at hd
  | ok l =>
    have hl := mapRes_compositeField hm
    simp only [hm] at hd
    split at hd
    · rw [foldl_dictSet_nodup l [] (by simpa [hl] using hnd), List.nil_append] at hd
      injection hd with hd
      subst hd
      have hget : ∀ ks : List Node, ks ⊆ n.tagKids → ∀ r, mapRes compositeField ks = .ok r →
          ∀ p ∈ r, compositeGet n p.1 = .ok p.2 := by
        intro ks hks
        induction ks with
        | nil => intro r hr p hp'; simp only [mapRes, Except.ok.injEq] at hr; subst hr; simp at hp'
        | cons x ks ih =>
          intro r hr p hp'
          simp only [mapRes] at hr
          cases h1 : compositeField x with
          | error e => simp [h1] at hr
          | ok y =>
            cases h2 : mapRes compositeField ks with
            | error e => simp [h1, h2] at hr
            | ok ys =>
              simp only [h1, h2, Except.ok.injEq] at hr
              subst hr
              rcases List.mem_cons.1 hp' with rfl | hp'
              · simp only [compositeField] at h1
                split at h1
                · cases h1
                · split at h1
                  · rename_i v hv
                    cases hc : fromTag v with
                    | error e => simp [hc] at h1
                    | ok c =>
                      simp only [hc, Except.ok.injEq] at h1
                      subst h1
                      have hf : n.tagKids.filter (fun y => decide (y.name = x.name)) = [x] := by
                        have hx : x ∈ n.tagKids := hks (by simp)
                        generalize n.tagKids = L at hnd hx
                        induction L with
                        | nil => simp at hx
                        | cons z L ihL =>
                          simp only [List.map_cons, List.nodup_cons] at hnd
                          rcases List.mem_cons.1 hx with rfl | hx
                          · rw [List.filter_cons_of_pos (by simp)]
                            congr 1
                            rw [List.filter_eq_nil_iff]
                            intro y hy hyn
                            apply hnd.1
                            rw [← of_decide_eq_true hyn]
                            exact List.mem_map.2 ⟨y, hy, rfl⟩
                          · rw [List.filter_cons_of_neg]
                            · exact ihL hnd.2 hx
                            · simp only [decide_eq_true_eq]
                              intro hzn
                              apply hnd.1
                              rw [hzn]
                              exact List.mem_map.2 ⟨x, hx, rfl⟩
                      simp only [compositeGet, hf, hv, hc]
                  · cases h1
              · exact ih (fun y hy => hks (by simp [hy])) ys h2 p hp'
      have hget' := hget _ (fun _ h => h) _ hm
      have key : ∀ r, r ⊆ l → partsEq F root (.val .composite root n) r = .ok true := by
        intro r hr
        induction r with
        | nil => rfl
        | cons p r ih =>
          obtain ⟨k, c, v⟩ := p
          have hmem : (k, c, v) ∈ l := hr (by simp)
          have h1 := hget' _ hmem
          have h2 := hp _ hmem
          simp only at h1 h2
          simp only [partsEq, partOf, h1, partEq, h2]
          exact ih fun x hx => hr (by simp [hx])
      simp only [valueEq, compositeEq, ne_eq, not_true_eq_false, if_false, h]
      exact key l (fun _ h => h)
    · cases hd

/-- C100's hypotheses are met: a transformation equals itself. -/
example : valueEq double none .composite (setValue double .composite
      (.dict (TransParts.mk (3, 4) (1/2) 0 (1, 2)).dict) (emptyTag .composite)).1
    (.val .composite none (setValue double .composite
      (.dict (TransParts.mk (3, 4) (1/2) 0 (1, 2)).dict) (emptyTag .composite)).1) = .ok true := by
  decide +kernel

/-- C100, violated: a canvas with a layer in it isn't equal to itself... -/
theorem c100_canvas_differs_from_itself (F : Fl) (root : Option Attrs) (n x : Node) (l : List Node)
    (h : canvasLayers n = .ok (x :: l)) :
    valueEq F root .canvas n (.val .canvas root n) = .ok false := by
  simp [valueEq, plainEq, canvasEq, h]

/-- ... and a value of a class which isn't implemented yet can't be compared at all. -/
theorem c100_unimplemented_raises (F : Fl) (root : Option Attrs) (n : Node) (s : String) (v : PV) :
    valueEq F root (.tbd s) n v = .error .notImpl := rfl

/-- C100's violation on a real case. -/
example : canvasLayers (.tag "canvas" [] [exLayer "circle"]) = .ok [exLayer "circle"] := by
  decide +kernel

/-! ## C101: comparing integers with numbers -/

/-- C101, the part that holds: an `Integer` equals a Python int exactly if it holds that int. -/
theorem c101_int_partial (F : Fl) (root : Option Attrs) (n : Node) (hn : n.isTag = true) (i j : ℤ) :
    valueEq F root .integer (setValue F .integer (.int i) n).1 (.int j) = .ok (decide (i = j)) := by
  simp only [valueEq, plainEq, integerEq, PV.toInt, catchValue, (c20_integer_roundtrip F n hn i).2]
  simp [eq_comm]

/-- C101, violated: it equals every number which has that whole part. -/
theorem c101_equal_iff_truncated (F : Fl) (root : Option Attrs) (n : Node) (hn : n.isTag = true)
    (i : ℤ) (q : ℚ) :
    valueEq F root .integer (setValue F .integer (.int i) n).1 (.float q) = .ok true ↔
      (0 ≤ q ∧ ⌊q⌋ = i) ∨ (q < 0 ∧ ⌈q⌉ = i) := by
  simp only [valueEq, plainEq, integerEq, PV.toInt, catchValue, (c20_integer_roundtrip F n hn i).2]
  simp only [Except.ok.injEq, decide_eq_true_eq, Option.some.injEq, truncQ]
  by_cases h : q < 0
  · simp [h, not_le.2 h, Int.floor_neg]
  · simp [h, not_lt.1 h]

/-- C101 violated, concretely: `Integer(2) == 2.75`. -/
example : valueEq double none .integer (setValue double .integer (.int 2) (.new "integer")).1
    (.float (11/4)) = .ok true := by decide +kernel

/-! ## C102: comparing with None -/

/-- C102, violated: comparing a real, integer or angle with `None` raises `TypeError`. -/
theorem c102_number_raises (F : Fl) (root : Option Attrs) (c : VCls)
    (hc : c ∈ [VCls.real, .integer, .angle]) (n : Node) :
    valueEq F root c n .none = .error .type := by
  simp only [List.mem_cons, List.not_mem_nil, or_false] at hc
  rcases hc with rfl | rfl | rfl <;> rfl

/-- C102, violated: a false `Bool` equals `None`. -/
theorem c102_false_equals_none (F : Fl) (root : Option Attrs) (n : Node) (hn : n.isTag = true)
    (b : Bool) : valueEq F root .bool (setValue F .bool (.bool b) n).1 .none = .ok (!b) := by
  simp only [valueEq, plainEq, boolEq, PV.toBool, (c20_bool_roundtrip F n hn b).2]
  cases b <;> rfl

/-- C102, the part that holds: any other value that can be read is unequal to `None`. -/
theorem c102_other_unequal_partial (F : Fl) (root : Option Attrs) (c : VCls)
    (hc : c ∈ [VCls.time, .string, .color, .vector, .gradient, .composite, .canvas]) (n : Node)
    (v : PV) (h : getValue F root c n = .ok v) : valueEq F root c n .none = .ok false := by
  simp only [List.mem_cons, List.not_mem_nil, or_false] at hc
  rcases hc with rfl | rfl | rfl | rfl | rfl | rfl | rfl
  · cases hf : getTime F root n with
    | error e => simp [getValue, hf] at h
    | ok q =>
      simp [valueEq, plainEq, timeEq, hf, PV.toTArg, PV.toFloat, T.new, readFps, PV.toTOther, T.eq,
        T.compare]
  · rfl
  · rfl
  · rfl
  · cases hf : gradientStops F n with
    | error e => simp [getValue, hf] at h
    | ok q => simp [valueEq, plainEq, gradientEq, hf]
  · rfl
  · cases hf : canvasLayers n with
    | error e => simp [getValue, hf] at h
    | ok q => simp [valueEq, plainEq, canvasEq, hf]

/-- C102's hypotheses are met by a time. -/
example : getValue double none .time (.tag "time" [("value", .str "3f".toList)] []) =
    .ok (.t ⟨3, none⟩) := by
  have : getTime double none (.tag "time" [("value", .str "3f".toList)] []) = .ok ⟨3, none⟩ := by
    decide +kernel
  simp only [getValue, this]

/-! ## C134: comparing numbers with text -/

/-- C134. An `Integer` equals a text exactly if `int` of the text is its number; text that `int` refuses isn't equal
to it, and raises nothing. -/
theorem c134_integer_text (F : Fl) (root : Option Attrs) (n : Node) (i : ℤ) (hn : getInt n = .ok i) (s : Str) :
    (∀ j, pyInt s = .ok j → valueEq F root .integer n (.str s) = .ok (decide (i = j))) ∧
    (pyInt s = .error .value → valueEq F root .integer n (.str s) = .ok false) := by
  refine ⟨fun j h => ?_, fun h => ?_⟩
  · simp [valueEq, plainEq, integerEq, PV.toInt, h, catchValue, hn, eq_comm]
  · simp [valueEq, plainEq, integerEq, PV.toInt, h, catchValue, hn]

/-- C134. The same for an `Angle` and `float`. -/
theorem c134_angle_text (F : Fl) (root : Option Attrs) (n : Node) (q : ℚ) (hn : getFloat F n = .ok q) (s : Str) :
    (∀ r, pyFloat F s = .ok r → valueEq F root .angle n (.str s) = .ok (decide (q = r))) ∧
    (pyFloat F s = .error .value → valueEq F root .angle n (.str s) = .ok false) := by
  refine ⟨fun r h => ?_, fun h => ?_⟩
  · simp [valueEq, plainEq, angleEq, PV.toFloat, h, catchValue, hn, eq_comm]
  · simp [valueEq, plainEq, angleEq, PV.toFloat, h, catchValue, hn]

/-- C134. The same for a `Real`, which equals all numbers that are near enough. -/
theorem c134_real_text (F : Fl) (root : Option Attrs) (n : Node) (q : ℚ) (hn : getFloat F n = .ok q) (s : Str) :
    (∀ r, pyFloat F s = .ok r → valueEq F root .real n (.str s) = valueEq F root .real n (.float r)) ∧
    (pyFloat F s = .error .value → valueEq F root .real n (.str s) = .ok false) := by
  refine ⟨fun r h => ?_, fun h => ?_⟩
  · simp [valueEq, plainEq, realEq, PV.toFloat, h, hn]
  · simp [valueEq, plainEq, realEq, PV.toFloat, h, hn]

/-- C134. In particular an `Integer` equals the decimal text of a number exactly if it holds that number. -/
theorem c134_integer_decimal (F : Fl) (root : Option Attrs) (n : Node) (i j : ℤ) (hn : getInt n = .ok i) :
    valueEq F root .integer n (.str (intStr j)) = .ok (decide (i = j)) :=
  (c134_integer_text F root n i hn _).1 j (pyInt_intStr j)

/-- C134. A `String` equals exactly its own text, and the `String`s that hold it. -/
theorem c134_string_text (F : Fl) (root root' : Option Attrs) (n m : Node) (s t : Str)
    (hn : getValue F root .string n = .ok (.str s)) (hm : getValue F root' .string m = .ok (.str t)) :
    valueEq F root .string n (.str t) = .ok (decide (s = t)) ∧
    valueEq F root .string n (.val .string root' m) = .ok (decide (s = t)) := by
  simp only [getValue, Except.ok.injEq, PV.str.injEq] at hn hm
  subst hn hm
  simp [valueEq, plainEq, stringEq, getValue]

/-- C134's hypotheses are met. -/
example : getValue double none .string (.tag "string" [] [.text "five".toList]) = .ok (.str "five".toList) := by
  rfl

/-- C134: neither words nor a decimal point make an int; but spaces and underscores do no harm. -/
example : pyInt "five".toList = .error .value ∧ pyInt "5.0".toList = .error .value ∧
    pyInt " 1_000 ".toList = .ok 1000 ∧ pyFloat double "five".toList = .error .value ∧
    pyFloat double "5.0".toList = .ok 5 ∧
    getInt (.tag "integer" [("value", .str "5".toList)] []) = .ok 5 := by decide +kernel

/-! ## C103: booleans and text -/

/-- C103, violated: a `Bool` set to any text but the empty one is true, `'false'` included. -/
theorem c103_text_is_true (F : Fl) (n : Node) (hn : n.isTag = true) (s : Str) :
    (setValue F .bool (.str s) n).2 = .ok () ∧
    getBool (setValue F .bool (.str s) n).1 = .ok (decide (s ≠ [])) := by
  have h : setValue F .bool (.str s) n =
      (.tag "bool" [("value", .str (boolStr (decide (s ≠ []))))] [], .ok ()) := by
    simp only [setValue]; exact setSimple_ok hn rfl rfl rfl
  rw [h]
  refine ⟨rfl, ?_⟩
  cases decide (s ≠ []) <;> rfl

/-- C103, violated: nor does a false `Bool` equal the text `'false'`, or any other but the empty
one; and a true one equals all those, but not the empty one. -/
theorem c103_compare_text (F : Fl) (root : Option Attrs) (n : Node) (b : Bool)
    (hb : getBool n = .ok b) :
    valueEq F root .bool n (.str []) = .ok (!b) ∧
    ∀ s, s ≠ [] → valueEq F root .bool n (.str s) = .ok b := by
  simp only [valueEq, plainEq, boolEq, PV.toBool, hb]
  cases b <;> simp +contextual

/-- C103's hypotheses are met by the text which is in files. -/
example : getBool (.tag "bool" [("value", .str "false".toList)] []) = .ok false ∧
    "false".toList ≠ [] := by decide

/-! ## C104: times and text -/

/-- C104, the part that holds: a time equals text giving frames exactly if it is at that frame. -/
theorem c104_frames_text_partial {F : Fl} (hF : F.Lawful) (root : Option Attrs) (n : Node) (t : T)
    (ht : getTime F root n = .ok t) (k : ℕ) (hk : k < 2 ^ 53) :
    valueEq F root .time n (.str (natStr k ++ ['f'])) = .ok (decide (t.frames = k)) := by
  have h1 : T.new F none (.str (natStr k ++ ['f'])) = .ok ⟨k, none⟩ := by
    simp only [T.new, readFps, parseSpec_frames hF none k hk]
  simp only [valueEq, plainEq, timeEq, PV.toTArg, h1, ht, T.eq, T.compare]


/-- C104, violated: a time never equals text giving (whole) seconds, even the same time, in an
animation or not. -/
theorem c104_seconds_text_unequal {F : Fl} (hF : F.Lawful) (root : Option Attrs) (n : Node) (t : T)
    (ht : getTime F root n = .ok t) (ps : List Part) (tr : Str)
    (hp : ∀ p ∈ ps, p.Valid) (htr : ∀ c ∈ tr, isSpace c = true) (hd : Distinct ps) (H M S G : ℤ)
    (hH : amount ps .h = H) (hM : amount ps .m = M) (hS : amount ps .s = S)
    (hG : amount ps .f = G) (hb : |H * 3600| + |M * 60| + |S| ≤ 2 ^ 53) (hG' : |G| ≤ 2 ^ 53)
    (hs : seconds ps ≠ 0) :
    valueEq F root .time n (.str (specText ps tr)) = .ok false := by
  have h := c08_seconds_need_ref hF ps tr hp htr hd H M S G hH hM hS hG hb hG'
  rw [if_pos hs] at h
  simp [valueEq, plainEq, timeEq, PV.toTArg, h, ht, PV.toTOther, T.eq, T.compare]

/-- C104 violated, concretely: a time of two seconds in an animation isn't equal to `'2s'`, though
it is what `'2s'` means there. -/
example : getTime double (some exRoot) (.tag "time" [("value", .str "2s".toList)] []) =
      .ok ⟨48, some 24⟩ ∧
    T.new double (some exRoot) (.str "2s".toList) = .ok ⟨48, some 24⟩ ∧
    valueEq double (some exRoot) .time (.tag "time" [("value", .str "2s".toList)] [])
      (.str "2s".toList) = .ok false := by
  refine ⟨?_, ?_, ?_⟩ <;> decide +kernel

/-! ## C105: comparing colours with tuples -/

theorem tupleEq_self (l : List ℚ) : tupleEq l (l.map .float) = true := by
  induction l with
  | nil => rfl
  | cons q l ih => simp [tupleEq, PV.number?, ih]

/-- C105, the part that holds: a colour equals the tuple that it reads as. -/
theorem c105_equals_own_tuple_partial (F : Fl) (root : Option Attrs) (n : Node) (cs : List ℚ)
    (h : colorTuple F n = .ok cs) :
    valueEq F root .color n (.tuple (cs.map .float)) = .ok true := by
  have hlen : cs.length = 4 := by rw [colorTuple] at h; rw [mapRes_length h]; rfl
  simp [valueEq, plainEq, colorEqAny, colorEqTuple, h, hlen, tupleEq_self]

/-- C105, violated: whether it equals the tuple it was set to. This is so exactly if every
component is the float nearest to some decimal with six places. -/
theorem c105_equals_given_tuple_iff {F : Fl} (root : Option Attrs) (n : Node) (hn : n.isTag = true)
    (r g b a : ℚ) :
    valueEq F root .color (setValue F .color (.tuple [.float r, .float g, .float b, .float a]) n).1
        (.tuple [.float r, .float g, .float b, .float a]) = .ok true ↔
      ∀ x ∈ [r, g, b, a], x = F.rnd (dec 6 x) := by
  rw [setColor_ok hn (r := r) (g := g) (b := b) (a := a) rfl]
  simp only [valueEq, plainEq, colorEqAny, colorEqTuple, colorTuple_node]
  simp [tupleEq, PV.number?]

/-- C105. With three components, the fourth is one. -/
theorem c105_alpha_default (F : Fl) (root : Option Attrs) (n : Node) (r g b : ℚ) :
    valueEq F root .color n (.tuple [.float r, .float g, .float b]) =
      valueEq F root .color n (.tuple [.float r, .float g, .float b, .float 1]) := rfl

/-- C105 on real cases: a third isn't kept, a half is. -/
example : ¬ (double.rnd (1/3) = double.rnd (dec 6 (double.rnd (1/3)))) ∧
    (1/2 : ℚ) = double.rnd (dec 6 (1/2)) ∧
    valueEq double none .color (setValue double .color (.tuple [.float (double.rnd (1/3)),
      .float 0, .float 0, .float 1]) (.new "color")).1 (.tuple [.float (double.rnd (1/3)),
      .float 0, .float 0, .float 1]) = .ok false := by
  refine ⟨?_, ?_, ?_⟩ <;> decide +kernel

/-! ## C106: comparing vectors -/

/-- C106. Among vectors that can be read, equality is symmetric and transitive. -/
theorem c106_symm_trans (F : Fl) :
    (∀ n m l l', vectorIter F n = .ok l → vectorIter F m = .ok l' →
      vectorEq F n m = vectorEq F m n) ∧
    (∀ n m k, vectorEq F n m = .ok true → vectorEq F m k = .ok true →
      vectorEq F n k = .ok true) := by
  refine ⟨?_, ?_⟩
  · intro n m l l' h h'
    simp only [vectorEq, h, h', eq_comm (a := l)]
    by_cases hl : (vectorDict m).length = (vectorDict n).length
    · simp [hl]
    · simp [hl, Ne.symm hl]
  · intro n m k
    simp only [vectorEq]
    split
    · simp
    · split
      · simp
      · cases vectorIter F n <;> cases vectorIter F m <;> cases vectorIter F k <;> simp_all

theorem vector_two {n : Node} {a b : String} (h : (vectorDict n).map Prod.fst = [a, b]) :
    ∃ s t, vectorDict n = [(a, s), (b, t)] := by
  match hd : vectorDict n, h with
  | [(a', s), (b', t)], h =>
    simp only [List.map_cons, List.map_nil, List.cons.injEq, and_true] at h
    obtain ⟨rfl, rfl⟩ := h
    exact ⟨s, t, rfl⟩

theorem vectorTuple_xy {F : Fl} {n : Node} {s t : Option Str} {x y : ℚ}
    (hd : vectorDict n = [("x", s), ("y", t)] ∨ vectorDict n = [("y", t), ("x", s)])
    (h : vectorTuple F n = .ok [x, y]) : floatOpt F s = .ok x ∧ floatOpt F t = .ok y := by
  have e1 : sortNames ["x", "y"] = ["x", "y"] := by decide
  have e2 : sortNames ["y", "x"] = ["x", "y"] := by decide
  rcases hd with hd | hd <;>
    simp only [vectorTuple, hd, List.map_cons, List.map_nil, e1, e2, mapRes, List.lookup,
      beq_self_eq_true, Option.getD_some, show ("y" == "x") = false from rfl,
      show ("x" == "y") = false from rfl] at h <;>
    cases h1 : floatOpt F s <;> cases h2 : floatOpt F t <;> simp_all

/-- C106, the part that holds: two vectors, each with x before y in the file, are equal exactly if
they read as the same tuple; and such a vector equals a tuple exactly if it reads as it. -/
theorem c106_vector_eq_partial (F : Fl) (root root' : Option Attrs) (n m : Node) (x y x' y' : ℚ)
    (hn : n.name ≠ "animated") (hm : m.name ≠ "animated")
    (on : (vectorDict n).map Prod.fst = ["x", "y"]) (om : (vectorDict m).map Prod.fst = ["x", "y"])
    (tn : vectorTuple F n = .ok [x, y]) (tm : vectorTuple F m = .ok [x', y']) :
    valueEq F root .vector n (.val .vector root' m) = .ok (decide (x = x' ∧ y = y')) ∧
    valueEq F root .vector n (.tuple [.float x', .float y']) = .ok (decide (x = x' ∧ y = y')) := by
  obtain ⟨s, t, hd⟩ := vector_two on
  obtain ⟨s', t', hd'⟩ := vector_two om
  obtain ⟨h1, h2⟩ := vectorTuple_xy (.inl hd) tn
  obtain ⟨h3, h4⟩ := vectorTuple_xy (.inl hd') tm
  constructor
  · simp [valueEq, plainEq, vectorEqAny, vectorEq, vectorIter, hn, hm, hd, hd', mapRes, h1, h2, h3,
      h4]
  · simp [valueEq, plainEq, vectorEqAny, vectorEqTuple, vectorIter, hn, hd, mapRes, h1, h2,
      tupleEq, PV.number?, eq_comm]

/-- C106's hypotheses are met. -/
example : vectorTuple double (.tag "vector" [] [coordTag "x" 3, coordTag "y" 4]) = .ok [3, 4] ∧
    (vectorDict (.tag "vector" [] [coordTag "x" 3, coordTag "y" 4])).map Prod.fst = ["x", "y"] := by
  constructor <;> decide +kernel

/-- C106, violated: if the file has y before x, then the vector isn't equal to the tuple it reads
as, nor to a vector with the same coordinates in the other order (unless x and y are the same). -/
theorem c106_order_matters (F : Fl) (root root' : Option Attrs) (n m : Node) (x y : ℚ)
    (hn : n.name ≠ "animated") (hm : m.name ≠ "animated")
    (on : (vectorDict n).map Prod.fst = ["y", "x"]) (om : (vectorDict m).map Prod.fst = ["x", "y"])
    (tn : vectorTuple F n = .ok [x, y]) (tm : vectorTuple F m = .ok [x, y]) (hxy : x ≠ y) :
    valueEq F root .vector n (.val .vector root' m) = .ok false ∧
    valueEq F root .vector n (.tuple [.float x, .float y]) = .ok false := by
  obtain ⟨t, s, hd⟩ := vector_two on
  obtain ⟨s', t', hd'⟩ := vector_two om
  obtain ⟨h1, h2⟩ := vectorTuple_xy (.inr hd) tn
  obtain ⟨h3, h4⟩ := vectorTuple_xy (.inl hd') tm
  constructor
  · simp [valueEq, plainEq, vectorEqAny, vectorEq, vectorIter, hn, hm, hd, hd', mapRes, h1, h2, h3,
      h4, hxy.symm]
  · simp [valueEq, plainEq, vectorEqAny, vectorEqTuple, vectorIter, hn, hd, mapRes, h1, h2,
      tupleEq, PV.number?, hxy]

/-- C106's violation on a real case. -/
example : vectorTuple double (.tag "vector" [] [coordTag "y" 4, coordTag "x" 3]) = .ok [3, 4] ∧
    valueEq double none .vector (.tag "vector" [] [coordTag "y" 4, coordTag "x" 3])
      (.tuple [.float 3, .float 4]) = .ok false := by
  constructor <;> decide +kernel

/-! ## C107: comparing transformations -/

theorem partsEq_all {F : Fl} {root : Option Attrs} {x : PV} (g : String × VCls × Node → Bool)
    (d : List (String × VCls × Node))
    (h : ∀ e ∈ d, ∃ a, partOf x e.1 = .ok a ∧ partEq F root a e.2.1 e.2.2 = .ok (g e)) :
    partsEq F root x d = .ok (d.all g) := by
  induction d with
  | nil => rfl
  | cons e d ih =>
    obtain ⟨k, c, v⟩ := e
    obtain ⟨a, h1, h2⟩ := h (k, c, v) (by simp)
    simp only at h1 h2
    cases hg : g (k, c, v) with
    | false => rw [hg] at h2; simp [partsEq, h1, h2, hg]
    | true =>
      rw [hg] at h2
      simp only [partsEq, h1, h2, List.all_cons, hg, Bool.true_and]
      exact ih fun e he => h e (by simp [he])

/-- The class of the part of a transformation with the given name. -/
def partCls (k : String) : VCls := (requiredKeys.lookup k).getD .angle

theorem partNode_class (F : Fl) (p : TransParts) :
    ∀ q ∈ p.dict, fromTag (partNode F q) = .ok (partCls q.1) ∧ (partNode F q).isTag = true := by
  intro q hq
  simp only [TransParts.dict, List.mem_cons, List.not_mem_nil, or_false] at hq
  rcases hq with rfl | rfl | rfl | rfl
  · exact ⟨fromTag_vec _ _, rfl⟩
  · exact ⟨fromTag_angle F _, rfl⟩
  · exact ⟨fromTag_angle F _, rfl⟩
  · exact ⟨fromTag_vec _ _, rfl⟩

theorem dict_keys_nodup (p : TransParts) {l : List (String × PV)} (hl : l.Perm p.dict) :
    (l.map Prod.fst).Nodup := by
  rw [(hl.map Prod.fst).nodup_iff]
  simp [TransParts.dict]

theorem compositeDict_set (F : Fl) (p : TransParts) {l : List (String × PV)} (hl : l.Perm p.dict)
    (nm : String) (a : Attrs) :
    compositeDict (.tag nm a (l.map fun q => .tag q.1 [] [partNode F q, .text ['\n']])) =
      .ok (l.map fun q => (q.1, partCls q.1, partNode F q)) := by
  have h0 : (l.map fun q => Node.tag q.1 [] [partNode F q, .text ['\n']]).filter Node.isTag =
      l.map fun q => Node.tag q.1 [] [partNode F q, .text ['\n']] := by
    rw [List.filter_eq_self]
    intro x hx
    obtain ⟨y, -, rfl⟩ := List.mem_map.1 hx
    rfl
  have hm : ∀ m : List (String × PV), m ⊆ p.dict →
      mapRes compositeField (m.map fun q => Node.tag q.1 [] [partNode F q, .text ['\n']]) =
        .ok (m.map fun q => (q.1, partCls q.1, partNode F q)) := by
    intro m hm
    induction m with
    | nil => rfl
    | cons q m ih =>
      obtain ⟨hc, ht⟩ := partNode_class F p q (hm (by simp))
      have hk : [partNode F q, .text ['\n']].filter Node.isTag = [partNode F q] := by
        rw [List.filter_cons_of_pos ht]; rfl
      have hq : q.1 ≠ "layer" := by
        have : q ∈ p.dict := hm (by simp)
        simp only [TransParts.dict, List.mem_cons, List.not_mem_nil, or_false] at this
        rcases this with rfl | rfl | rfl | rfl <;> simp
      simp only [List.map_cons, mapRes, compositeField, Node.name, Node.tagKids, Node.kids, hk, hc,
        if_neg hq, ih fun x hx => hm (by simp [hx])]
  have h1 := hm l (fun x hx => hl.mem_iff.1 hx)
  simp only [compositeDict, Node.tagKids, Node.kids, h0, h1]
  have hf := foldl_dictSet_nodup (l.map fun q => (q.1, partCls q.1, partNode F q)) []
    (by simpa [List.map_map, Function.comp_def] using dict_keys_nodup p hl)
  rw [List.nil_append] at hf
  rw [hf, if_pos]
  have hk : ∀ k : String, k ∈ l.map Prod.fst ↔ k ∈ p.dict.map Prod.fst :=
    fun k => (hl.map Prod.fst).mem_iff
  simp only [sameKeys, List.map_map, Function.comp_def, Bool.and_eq_true, List.all_eq_true,
    List.contains_iff_mem]
  have hd : p.dict.map Prod.fst = requiredKeys.map Prod.fst := rfl
  exact ⟨fun k h => by rw [← hd, ← hk]; exact h, fun k h => by rw [← hd, ← hk] at h; exact h⟩

/-- A coordinate as it reads back: to ten decimals. -/
def kept (F : Fl) (q : ℚ) : ℚ := F.rnd (dec 10 q)

/-- Two sets of parts which read back the same. -/
def ReadSame (F : Fl) (p p' : TransParts) : Prop :=
  p.angle = p'.angle ∧ p.skewAngle = p'.skewAngle ∧
  kept F p.offset.1 = kept F p'.offset.1 ∧ kept F p.offset.2 = kept F p'.offset.2 ∧
  kept F p.scale.1 = kept F p'.scale.1 ∧ kept F p.scale.2 = kept F p'.scale.2

theorem vecNode_dict (x y : ℚ) : vectorDict (vecNode x y) =
    [("x", some (fixed 10 x)), ("y", some (fixed 10 y))] := rfl

theorem vecNode_iter (F : Fl) (x y : ℚ) : vectorIter F (vecNode x y) = .ok [kept F x, kept F y] := by
  have h : (vecNode x y).name ≠ "animated" := by simp [vecNode, Node.name]
  simp only [vectorIter, vecNode_dict, if_neg h, mapRes, floatOpt,
    pyFloat_fixed F 10 (by norm_num) _, kept]

theorem vecNode_eq (F : Fl) (root root' : Option Attrs) (x y x' y' : ℚ) :
    plainEq F root .vector (vecNode x y) (.val .vector root' (vecNode x' y')) =
      .ok (decide (kept F x = kept F x' ∧ kept F y = kept F y')) := by
  simp [plainEq, vectorEqAny, vectorEq, vecNode_iter, vecNode_dict]

theorem vecNode_tuple (F : Fl) (root : Option Attrs) (x y x' y' : ℚ) :
    plainEq F root .vector (vecNode x y) (.tuple [.float x', .float y']) =
      .ok (decide (kept F x = x' ∧ kept F y = y')) := by
  simp [plainEq, vectorEqAny, vectorEqTuple, vecNode_iter, vecNode_dict, tupleEq, PV.number?,
    eq_comm]

theorem angleNode_eq {F : Fl} (hF : F.Lawful) (root root' : Option Attrs) (q q' : ℚ) (h : F.rep q)
    (h' : F.rep q') :
    plainEq F root .angle (angleNode F q) (.val .angle root' (angleNode F q')) =
      .ok (decide (q = q')) := by
  have h1 : ∀ q, F.rep q → getFloat F (angleNode F q) = .ok q := fun q h => pyFloat_reprF hF h
  simp [plainEq, angleEq, h1 q h, h1 q' h', eq_comm]

theorem angleNode_float {F : Fl} (hF : F.Lawful) (root : Option Attrs) (q q' : ℚ) (h : F.rep q) :
    plainEq F root .angle (angleNode F q) (.float q') = .ok (decide (q = q')) := by
  have h1 : ∀ q, F.rep q → getFloat F (angleNode F q) = .ok q := fun q h => pyFloat_reprF hF h
  simp [plainEq, angleEq, h1 q h, PV.toFloat, catchValue, eq_comm]

/-- Whether a part reads the same as the one with that name in the other. -/
def partSame (F : Fl) (p p' : TransParts) (k : String) : Bool :=
  if k = "offset" then kept F p'.offset.1 = kept F p.offset.1 ∧ kept F p'.offset.2 = kept F p.offset.2
  else if k = "scale" then kept F p'.scale.1 = kept F p.scale.1 ∧ kept F p'.scale.2 = kept F p.scale.2
  else if k = "angle" then p'.angle = p.angle
  else p'.skewAngle = p.skewAngle

/-- C107. Two transformations set to dicts (with the keys in any orders) are equal exactly if
their angles are the same, and their coordinates are the same to ten decimals. -/
theorem c107_transformations_eq {F : Fl} (hF : F.Lawful) (root root' : Option Attrs)
    (p p' : TransParts) (h1 : F.rep p.angle) (h2 : F.rep p.skewAngle) (h3 : F.rep p'.angle)
    (h4 : F.rep p'.skewAngle) (l l' : List (String × PV)) (hl : l.Perm p.dict)
    (hl' : l'.Perm p'.dict) (n n' : Node) (hn : n.isTag = true) (hn' : n'.isTag = true) :
    ∃ b, valueEq F root .composite (setValue F .composite (.dict l) n).1
        (.val .composite root' (setValue F .composite (.dict l') n').1) = .ok b ∧
      (b = true ↔ ReadSame F p p') := by
  cases n with
  | text t => simp [Node.isTag] at hn
  | tag nm a ks =>
  cases n' with
  | text t => simp [Node.isTag] at hn'
  | tag nm' a' ks' =>
  rw [setComposite_ok F p hl, setComposite_ok F p' hl']
  have hlen : ∀ (l : List (String × PV)) nm a, (Node.tag nm a (l.map fun q =>
      .tag q.1 [] [partNode F q, .text ['\n']])).tagKids.length = l.length := by
    intro l nm a
    induction l with
    | nil => rfl
    | cons q l ih =>
      simp only [Node.tagKids, Node.kids, List.map_cons] at ih ⊢
      rw [List.filter_cons_of_pos rfl, List.length_cons, ih, List.length_cons]
  refine ⟨l.all fun q => partSame F p p' q.1, ?_, ?_⟩
  · simp only [valueEq, compositeEq, hlen, compositeDict_set F p hl]
    have : l'.length = l.length := by rw [hl.length_eq, hl'.length_eq]; rfl
    simp only [this, ne_eq, not_true_eq_false, if_false]
    rw [partsEq_all (fun e => partSame F p p' e.1), List.all_map]
    · rfl
    · intro e he
      obtain ⟨q, hq, rfl⟩ := List.mem_map.1 he
      have hq' := hl.mem_iff.1 hq
      simp only [TransParts.dict, List.mem_cons, List.not_mem_nil, or_false] at hq'
      rcases hq' with rfl | rfl | rfl | rfl
      · have := compositeGet_ok F hl' nm' a' ("offset", .tuple [.float p'.offset.1, .float p'.offset.2])
          (by simp [TransParts.dict]) .vector (fromTag_vec _ _) rfl
        simp only [partOf, this]
        exact ⟨_, rfl, vecNode_eq F root' root _ _ _ _⟩
      · have := compositeGet_ok F hl' nm' a' ("angle", .float p'.angle)
          (by simp [TransParts.dict]) .angle (fromTag_angle F _) rfl
        simp only [partOf, this]
        exact ⟨_, rfl, angleNode_eq hF root' root _ _ h3 h1⟩
      · have := compositeGet_ok F hl' nm' a' ("skew_angle", .float p'.skewAngle)
          (by simp [TransParts.dict]) .angle (fromTag_angle F _) rfl
        simp only [partOf, this]
        exact ⟨_, rfl, angleNode_eq hF root' root _ _ h4 h2⟩
      · have := compositeGet_ok F hl' nm' a' ("scale", .tuple [.float p'.scale.1, .float p'.scale.2])
          (by simp [TransParts.dict]) .vector (fromTag_vec _ _) rfl
        simp only [partOf, this]
        exact ⟨_, rfl, vecNode_eq F root' root _ _ _ _⟩
  · have : l.all (fun q => partSame F p p' q.1) = p.dict.all (fun q => partSame F p p' q.1) :=
      hl.all_eq
    rw [this]
    simp only [TransParts.dict, List.all_cons, List.all_nil, partSame, ReadSame]
    simp only [if_true, Bool.and_eq_true, decide_eq_true_eq, String.reduceEq, if_false]
    constructor
    · rintro ⟨⟨h1, h2⟩, h3, h4, ⟨h5, h6⟩, -⟩
      exact ⟨h3.symm, h4.symm, h1.symm, h2.symm, h5.symm, h6.symm⟩
    · rintro ⟨h1, h2, h3, h4, h5, h6⟩
      exact ⟨⟨h3.symm, h4.symm⟩, h1.symm, h2.symm, ⟨h5.symm, h6.symm⟩, trivial⟩

/-- C107's hypotheses are met: equal to ten decimals, in another order. -/
example : ∃ n m : Node, n ≠ m ∧ ReadSame double (TransParts.mk (3, 4) (1/2) 0 (1, 2))
      (TransParts.mk (3 + 1 / 10 ^ 12, 4) (1/2) 0 (1, 2)) ∧
    valueEq double none .composite n (.val .composite none m) = .ok true :=
  ⟨(setValue double .composite (.dict (TransParts.mk (3, 4) (1/2) 0 (1, 2)).dict)
      (emptyTag .composite)).1,
    (setValue double .composite (.dict
      (TransParts.mk (3 + 1 / 10 ^ 12, 4) (1/2) 0 (1, 2)).dict.reverse) (emptyTag .composite)).1,
    by decide +kernel, by unfold ReadSame; decide +kernel, by decide +kernel⟩

/-- Whether a part is kept exactly. -/
def partKept (F : Fl) (p : TransParts) (k : String) : Bool :=
  if k = "offset" then kept F p.offset.1 = p.offset.1 ∧ kept F p.offset.2 = p.offset.2
  else if k = "scale" then kept F p.scale.1 = p.scale.1 ∧ kept F p.scale.2 = p.scale.2
  else true

/-- C107, violated: whether a transformation equals the dict it was set to. This is so exactly if
every coordinate is the float nearest to some decimal with ten places. -/
theorem c107_given_dict_iff {F : Fl} (hF : F.Lawful) (root : Option Attrs) (p : TransParts)
    (h1 : F.rep p.angle) (h2 : F.rep p.skewAngle) (l : List (String × PV)) (hl : l.Perm p.dict)
    (n : Node) (hn : n.isTag = true) :
    ∃ b, valueEq F root .composite (setValue F .composite (.dict l) n).1 (.dict l) = .ok b ∧
      (b = true ↔ ∀ x ∈ [p.offset.1, p.offset.2, p.scale.1, p.scale.2], x = F.rnd (dec 10 x)) := by
  cases n with
  | text t => simp [Node.isTag] at hn
  | tag nm a ks =>
  rw [setComposite_ok F p hl]
  have hlen : ∀ (l : List (String × PV)) nm a, (Node.tag nm a (l.map fun q =>
      .tag q.1 [] [partNode F q, .text ['\n']])).tagKids.length = l.length := by
    intro l nm a
    induction l with
    | nil => rfl
    | cons q l ih =>
      simp only [Node.tagKids, Node.kids, List.map_cons] at ih ⊢
      rw [List.filter_cons_of_pos rfl, List.length_cons, ih, List.length_cons]
  have hfind : ∀ q ∈ p.dict, l.lookup q.1 = some q.2 := fun q hq =>
    lookup_of_nodup (dict_keys_nodup p hl) (hl.mem_iff.2 hq)
  let g : String → Bool := partKept F p
  refine ⟨l.all fun q => g q.1, ?_, ?_⟩
  · simp only [valueEq, compositeEq, hlen, compositeDict_set F p hl]
    simp only [ne_eq, not_true_eq_false, if_false]
    rw [partsEq_all (fun e => g e.1), List.all_map]
    · rfl
    · intro e he
      obtain ⟨q, hq, rfl⟩ := List.mem_map.1 he
      have hq' := hl.mem_iff.1 hq
      have hf := hfind q hq'
      simp only [partOf, hf]
      refine ⟨_, rfl, ?_⟩
      simp only [TransParts.dict, List.mem_cons, List.not_mem_nil, or_false] at hq'
      rcases hq' with rfl | rfl | rfl | rfl
      · exact vecNode_tuple F root _ _ _ _
      · exact (angleNode_float hF root _ _ h1).trans (by simp [g, partKept])
      · exact (angleNode_float hF root _ _ h2).trans (by simp [g, partKept])
      · exact vecNode_tuple F root _ _ _ _
  · have : l.all (fun q => g q.1) = p.dict.all (fun q => g q.1) := hl.all_eq
    rw [this]
    simp only [TransParts.dict, List.all_cons, List.all_nil, g, partKept, if_true, Bool.and_eq_true,
      decide_eq_true_eq, String.reduceEq, if_false, List.mem_cons, List.not_mem_nil, or_false,
      forall_eq_or_imp, forall_eq, true_and, and_true]
    simp only [kept]
    constructor
    · rintro ⟨⟨h1, h2⟩, h3, h4⟩; exact ⟨h1.symm, h2.symm, h3.symm, h4.symm⟩
    · rintro ⟨h1, h2, h3, h4⟩; exact ⟨⟨h1.symm, h2.symm⟩, h3.symm, h4.symm⟩

/-- C107 violated, concretely. -/
example : valueEq double none .composite (setValue double .composite
      (.dict (TransParts.mk (double.rnd (1/3), 4) (1/2) 0 (1, 2)).dict) (emptyTag .composite)).1
    (.dict (TransParts.mk (double.rnd (1/3), 4) (1/2) 0 (1, 2)).dict) = .ok false := by
  decide +kernel

/-- C107, violated: comparing with a dict of four things, one of which isn't a part of a
transformation, raises `KeyError`. (Here: nothing is in the dict under any of the names.) -/
theorem c107_wrong_keys_raise {F : Fl} (root : Option Attrs) (p : TransParts)
    (l : List (String × PV)) (hl : l.Perm p.dict) (n : Node) (hn : n.isTag = true)
    (d : List (String × PV)) (hd : d.length = 4)
    (hk : ∀ k ∈ d.map Prod.fst, k ∉ ["offset", "angle", "skew_angle", "scale"]) :
    valueEq F root .composite (setValue F .composite (.dict l) n).1 (.dict d) = .error .key := by
  cases n with
  | text t => simp [Node.isTag] at hn
  | tag nm a ks =>
  rw [setComposite_ok F p hl]
  have hlen : ∀ (l : List (String × PV)) nm a, (Node.tag nm a (l.map fun q =>
      .tag q.1 [] [partNode F q, .text ['\n']])).tagKids.length = l.length := by
    intro l nm a
    induction l with
    | nil => rfl
    | cons q l ih =>
      simp only [Node.tagKids, Node.kids, List.map_cons] at ih ⊢
      rw [List.filter_cons_of_pos rfl, List.length_cons, ih, List.length_cons]
  have hl4 : l.length = 4 := hl.length_eq
  simp only [valueEq, compositeEq, hlen, compositeDict_set F p hl, hd, hl4]
  simp only [ne_eq, not_true_eq_false, if_false]
  match l, hl4, hl with
  | q :: l, _, hl =>
    have hq : q.1 ∈ ["offset", "angle", "skew_angle", "scale"] := by
      have := hl.mem_iff.1 (List.mem_cons_self (a := q) (l := l))
      simp only [TransParts.dict, List.mem_cons, List.not_mem_nil, or_false] at this
      rcases this with rfl | rfl | rfl | rfl <;> simp
    have hnone : d.lookup q.1 = none := by
      rw [List.lookup_eq_none_iff]
      intro r hr
      have := hk r.1 (List.mem_map.2 ⟨r, hr, rfl⟩)
      rw [bne_iff_ne]
      rintro he
      exact this (he ▸ hq)
    simp only [List.map_cons, partsEq, partOf, hnone]

/-- C107's last: such a dict. -/
example : ∀ k ∈ [("a", PV.int 1), ("b", .int 2), ("c", .int 3), ("d", .int 4)].map Prod.fst,
    k ∉ ["offset", "angle", "skew_angle", "scale"] := by simp

end Sang
