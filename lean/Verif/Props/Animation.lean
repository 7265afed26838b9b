import Verif.Animation
import Verif.Spec.Animation
import Verif.Spec.Layers
import Verif.Props.Time
import Verif.Props.Colors
import Verif.Props.Layers
import Verif.Lemmas.Reload
import Verif.Lemmas.Repr
import Mathlib.Order.Interval.Finset.Nat

/-! # The header and keyframes of an animation: C60, C61, C85-C90 -/

namespace Sang
open Spec

/-! ## C86: any part of an animation will do as a ref -/

/-- What `_canvas_root` sees: names and attributes of elements around, with the document last. -/
def withDocument (anc : List Node) : List (String × Attrs) :=
  anc.map (fun x => (x.name, x.attrs)) ++ [("[document]", [])]

theorem inside_last {root x : Node} {anc : List Node} (h : Inside root anc x) :
    (x :: anc).getLast? = some root := by
  induction h with
  | root => rfl
  | kid _ _ ih => rw [List.getLast?_cons_cons]; exact ih

/-- C86. For every element of an animation, however deep, the root that `T` finds is the animation's;
so every time made with it as a ref is the same as with the animation itself. -/
theorem c86_any_element_as_ref (F : Fl) (root x : Node) (anc : List Node) (v : TArg)
    (h : Inside root anc x) (hroot : root.name = "canvas") :
    canvasRoot (x.name, x.attrs) (withDocument anc) = some root.attrs ∧
    T.new F (canvasRoot (x.name, x.attrs) (withDocument anc)) v = T.new F (animRoot root) v := by
  have key : canvasRoot (x.name, x.attrs) (withDocument anc) = some root.attrs := by
    have hl := inside_last h
    cases anc with
    | nil =>
      simp at hl
      subst hl
      simp [canvasRoot, withDocument, hroot]
    | cons y r =>
      rw [List.getLast?_cons_cons] at hl
      have : ((y :: r).map fun x => (x.name, x.attrs)).getLast? = some (root.name, root.attrs) := by
        rw [List.getLast?_map, hl]; rfl
      have e : withDocument (y :: r) = (y.name, y.attrs) :: (withDocument r) := rfl
      have hne : withDocument r ≠ [] := by simp [withDocument]
      have hd : (withDocument (y :: r)).dropLast = (y :: r).map fun x => (x.name, x.attrs) := by
        simp only [withDocument]
        rw [List.dropLast_concat]
      have : (withDocument (y :: r)).dropLast.getLast? = some (root.name, root.attrs) := by
        rw [hd, this]
      rw [e] at this ⊢
      cases hw : withDocument r with
      | nil => exact absurd hw hne
      | cons z t =>
        rw [hw] at this
        simp only [canvasRoot, this]
        simp [hroot]
  refine ⟨key, ?_⟩
  rw [key]
  simp [animRoot, canvasRoot, hroot]

/-- C86. And if the root isn't a `<canvas>`, no element of the document finds one. -/
theorem c86_no_canvas_no_root (root x : Node) (anc : List Node) (h : Inside root anc x)
    (hroot : root.name ≠ "canvas") :
    canvasRoot (x.name, x.attrs) (withDocument anc) = none := by
  have hl := inside_last h
  cases anc with
  | nil =>
    simp at hl
    subst hl
    simp [canvasRoot, withDocument, hroot]
  | cons y r =>
    rw [List.getLast?_cons_cons] at hl
    have h1 : ((y :: r).map fun x => (x.name, x.attrs)).getLast? = some (root.name, root.attrs) := by
      rw [List.getLast?_map, hl]; rfl
    have hd : (withDocument (y :: r)).dropLast = (y :: r).map fun x => (x.name, x.attrs) := by
      simp only [withDocument]
      rw [List.dropLast_concat]
    have this : (withDocument (y :: r)).dropLast.getLast? = some (root.name, root.attrs) := by
      rw [hd, h1]
    have e : withDocument (y :: r) = (y.name, y.attrs) :: (withDocument r) := rfl
    have hne : withDocument r ≠ [] := by simp [withDocument]
    rw [e] at this ⊢
    cases hw : withDocument r with
    | nil => exact absurd hw hne
    | cons z t =>
      rw [hw] at this
      simp only [canvasRoot, this]
      simp [hroot]

/-- C86. A tag which isn't in a document has no root. -/
theorem c86_loose_tag (self : String × Attrs) : canvasRoot self [] = none := rfl

/-- An animation to try things on. -/
def exAnim : Node :=
  .tag "canvas" [("width", .str "480".toList), ("height", .str "270".toList),
      ("gamma-r", .str "0.980000".toList),
      ("view-box", .str "-4.000000 2.250000 4.000000 -2.250000".toList),
      ("fps", .str "24.000".toList), ("begin-time", .str "0f".toList), ("end-time", .str "3s".toList),
      ("bgcolor", .str "0.500000 0.500000 0.500000 1.000000".toList)]
    [.text ['\n'], .tag "name" [] [.text "Circles".toList], .tag "desc" [] [.text "old".toList],
     .tag "keyframe" [("time", .str "0f".toList), ("active", .str "true".toList)]
       [.text "start".toList],
     .tag "layer" [("type", .str "group".toList)]
       [.tag "keyframe" [("time", .str "1s 12f".toList), ("active", .str "false".toList)] []]]

/-- C86's hypotheses are met: a keyframe inside a layer is two levels down. -/
example : ∃ x y, Inside exAnim [y, exAnim] x ∧ x.name = "keyframe" ∧ exAnim.name = "canvas" :=
  ⟨_, _, .kid (.kid .root (by simp only [exAnim, Node.kids]; right; right; right; right; exact .head _))
    (.head _), rfl, rfl⟩

/-! ## C60: the times of the header -/

/-- C60, what holds. `begin_time` is the time that the header's `begin-time` means. Missing: `end_time`,
for which it fails (`c60_end_time_fails`). -/
theorem c60_begin_time_partial (F : Fl) (n : Node) (s : Str) (hn : n.name = "canvas")
    (hs : n.attrs.get "begin-time" = some (.str s)) :
    beginTime F n = T.new F (some n.attrs) (.str s) := by
  simp [beginTime, hs, AttrV.toTArg, animRoot, canvasRoot, hn]

/-- C60, where it fails. In a file written by Synfig (which has no attribute called `end_time`)
`end_time` is five seconds, whatever the header's `end-time` says. -/
theorem c60_end_time_ignores_header (F : Fl) (n : Node) (hn : n.name = "canvas")
    (h : n.attrs.get "end_time" = none) :
    endTime F n = T.new F (some n.attrs) (.str "5s".toList) := by
  simp [endTime, h, animRoot, canvasRoot, hn]


theorem whole_seconds {F : Fl} (hF : F.Lawful) (root : Attrs) (r k : ℕ) (hr : 1 ≤ r)
    (hroot : HasFps F root r) (hb : k * r ≤ 2 ^ 53) :
    T.new F (some root) (.str (natStr k ++ ['s'])) = .ok ⟨k * r, some (r:ℚ)⟩ := by
  have hv : Amount.value ⟨false, natStr k, []⟩ = (k:ℚ) := by
    rw [natAmount_value]; simp
  have h := c07_whole_spec_value hF root r hr hroot [⟨[], ⟨false, natStr k, []⟩, .s⟩] []
    (by
      intro p hp
      rw [List.mem_singleton] at hp
      subst hp
      exact ⟨by simp, natAmount_valid false k⟩)
    (by simp) (by simp [Distinct]) 0 0 k 0 (by simp [amount]) (by simp [amount])
    (by simp [amount, hv]) (by simp [amount])
    (by
      simp only [zero_mul, abs_zero, zero_add, add_zero]
      rw [abs_of_nonneg (by positivity)]
      exact_mod_cast hb)
    (Or.inr (le_refl _))
  have e : specText [⟨[], ⟨false, natStr k, []⟩, .s⟩] [] = natStr k ++ ['s'] := by
    simp [specText, Amount.text, TimeUnit.char]
  have f : frames r [⟨[], ⟨false, natStr k, []⟩, .s⟩] = k * r := by
    simp [frames, seconds, amount, hv]
  rw [e, f] at h
  exact h

/-- C60 is false: at any whole frame rate, a file of any whole number of seconds but five reports the
wrong end. -/
theorem c60_end_time_fails {F : Fl} (hF : F.Lawful) (n : Node) (hn : n.name = "canvas") (r k : ℕ)
    (hr : 1 ≤ r) (hk : k ≠ 5) (hb : k * r ≤ 2 ^ 53) (hb' : 5 * r ≤ 2 ^ 53) (hfps : HasFps F n.attrs r)
    (h : n.attrs.get "end_time" = none)
    (_hs : n.attrs.get "end-time" = some (.str (natStr k ++ ['s']))) :
    endTime F n = .ok ⟨5 * r, some (r:ℚ)⟩ ∧
    T.new F (some n.attrs) (.str (natStr k ++ ['s'])) = .ok ⟨k * r, some (r:ℚ)⟩ ∧
    (k * r : ℚ) ≠ 5 * r := by
  have h1 := whole_seconds hF n.attrs r 5 hr hfps hb'
  have h2 := whole_seconds hF n.attrs r k hr hfps hb
  have hr' : (0:ℚ) < r := by exact_mod_cast hr
  refine ⟨?_, h2, ?_⟩
  · rw [c60_end_time_ignores_header F n hn h]; exact_mod_cast h1
  · intro e
    have : (k:ℚ) = 5 := mul_right_cancel₀ hr'.ne' e
    exact hk (by exact_mod_cast this)

/-- The hypotheses of C60 are met: the example is three seconds long. -/
example : endTime double exAnim = .ok ⟨120, some 24⟩ ∧ beginTime double exAnim = .ok ⟨0, some 24⟩ ∧
    T.new double (some exAnim.attrs) (.str "3s".toList) = .ok ⟨72, some 24⟩ := by
  refine ⟨?_, by decide +kernel, ?_⟩
  all_goals
    have := c60_end_time_fails double_lawful exAnim rfl 24 3 (by norm_num) (by norm_num) (by norm_num)
      (by norm_num) ⟨_, rfl, by decide +kernel⟩ rfl rfl
    norm_num at this
  · exact this.1
  · exact this.2

/-! ## C61: keyframes -/

mutual
theorem eltsNamed_eq (s : String) (hs : s ≠ "") (n : Node) :
    (n.subtree.filter Node.isTag).filter (fun x => x.name = s) = eltsNamed s n := by
  match n with
  | .text t => rfl
  | .tag nm a ks =>
    have ih := eltsNamedIn_eq s hs ks
    rw [subtree_tag, List.filter_cons_of_pos rfl, eltsNamed, ← ih]
    by_cases h : nm = s
    · rw [if_pos h, List.filter_cons_of_pos (by simp [Node.name, h])]; rfl
    · rw [if_neg h, List.filter_cons_of_neg (by simp [Node.name, h])]; rfl

theorem eltsNamedIn_eq (s : String) (hs : s ≠ "") (l : List Node) :
    ((Node.nodesIn l).filter Node.isTag).filter (fun x => x.name = s) = eltsNamedIn s l := by
  match l with
  | [] => rfl
  | x :: r =>
    rw [nodesIn_cons, List.filter_append, List.filter_append, eltsNamed_eq s hs x,
      eltsNamedIn_eq s hs r, eltsNamedIn]
end

mutual
theorem keyframesOf_elt (ps : List (String × Attrs)) (n : Node) :
    (keyframesOf ps n).map Keyframe.elt = eltsNamed "keyframe" n := by
  match n with
  | .text t => rfl
  | .tag nm a ks =>
    rw [keyframesOf, eltsNamed, List.map_append, keyframesIn_elt]
    by_cases h : nm = "keyframe" <;> simp [h]

theorem keyframesIn_elt (ps : List (String × Attrs)) (l : List Node) :
    (keyframesIn ps l).map Keyframe.elt = eltsNamedIn "keyframe" l := by
  match l with
  | [] => rfl
  | x :: r => rw [keyframesIn, eltsNamedIn, List.map_append, keyframesOf_elt, keyframesIn_elt]
end

mutual
theorem keyframesOf_inside (root : Node) (anc : List Node) (n : Node) (h : Inside root anc n)
    (k : Keyframe) (hk : k ∈ keyframesOf (withDocument anc) n) :
    ∃ anc', Inside root anc' k.elt ∧ k.parents = withDocument anc' := by
  match n, h with
  | .text t, _ => simp [keyframesOf] at hk
  | .tag nm a ks, h =>
    rw [keyframesOf, List.mem_append] at hk
    rcases hk with hk | hk
    · by_cases e : nm = "keyframe"
      · simp only [if_pos e, List.mem_singleton] at hk
        subst hk
        exact ⟨anc, h, rfl⟩
      · simp [if_neg e] at hk
    · exact keyframesIn_inside root (.tag nm a ks :: anc) ks (fun x hx => .kid h hx) k hk

theorem keyframesIn_inside (root : Node) (anc : List Node) (l : List Node)
    (h : ∀ x ∈ l, Inside root anc x) (k : Keyframe) (hk : k ∈ keyframesIn (withDocument anc) l) :
    ∃ anc', Inside root anc' k.elt ∧ k.parents = withDocument anc' := by
  match l, h with
  | [], _ => simp [keyframesIn] at hk
  | x :: r, h =>
    rw [keyframesIn, List.mem_append] at hk
    rcases hk with hk | hk
    · exact keyframesOf_inside root anc x (h x (by simp)) k hk
    · exact keyframesIn_inside root anc r (fun y hy => h y (by simp [hy])) k hk
end

/-- C61. The keyframes are the `<keyframe>` elements below the root, at any depth, each once and in
document order; and `len` counts them. -/
theorem c61_keyframes_in_order (n : Node) :
    (keyframes n).map Keyframe.elt = eltsNamedIn "keyframe" n.kids ∧
    keyframesLen n = (keyframes n).length := by
  have h := keyframesIn_elt [(n.name, n.attrs), ("[document]", [])] n.kids
  refine ⟨h, ?_⟩
  rw [keyframesLen, Node.findAll, Node.descTags, eltsNamedIn_eq _ (by decide), ← h, List.length_map,
    keyframes]

/-- C61. Each keyframe's time is what its `time` attribute means in this animation; its name is all the
text in it; and it is active exactly if its `active` attribute is "true". -/
theorem c61_keyframe_contents (F : Fl) (n : Node) (hn : n.name = "canvas") (k : Keyframe)
    (hk : k ∈ keyframes n) (t a : Str) (ht : k.elt.attrs.get "time" = some (.str t))
    (ha : k.elt.attrs.get "active" = some (.str a)) :
    k.time F = T.new F (some n.attrs) (.str t) ∧ k.active = .ok (decide (a = "true".toList)) ∧
    k.name = k.elt.allText := by
  refine ⟨?_, ?_, rfl⟩
  · obtain ⟨anc, h1, h2⟩ := keyframesIn_inside n [n] n.kids (fun x hx => .kid .root hx) k hk
    rw [Keyframe.time, ht, h2, (c86_any_element_as_ref F n k.elt anc (.str t) h1 hn).1]
    rfl
  · rw [Keyframe.active, ha]
    by_cases e : a = "true".toList <;> simp [e]

/-- C61. A keyframe without a time or without an active flag raises `KeyError` when asked for it. -/
theorem c61_missing_attributes (F : Fl) (k : Keyframe) :
    (k.elt.attrs.get "time" = none → k.time F = .error .key) ∧
    (k.elt.attrs.get "active" = none → k.active = .error .key) :=
  ⟨fun h => by rw [Keyframe.time, h], fun h => by rw [Keyframe.active, h]⟩

/-- C61. A keyframe shown as text is its time, its name and, unless it is active, a note of that. -/
theorem c61_keyframe_text (F : Fl) (repr : ReprStr) (n : Node) (hn : n.name = "canvas") (k : Keyframe)
    (hk : k ∈ keyframes n) (t a : Str) (v : T) (ht : k.elt.attrs.get "time" = some (.str t))
    (ha : k.elt.attrs.get "active" = some (.str a)) (hv : T.new F (some n.attrs) (.str t) = .ok v) :
    (a = "true".toList → k.str F repr = .ok (v.str F ++ " ".toList ++ repr k.elt.allText)) ∧
    (a ≠ "true".toList → k.str F repr =
      .ok (v.str F ++ " ".toList ++ repr k.elt.allText ++ " (inactive)".toList)) := by
  obtain ⟨h1, h2, -⟩ := c61_keyframe_contents F n hn k hk t a ht ha
  constructor
  · intro h
    rw [Keyframe.str, h2, h1, hv]
    simp only [h, decide_true, if_true, List.append_nil]
    rfl
  · intro h
    rw [Keyframe.str, h2, h1, hv]
    simp only [h, decide_false, Bool.false_eq_true, if_false]
    rfl

/-- The hypotheses of C61 are met: the example's second keyframe is in a layer. -/
example : (keyframes exAnim).map (fun k => (k.time double, k.active, k.name)) =
    [(.ok ⟨0, some 24⟩, .ok true, "start".toList), (.ok ⟨36, some 24⟩, .ok false, [])] := by
  decide +kernel

/-! ## C85, C87: the fields of the header -/

/-- What the text of a header attribute denotes, as a value of a field's type. -/
def HeaderText (F : Fl) (t : HType) (s : Str) (v : HVal) : Prop :=
  match t, v with
  | .float, .float q => pyFloat F s = .ok q
  | .int, .int i => pyInt s = .ok i
  | .str, .str u => u = s
  | _, _ => False

theorem getHeader_text {F : Fl} {f : HField} {n : Node} {s : Str} {v : HVal}
    (hs : n.attrs.get f.name = some (.str s)) (hv : HeaderText F f.type s v) : getHeader F f n = .ok v := by
  rw [getHeader, hs]
  cases hf : f.type <;> cases v <;> simp only [HeaderText, hf] at hv <;>
    simp [HType.read, AttrV.toFloat, AttrV.toInt, AttrV.str', hv]

/-- C85, what holds. Each field of the header, other than those whose Synfig name has a hyphen, is what
the attribute in the file says. Missing: those four, for which it fails (`c85_header_fields_fail`). -/
theorem c85_header_fields_partial (F : Fl) (f : HField) (hf : f ∈ headerFields)
    (hh : f.name ∉ hyphenated) (n : Node) (k : String) (hk : synfigName.lookup f.name = some k) (s : Str)
    (hs : n.attrs.get k = some (.str s)) (v : HVal) (hv : HeaderText F f.type s v) :
    getHeader F f n = .ok v := by
  have : ∀ f ∈ headerFields, f.name ∉ hyphenated → synfigName.lookup f.name = some f.name := by
    decide +kernel
  rw [this f hf hh] at hk
  injection hk with hk
  subst hk
  exact getHeader_text hs hv

/-- C85, where it fails. In a file written by Synfig the three gammas and the view box are always the
defaults, whatever the file says. -/
theorem c85_header_fields_fail (F : Fl) (f : HField) (hh : f.name ∈ hyphenated) (n : Node) (hn : ∀ p ∈ n.attrs, p.1 ∈ synfigName.map Prod.snd ∨ p.1 ∈ ["begin-time", "end-time"]) :
    getHeader F f n = .ok f.dflt := by
  have key : ∀ s ∈ hyphenated, s ∉ synfigName.map Prod.snd ∧ s ∉ ["begin-time", "end-time"] := by
    decide +kernel
  have : n.attrs.get f.name = none := by
    rw [Attrs.get, List.lookup_eq_none_iff]
    intro p hp
    have h1 := hn p hp
    have h2 := key f.name hh
    simp only [bne_iff_ne, ne_eq]
    intro e
    rw [← e] at h1
    rcases h1 with h1 | h1
    · exact h2.1 h1
    · exact h2.2 h1
  rw [getHeader, this]

/-- A default as a Python object: for a decimal number, the nearest float. -/
def HeaderDefault.value : HeaderDefault → HVal
  | .whole i => .int i
  | .decimal q => .float (double.rnd q)
  | .text s => .str s

/-- The type of the field that has it. -/
def HeaderDefault.type : HeaderDefault → HType
  | .whole _ => .int
  | .decimal _ => .float
  | .text _ => .str

/-- C85. The fields are those that the documentation gives, with their types; and where a file doesn't
give one, it is the default. -/
theorem c85_defaults (F : Fl) :
    headerFields.map HField.name = headerDefaults.map Prod.fst ∧
    ∀ f ∈ headerFields, ∃ d, headerDefaults.lookup f.name = some d ∧ f.type = HeaderDefault.type d ∧
      ∀ n : Node, n.attrs.get f.name = none → getHeader F f n = .ok (HeaderDefault.value d) := by
  have key : ∀ f ∈ headerFields, ∃ d ∈ headerDefaults.map Prod.snd,
      headerDefaults.lookup f.name = some d ∧ f.type = HeaderDefault.type d ∧
      HeaderDefault.value d = f.dflt := by decide +kernel
  refine ⟨by decide +kernel, fun f hf => ?_⟩
  obtain ⟨d, -, h1, h2, h3⟩ := key f hf
  refine ⟨d, h1, h2, fun n hn => ?_⟩
  rw [getHeader, hn, h3]

/-- C85 is false: here `gamma_r` is 1 although the file says 0.98. -/
theorem c85_gamma_wrong : ∃ f ∈ headerFields, f.name = "gamma_r" ∧
    synfigName.lookup f.name = some "gamma-r" ∧
    exAnim.attrs.get "gamma-r" = some (.str "0.980000".toList) ∧
    getHeader double f exAnim = .ok (.float 1) :=
  ⟨⟨"gamma_r", .float, .float 1⟩, by simp [headerFields], rfl, by decide +kernel, by decide +kernel,
    by decide +kernel⟩

/-- The hypotheses of C85 are met: the width of the example is 480. -/
example : getHeader double ⟨"width", .int, .int 480⟩ exAnim = .ok (.int 480) :=
  c85_header_fields_partial double _ (by simp [headerFields]) (by decide) exAnim "width"
    (by decide +kernel) "480".toList (by decide +kernel) _ (by show pyInt _ = _; decide +kernel)

/-- A value that a header field can take: a float, a whole number, or text without tabs and line
breaks (which XML doesn't keep in attributes). -/
def Settable (F : Fl) (t : HType) (v : HVal) : Prop :=
  match t, v with
  | .float, .float q => F.rep q
  | .int, .int _ => True
  | .str, .str s => Plain s
  | _, _ => False

/-- As a Python object. -/
def HVal.pv : HVal → PV
  | .float q => .float q
  | .int i => .int i
  | .str s => .str s

theorem numCh_plain {s : Str} (h : ∀ c ∈ s, numCh c = true) : Plain s := by
  intro c hc
  have := h c hc
  refine ⟨?_, ?_, ?_⟩ <;> rintro rfl <;> revert this <;> decide

theorem reprF_numCh (F : Fl) (q : ℚ) : ∀ c ∈ reprF F q, numCh c = true := by
  intro c hc
  rw [reprF] at hc
  split at hc
  · revert c; decide
  · split at hc
    · rcases List.mem_cons.1 hc with rfl | hc
      · decide
      · exact reprPos_numCh F _ c hc
    · exact reprPos_numCh F _ c hc

theorem intStr_numCh (i : ℤ) : ∀ c ∈ intStr i, numCh c = true := by
  intro c hc
  rw [intStr] at hc
  split at hc
  · rcases List.mem_cons.1 hc with rfl | hc
    · decide
    · exact numCh_of_isDig (natStr_digits _ c hc)
  · exact numCh_of_isDig (natStr_digits _ c hc)

/-- C87. After `animation.f = v`, `animation.f` is `v`, straight away and after saving and loading again;
no other attribute and nothing inside the document changes. -/
theorem c87_header_roundtrip {F : Fl} (hF : F.Lawful) (f : HField) (v : HVal)
    (hv : Settable F f.type v) (n : Node) (hn : n.isTag = true) :
    (setHeader F f v.pv n).2 = .ok () ∧
    getHeader F f (setHeader F f v.pv n).1 = .ok v ∧
    getHeader F f ((setHeader F f v.pv n).1.reload F) = .ok v ∧
    OnlyAttr f.name n (setHeader F f v.pv n).1 := by
  obtain ⟨nm, ty, d⟩ := f
  cases ty <;> cases v <;> simp only [Settable] at hv
  · rename_i q
    have e : setHeader F ⟨nm, .float, d⟩ (HVal.float q).pv n = (n.setAttr nm (.num q), .ok ()) := rfl
    rw [e]
    refine ⟨rfl, ?_, ?_, setAttr_only n hn nm _⟩
    · rw [getHeader, get_setAttr n hn, if_pos rfl]
      simp only [HType.read, AttrV.toFloat]
      rw [hv]
    · rw [getHeader, reload_get, get_setAttr n hn, if_pos rfl]
      simp only [Option.map_some, HType.read, AttrV.toFloat, AttrV.str']
      rw [attrSpaces_id (numCh_plain (reprF_numCh F q)), pyFloat_reprF hF hv]
  · rename_i i
    have e : setHeader F ⟨nm, .int, d⟩ (HVal.int i).pv n = (n.setAttr nm (.int i), .ok ()) := rfl
    rw [e]
    refine ⟨rfl, ?_, ?_, setAttr_only n hn nm _⟩
    · rw [getHeader, get_setAttr n hn, if_pos rfl]; rfl
    · rw [getHeader, reload_get, get_setAttr n hn, if_pos rfl]
      simp only [Option.map_some, HType.read, AttrV.toInt, AttrV.str']
      rw [attrSpaces_id (numCh_plain (intStr_numCh i)), pyInt_intStr]
  · rename_i s
    have e : setHeader F ⟨nm, .str, d⟩ (HVal.str s).pv n = (n.setAttr nm (.str s), .ok ()) := rfl
    rw [e]
    refine ⟨rfl, ?_, ?_, setAttr_only n hn nm _⟩
    · rw [getHeader, get_setAttr n hn, if_pos rfl]; rfl
    · rw [getHeader, reload_get, get_setAttr n hn, if_pos rfl]
      simp only [Option.map_some, HType.read, AttrV.str']
      rw [attrSpaces_id hv]

/-- C87. What a field's type refuses leaves the document as it was. -/
theorem c87_refused (F : Fl) (f : HField) (v : PV) (n : Node) (e : Err)
    (h : (setHeader F f v n).2 = .error e) : (setHeader F f v n).1 = n := by
  rw [setHeader] at h ⊢
  split at h <;> simp_all

/-- C87. Setting `fps` sets the rate at which times of this animation are reckoned. -/
theorem c87_fps_takes_effect {F : Fl} (n : Node) (hn : n.isTag = true) (hc : n.name = "canvas")
    (d : HVal) (q : ℚ) (hq : F.rep q) (t : TArg) (v : T)
    (hv : T.new F (animRoot (setHeader F ⟨"fps", .float, d⟩ (.float q) n).1) t = .ok v) :
    v.fps = some q ∧ 0 < q := by
  have e : setHeader F ⟨"fps", .float, d⟩ (.float q) n = (n.setAttr "fps" (.num q), .ok ()) := rfl
  rw [e] at hv
  have hr : animRoot (n.setAttr "fps" (.num q)) = some (n.setAttr "fps" (.num q)).attrs := by
    simp [animRoot, canvasRoot, (setAttr_rest n "fps" (.num q)).1, hc]
  simp only [hr, T.new, readFps] at hv
  rw [get_setAttr n hn, if_pos rfl] at hv
  simp only [AttrV.toFloat] at hv
  rw [hq] at hv
  by_cases h0 : q ≤ 0
  · simp [h0] at hv
  · simp only [h0, if_false] at hv
    refine ⟨?_, not_le.1 h0⟩
    split at hv
    · cases hv
    · injection hv with hv; rw [← hv]

/-- C87's hypotheses are met: the width can be set to 640. -/
example : Settable double .int (.int 640) ∧ Settable double .float (.float 30) ∧
    getHeader double ⟨"fps", .float, .float 24⟩
      ((setHeader double ⟨"fps", .float, .float 24⟩ (.float 30) exAnim).1.reload double) =
      .ok (.float 30) :=
  ⟨trivial, by show double.rnd 30 = 30; decide +kernel, by decide +kernel⟩

/-! ## C88: size, view box and background -/

/-- C88. `size` is the width and height in the file. -/
theorem c88_size (n : Node) (w h : Str) (i j : ℤ) (hw : n.attrs.get "width" = some (.str w))
    (hh : n.attrs.get "height" = some (.str h)) (hi : pyInt w = .ok i) (hj : pyInt h = .ok j) :
    animSize n = .ok (i, j) := by
  simp [animSize, intAttr, hw, hh, AttrV.toInt, hi, hj]

/-- C88. And it follows the fields `width` and `height` when they are set. -/
theorem c88_size_follows_fields (F : Fl) (n : Node) (hn : n.isTag = true) (d d' : HVal) (i j : ℤ) :
    animSize (setHeader F ⟨"height", .int, d'⟩ (.int j)
      (setHeader F ⟨"width", .int, d⟩ (.int i) n).1).1 = .ok (i, j) := by
  have e1 : (setHeader F ⟨"width", .int, d⟩ (.int i) n).1 = n.setAttr "width" (.int i) := rfl
  have e2 : ∀ m, (setHeader F ⟨"height", .int, d'⟩ (.int j) m).1 = m.setAttr "height" (.int j) :=
    fun _ => rfl
  rw [e1, e2]
  have hn' : (n.setAttr "width" (.int i)).isTag = true := by cases n <;> simp_all [Node.isTag, Node.setAttr]
  rw [animSize, intAttr, intAttr, get_setAttr _ hn', get_setAttr _ hn', get_setAttr _ hn]
  simp [AttrV.toInt]

theorem splitSpaces_word (acc w : Str) (hw : ' ' ∉ w) (r : Str) :
    splitSpaces acc (w ++ ' ' :: r) = (acc.reverse ++ w) :: splitSpaces [] r := by
  induction w generalizing acc with
  | nil => simp [splitSpaces]
  | cons c w ih =>
    have hc : c ≠ ' ' := fun e => hw (by simp [e])
    rw [List.cons_append, splitSpaces, if_neg hc, ih (c :: acc) fun h => hw (by simp [h])]
    simp

theorem splitSpaces_last (acc w : Str) (hw : ' ' ∉ w) : splitSpaces acc w = [acc.reverse ++ w] := by
  induction w generalizing acc with
  | nil => simp [splitSpaces]
  | cons c w ih =>
    have hc : c ≠ ' ' := fun e => hw (by simp [e])
    rw [splitSpaces, if_neg hc, ih (c :: acc) fun h => hw (by simp [h])]
    simp

theorem splitSpaces_spaced (ws : List Str) (hne : ws ≠ []) (h : ∀ w ∈ ws, ' ' ∉ w) :
    splitSpaces [] (spaced ws) = ws := by
  match ws, hne, h with
  | [w], _, h => rw [spaced, splitSpaces_last _ _ (h w (by simp))]; rfl
  | w :: v :: r, _, h =>
    rw [spaced, splitSpaces_word _ _ (h w (by simp)), splitSpaces_spaced (v :: r) (by simp)
      fun x hx => h x (by simp [hx])]
    rfl

theorem mapRes_forall2 {α β : Type} {f : α → Res β} {xs : List α} {ys : List β}
    (h : List.Forall₂ (fun x y => f x = .ok y) xs ys) : mapRes f xs = .ok ys := by
  induction h with
  | nil => rfl
  | cons h1 _ ih => simp [mapRes, h1, ih]

theorem floatsAttr_spaced (F : Fl) (n : Node) (k : String) (ws : List Str) (qs : List ℚ)
    (hne : ws ≠ []) (hsp : ∀ w ∈ ws, ' ' ∉ w) (ha : n.attrs.get k = some (.str (spaced ws)))
    (hq : List.Forall₂ (fun w q => pyFloat F w = .ok q) ws qs) : floatsAttr F n k = .ok qs := by
  rw [floatsAttr, ha]
  simp only
  rw [splitSpaces_spaced ws hne hsp, mapRes_forall2 hq]

/-- C88. `viewbox` is the numbers in the file's `view-box`, in order. -/
theorem c88_viewbox (F : Fl) (n : Node) (ws : List Str) (qs : List ℚ)
    (hne : ws ≠ []) (hsp : ∀ w ∈ ws, ' ' ∉ w) (ha : n.attrs.get "view-box" = some (.str (spaced ws)))
    (hq : List.Forall₂ (fun w q => pyFloat F w = .ok q) ws qs) : viewbox F n = .ok qs :=
  floatsAttr_spaced F n "view-box" ws qs hne hsp ha hq

/-- C88. `background` is a colour whose components are the numbers in the file's `bgcolor`, to six
decimals. -/
theorem c88_background {F : Fl} (hF : F.Lawful) (n : Node) (w1 w2 w3 w4 : Str) (r g b a : ℚ)
    (hsp : ∀ w ∈ [w1, w2, w3, w4], ' ' ∉ w)
    (ha : n.attrs.get "bgcolor" = some (.str (spaced [w1, w2, w3, w4])))
    (h1 : pyFloat F w1 = .ok r) (h2 : pyFloat F w2 = .ok g) (h3 : pyFloat F w3 = .ok b)
    (h4 : pyFloat F w4 = .ok a) :
    ∃ m r' g' b' a', background F n = .ok m ∧ m.name = "color" ∧
      colorTuple F m = .ok [r', g', b', a'] ∧
      NearMillionth r' r ∧ NearMillionth g' g ∧ NearMillionth b' b ∧ NearMillionth a' a := by
  have hfl := floatsAttr_spaced F n "bgcolor" [w1, w2, w3, w4] [r, g, b, a] (by simp) hsp ha
    (.cons h1 (.cons h2 (.cons h3 (.cons h4 .nil))))
  obtain ⟨hok, r', g', b', a', hc, hrest⟩ := c24_tuple_roundtrip hF (.new "color") rfl r g b a
  refine ⟨(setValue F .color (.tuple [.float r, .float g, .float b, .float a]) (.new "color")).1,
    r', g', b', a', ?_, rfl, hc, hrest⟩
  have hnew : newValue F .color (.tuple [.float r, .float g, .float b, .float a]) =
      .ok (setValue F .color (.tuple [.float r, .float g, .float b, .float a]) (.new "color")).1 := rfl
  rw [background, hfl]
  simp only [List.map_cons, List.map_nil, hnew]

/-- C88's hypotheses are met by the example. -/
example : animSize exAnim = .ok (480, 270) ∧ viewbox double exAnim = .ok [-4, 9/4, 4, -9/4] ∧
    "-4.000000 2.250000 4.000000 -2.250000".toList =
      spaced ["-4.000000".toList, "2.250000".toList, "4.000000".toList, "-2.250000".toList] ∧
    (match background double exAnim with
      | .ok m => colorTuple double m = .ok [1/2, 1/2, 1/2, 1]
      | .error _ => False) := by
  refine ⟨by decide +kernel, by decide +kernel, by decide +kernel, ?_⟩
  have : ∃ m, background double exAnim = .ok m ∧ colorTuple double m = .ok [1/2, 1/2, 1/2, 1] :=
    ⟨_, rfl, by decide +kernel⟩
  obtain ⟨m, h1, h2⟩ := this
  rw [h1]
  exact h2

/-! ## C89: the number of frames -/

/-- C89. For whole times, `framecount` is the number of frames from the one at `begin-time` to the one
at `end-time`, both included; so if the animation begins at zero it is one more than the number of the
last frame. -/
theorem c89_framecount {F : Fl} (hF : F.Lawful) (n : Node) (hn : n.name = "canvas") (e b : ℕ)
    (hle : b ≤ e) (fps : Option ℚ) (te tb : Str)
    (he : n.attrs.get "end-time" = some (.str te)) (hb : n.attrs.get "begin-time" = some (.str tb))
    (hE : T.new F (some n.attrs) (.str te) = .ok ⟨e, fps⟩)
    (hB : T.new F (some n.attrs) (.str tb) = .ok ⟨b, fps⟩) (hsize : e + b + 2 ≤ 2 ^ 53) :
    framecount F n = .ok (((Finset.Icc b e).card : ℕ) : ℤ) := by
  have h := c06_negative_counts_from_end_whole hF n.attrs 1 e b (le_refl _) fps te tb he hb hE hB
    (by omega)
  have hr : animRoot n = some n.attrs := by simp [animRoot, canvasRoot, hn]
  rw [Nat.cast_one] at h
  rw [framecount, hr, h, Nat.card_Icc]
  simp only
  have e1 : (e:ℚ) - b + 1 - 1 = ((e - b : ℕ) : ℚ) := by
    rw [Nat.cast_sub hle]; ring
  have e2 : ¬ (((e - b : ℕ) : ℚ) < 0) := not_lt.2 (Nat.cast_nonneg _)
  rw [e1, truncQ, if_neg e2, Int.floor_natCast]
  congr 1
  omega

/-- C89, a disagreement with the documentation, which gives `int(end_time)-int(begin_time)`: that is one
less. -/
theorem c89_framecount_not_difference {F : Fl} (hF : F.Lawful) (n : Node) (hn : n.name = "canvas")
    (e b : ℕ) (hle : b ≤ e) (fps : Option ℚ) (te tb : Str)
    (he : n.attrs.get "end-time" = some (.str te)) (hb : n.attrs.get "begin-time" = some (.str tb))
    (hE : T.new F (some n.attrs) (.str te) = .ok ⟨e, fps⟩)
    (hB : T.new F (some n.attrs) (.str tb) = .ok ⟨b, fps⟩) (hsize : e + b + 2 ≤ 2 ^ 53) :
    framecount F n ≠ .ok ((e:ℤ) - b) := by
  rw [c89_framecount hF n hn e b hle fps te tb he hb hE hB hsize, Nat.card_Icc]
  intro h
  injection h with h
  omega

theorem get_ne {n : Node} (hn : n.isTag = true) {k k' : String} (v : AttrV) (h : k' ≠ k) :
    (n.setAttr k v).attrs.get k' = n.attrs.get k' := by rw [get_setAttr n hn, if_neg h]

/-- C89 fails for `end_time`: setting it never changes the number of frames, nor any other time
reckoned from the end. -/
theorem c89_end_time_has_no_effect (F : Fl) (v : PV) (n : Node) (hn : n.isTag = true) :
    framecount F (setEndTime F v n).1 = framecount F n ∧
    ∀ q, T.new F (animRoot (setEndTime F v n).1) (.num q) = T.new F (animRoot n) (.num q) := by
  have key : ∀ q, T.new F (animRoot (setEndTime F v n).1) (.num q) = T.new F (animRoot n) (.num q) := by
    intro q
    rw [setEndTime]
    split
    · rfl
    · next s _ =>
      have hname := (setAttr_rest n "end_time" (.str s)).1
      by_cases hc : n.name = "canvas"
      · have h1 : animRoot n = some n.attrs := by simp [animRoot, canvasRoot, hc]
        have h2 : animRoot (n.setAttr "end_time" (.str s)) =
            some (n.setAttr "end_time" (.str s)).attrs := by simp [animRoot, canvasRoot, hname, hc]
        have g1 := get_ne hn (k := "end_time") (k' := "fps") (.str s) (by decide)
        have g2 := get_ne hn (k := "end_time") (k' := "end-time") (.str s) (by decide)
        have g3 := get_ne hn (k := "end_time") (k' := "begin-time") (.str s) (by decide)
        simp only [h1, h2, T.new, readFps, framesOfNumber, parseAttr, g1, g2, g3]
      · have h1 : animRoot n = none := by simp [animRoot, canvasRoot, hc]
        have h2 : animRoot (n.setAttr "end_time" (.str s)) = none := by
          simp [animRoot, canvasRoot, hname, hc]
        rw [h1, h2]
  exact ⟨by rw [framecount, framecount, key], key⟩

/-- C89's hypotheses are met: three seconds at 24 frames per second, and still so when `end_time` is
set to one second. -/
example : framecount double exAnim = .ok 73 ∧
    framecount double (setEndTime double (.str "1s".toList) exAnim).1 = .ok 73 ∧
    endTime double (setEndTime double (.str "1s".toList) exAnim).1 = .ok ⟨24, some 24⟩ := by
  decide +kernel

/-! ## C90: name and description -/

/-- C90. If the first `<name>` in the document has just some text in it, that is the name. -/
theorem c90_name (m : String) (b : Attrs) (pre post : List Node) (a : Attrs) (s : Str)
    (h : ∀ y ∈ Node.nodesIn pre, y.name ≠ "name") :
    animName (.tag m b (pre ++ .tag "name" a [.text s] :: post)) = .ok (some s) := by
  rw [animName, find_at "name" (by decide) m b pre post a _ h]
  rfl

theorem find_none (s : String) (hs : s ≠ "") (n : Node) (h : eltsNamedIn s n.kids = []) :
    n.find s = none := by
  rw [Node.find, Node.findAll, Node.descTags, eltsNamedIn_eq s hs, h]
  rfl

/-- C90, what holds. If there is a `<desc>`, then after `animation.desc = s` it reads as `s`, and nothing
else in the document changes. Missing: documents without one; there it fails (`c90_desc_fails`). -/
theorem c90_desc_partial (m : String) (b : Attrs) (pre post : List Node) (a : Attrs) (ks : List Node)
    (s : Str) (h : ∀ y ∈ Node.nodesIn pre, y.name ≠ "desc") :
    setAnimDesc s (.tag m b (pre ++ .tag "desc" a ks :: post)) =
      (.tag m b (pre ++ .tag "desc" a [.text s] :: post), .ok ()) ∧
    animDesc (.tag m b (pre ++ .tag "desc" a [.text s] :: post)) = some s := by
  refine ⟨?_, ?_⟩
  · rw [setAnimDesc, find_at "desc" (by decide) m b pre post a ks h]
    simp only
    rw [updFirst_at _ _ _ _ _ _ _ _ _ (fun y hy => by simp [h y hy]) (by simp [Node.name])]
    rfl
  · rw [animDesc, find_at "desc" (by decide) m b pre post a _ h]
    rfl

/-- C90 is false: with no `<desc>` in the document, as in a new animation, the description reads as empty
and can't be set. -/
theorem c90_desc_fails (n : Node) (s : Str) (h : eltsNamedIn "desc" n.kids = []) :
    animDesc n = some [] ∧ setAnimDesc s n = (n, .error .attr) := by
  rw [animDesc, setAnimDesc, find_none "desc" (by decide) n h]
  exact ⟨rfl, rfl⟩

/-- C90's hypotheses are met by the example. -/
example : animName exAnim = .ok (some "Circles".toList) ∧ animDesc exAnim = some "old".toList ∧
    animDesc (setAnimDesc "new".toList exAnim).1 = some "new".toList := by
  decide +kernel

end Sang
