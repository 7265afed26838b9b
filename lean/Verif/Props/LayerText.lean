import Verif.Lemmas.LayerText
import Verif.Lemmas.Six
import Verif.Lemmas.Legal
import Verif.Props.Program
import Verif.Props.Time

/-!
# C130, C131: the text of layers, waypoints and timelines
-/

namespace Sang
open Spec

/-! ## C130: layers -/

theorem registry_classes : ∀ p ∈ layerRegistry, p.2 ∈ layerClasses := by decide +kernel

theorem layerOf_class {x : Node} {c : LClass} (h : layerOf x = .ok c) : c ∈ layerClasses := by
  obtain ⟨s, hs⟩ := layerOf_mem h
  exact registry_classes _ hs

theorem descText_eq (F : Fl) (pr : Char → Bool) (n : Node) :
    descText F pr n = (shownDesc (getDesc F n)).flatMap fun s => " ".toList ++ pyRepr pr s := by
  rw [descText]
  cases getDesc F n with
  | none => rfl
  | some s => cases s <;> simp [shownDesc]

theorem literals_repr (F : Fl) (pr : Char → Bool) (l : List Str) :
    List.Forall₂ (fun t x => LiteralFor F t (.str x)) (l.map (pyRepr pr)) l := by
  induction l with
  | nil => exact .nil
  | cons s l ih => exact .cons (literal_pyRepr F pr s) ih

/-- How many of the elements around an element are layers. -/
theorem c130_depth (ancestors : List Node) :
    tagDepth ancestors = ancestors.countP fun x => x.name = "layer" := by
  rw [tagDepth, List.countP_eq_length_filter]

/-- C130. The text of a layer that isn't a text layer shows how many layers it is in, its class and
its description, if there is any. -/
theorem c130_layer_text (F : Fl) (pr : Char → Bool) (ancestors : List Node) (c : LClass) (n : Node)
    (hc : c ≠ lcText) :
    ∃ s, layerRepr F pr ancestors (c, n) = .ok s ∧
      Shows F s (ancestors.countP fun x => x.name = "layer") c (shownDesc (getDesc F n)) := by
  refine ⟨_, by simp only [layerRepr, hc, if_false]; rfl, _, literals_repr F pr _, ?_⟩
  rw [← c130_depth]
  simp [layerReprStart, descText_eq, List.flatMap_map]

/-- C130. That of a text layer also shows what the layer says. -/
theorem c130_text_layer_text (F : Fl) (pr : Char → Bool) (ancestors : List Node) (n : Node) (v : VCls × Node)
    (hv : getField "text" (.param .string (.str "Hello wombat!")) n = .ok v) :
    ∃ s, layerRepr F pr ancestors (lcText, n) = .ok s ∧
      Shows F s (ancestors.countP fun x => x.name = "layer") lcText
        (shownDesc (getDesc F n) ++ [getString v.2]) := by
  refine ⟨_, by simp only [layerRepr, hv, if_true]; rfl, _, literals_repr F pr _, ?_⟩
  rw [← c130_depth]
  simp [layerReprStart, descText_eq, List.flatMap_map]

/-- C130. Nothing else can happen: the text of a layer fails only for a text layer whose text cannot
be read, and then as reading it does. -/
theorem c130_fails_only (F : Fl) (pr : Char → Bool) (ancestors : List Node) (x : LObj) (e : Err) :
    layerRepr F pr ancestors x = .error e ↔
      x.1 = lcText ∧ getField "text" (.param .string (.str "Hello wombat!")) x.2 = .error e := by
  rw [layerRepr]
  by_cases hc : x.1 = lcText
  · rw [if_pos hc]
    cases h : getField "text" (.param .string (.str "Hello wombat!")) x.2 <;> simp [hc]
  · simp [hc]

/-- C130 is violated by text layers without a text: showing one raises `AttributeError`, and so does showing
anything that has it in it. -/
theorem c130_without_text (F : Fl) (pr : Char → Bool) (ancestors : List Node) :
    layerRepr F pr ancestors (lcText, .tag "layer" [("type", .str "text".toList)] []) = .error .attr := by
  rw [c130_fails_only]
  exact ⟨rfl, by decide +kernel⟩

/-- What a layer's text shows besides its class and depth. -/
def shownOf (F : Fl) (x : LObj) : List Str :=
  shownDesc (getDesc F x.2) ++
    if x.1 = lcText then
      match getField "text" (.param .string (.str "Hello wombat!")) x.2 with
      | .ok v => [getString v.2]
      | .error _ => []
    else []

theorem layerRepr_shows {F : Fl} {pr : Char → Bool} {ancestors : List Node} {x : LObj} {s : Str}
    (h : layerRepr F pr ancestors x = .ok s) :
    Shows F s (ancestors.countP fun x => x.name = "layer") x.1 (shownOf F x) := by
  obtain ⟨c, n⟩ := x
  by_cases hc : c = lcText
  · subst hc
    cases hv : getField "text" (.param .string (.str "Hello wombat!")) n with
    | error e =>
      have := (c130_fails_only F pr ancestors (lcText, n) e).2 ⟨rfl, hv⟩
      rw [h] at this; cases this
    | ok v =>
      obtain ⟨s', h', hs⟩ := c130_text_layer_text F pr ancestors n v hv
      rw [h] at h'; cases h'
      simpa [shownOf, hv] using hs
  · obtain ⟨s', h', hs⟩ := c130_layer_text F pr ancestors c n hc
    rw [h] at h'; cases h'
    simpa [shownOf, hc] using hs

/-- C130. The symbols: every class has one, and only these share theirs: the blurs, the two fractals, the two that scale,
and those whose symbol is yet to be decided. -/
theorem c130_symbols :
    let shared : List (List String) := [["Blur", "Radial_Blur", "Motion_Blur"], ["Mandelbrot", "Julia"], ["Scale", "Zoom"],
      ["Xor_Pattern", "Switch", "Super_Sample", "Filter_Group", "Duplicate", "Spiral_Gradient", "Radial_Gradient", "Noise",
       "Linear_Gradient", "Curve_Gradient", "Conical_Gradient", "Simple_Circle", "Metaballs", "Warp", "Twirl", "Stretch",
       "Spherize", "Skeleton_Deformation", "Noise_Distort", "Inside_Out", "Curve_Warp"]]
    ∀ p ∈ layerRegistry, symbolOf p.2 ≠ "?".toList ∧
      ∀ q ∈ layerRegistry, symbolOf p.2 = symbolOf q.2 ↔
        p.2.name = q.2.name ∨ ∃ g ∈ shared, p.2.name ∈ g ∧ q.2.name ∈ g := by
  decide +kernel


/-- C130. Two layers that are shown alike are of the same class, are in as many layers, and have the
same description (where none is like an empty one); and if they are text layers, they say the same.
-/
theorem c130_tells_layers_apart {F : Fl} {pr : Char → Bool} {anc anc' : List Node} {x y : LObj} {s : Str}
    (hx : layerOf x.2 = .ok x.1) (hy : layerOf y.2 = .ok y.1)
    (h : layerRepr F pr anc x = .ok s) (h' : layerRepr F pr anc' y = .ok s) :
    x.1 = y.1 ∧ (anc.countP fun x => x.name = "layer") = (anc'.countP fun x => x.name = "layer") ∧
      (getDesc F x.2).getD [] = (getDesc F y.2).getD [] ∧
      (x.1 = lcText → ∃ v w, getField "text" (.param .string (.str "Hello wombat!")) x.2 = .ok v ∧
        getField "text" (.param .string (.str "Hello wombat!")) y.2 = .ok w ∧ getString v.2 = getString w.2) := by
  obtain ⟨hd, hc, hxs, -, -⟩ := shows_unique (r := []) (r' := []) (layerOf_class hx) (layerOf_class hy)
    (layerRepr_shows h) (layerRepr_shows h') rfl
  have desc : ∀ a b : Option Str, shownDesc a = shownDesc b → a.getD [] = b.getD [] := by
    intro a b hab
    cases a with
    | none =>
      cases b with
      | none => rfl
      | some t => by_cases ht : t = [] <;> simp_all [shownDesc]
    | some t =>
      cases b with
      | none => by_cases ht : t = [] <;> simp_all [shownDesc]
      | some u =>
        by_cases ht : t = [] <;> by_cases hu : u = [] <;> simp_all [shownDesc]
  refine ⟨hc, hd, ?_, ?_⟩
  · by_cases hT : x.1 = lcText
    · have hT' : y.1 = lcText := hc ▸ hT
      cases hv : getField "text" (.param .string (.str "Hello wombat!")) x.2 with
      | error e => rw [(c130_fails_only F pr anc x e).2 ⟨hT, hv⟩] at h; cases h
      | ok v =>
        cases hw : getField "text" (.param .string (.str "Hello wombat!")) y.2 with
        | error e => rw [(c130_fails_only F pr anc' y e).2 ⟨hT', hw⟩] at h'; cases h'
        | ok w =>
          simp only [shownOf, hT, hT', if_true, hv, hw] at hxs
          exact desc _ _ (List.append_inj_left' hxs rfl)
    · have hT' : y.1 ≠ lcText := hc ▸ hT
      simp only [shownOf, hT, hT', if_false, List.append_nil] at hxs
      exact desc _ _ hxs
  · intro hT
    have hT' : y.1 = lcText := hc ▸ hT
    cases hv : getField "text" (.param .string (.str "Hello wombat!")) x.2 with
    | error e => rw [(c130_fails_only F pr anc x e).2 ⟨hT, hv⟩] at h; cases h
    | ok v =>
      cases hw : getField "text" (.param .string (.str "Hello wombat!")) y.2 with
      | error e => rw [(c130_fails_only F pr anc' y e).2 ⟨hT', hw⟩] at h'; cases h'
      | ok w =>
        simp only [shownOf, hT, hT', if_true, hv, hw] at hxs
        exact ⟨v, w, rfl, rfl, by simpa using List.append_inj_right' hxs rfl⟩

theorem joined_unique {F : Fl} {l l' : List (Str × ℕ × LClass × List Str)} {r r' : Str}
    (h : ∀ p ∈ l, p.2.2.1 ∈ layerClasses ∧ Shows F p.1 p.2.1 p.2.2.1 p.2.2.2)
    (h' : ∀ p ∈ l', p.2.2.1 ∈ layerClasses ∧ Shows F p.1 p.2.1 p.2.2.1 p.2.2.2)
    (he : join [',', ' '] (l.map Prod.fst) ++ ']' :: r = join [',', ' '] (l'.map Prod.fst) ++ ']' :: r') :
    l = l' := by
  have start : ∀ {s d c xs}, Shows F s d c xs → ∃ u, s = '[' :: u := by
    rintro s d c xs ⟨l, -, rfl⟩; exact ⟨_, rfl⟩
  have rest : ∀ (m : List (Str × ℕ × LClass × List Str)) (s r : Str),
      join [',', ' '] (s :: m.map Prod.fst) ++ ']' :: r =
        s ++ (if m = [] then ']' :: r else ',' :: ' ' :: (join [',', ' '] (m.map Prod.fst) ++ ']' :: r)) := by
    intro m s r
    cases m with
    | nil => simp [join]
    | cons p m => simp [join]
  induction l generalizing l' with
  | nil =>
    cases l' with
    | nil => rfl
    | cons p l' =>
      obtain ⟨u, hu⟩ := start (h' p (by simp)).2
      rw [List.map_cons, rest, hu] at he
      simp [join] at he
  | cons p l ih =>
    cases l' with
    | nil =>
      obtain ⟨u, hu⟩ := start (h p (by simp)).2
      rw [List.map_cons, rest, hu] at he
      simp [join] at he
    | cons p' l' =>
      rw [List.map_cons, List.map_cons, rest, rest] at he
      obtain ⟨hc, hs⟩ := h p (by simp)
      obtain ⟨hc', hs'⟩ := h' p' (by simp)
      obtain ⟨h1, h2, h3, h4, h5⟩ := shows_unique hc hc' hs hs' he
      have hp : p = p' := by
        obtain ⟨a, b, c, d⟩ := p
        obtain ⟨a', b', c', d'⟩ := p'
        simp_all
      subst hp
      congr 1
      by_cases hl : l = [] <;> by_cases hl' : l' = []
      · rw [hl, hl']
      · rw [if_pos hl, if_neg hl'] at h5; simp at h5
      · rw [if_neg hl, if_pos hl'] at h5; simp at h5
      · rw [if_neg hl, if_neg hl'] at h5
        simp only [List.cons.injEq, true_and] at h5
        exact ih (fun q hq => h q (by simp [hq])) (fun q hq => h' q (by simp [hq])) h5

/-- C130. The text of a canvas has those of its layers in order. -/
theorem c130_canvas_text {F : Fl} {pr : Char → Bool} {ancestors : List Node} {n : Node} {s : Str}
    (h : canvasStr F pr ancestors n = .ok s) :
    ∃ ss, List.Forall₂ (fun a t => ∃ c, layerOf a = .ok c ∧ layerRepr F pr (n :: ancestors) (c, a) = .ok t)
      n.tagKids ss ∧ s = "[".toList ++ join ", ".toList ss ++ "]".toList := by
  rw [canvasStr] at h
  split at h
  · cases h
  cases hl : mapRes asLayer n.tagKids with
  | error e => simp only [hl] at h; cases h
  | ok l =>
    simp only [hl] at h
    cases hs : mapRes (layerRepr F pr (n :: ancestors)) l with
    | error e => simp only [hs] at h; cases h
    | ok ss =>
      simp only [hs, Except.ok.injEq] at h
      refine ⟨ss, ?_, by rw [← h]; simp [listStr]⟩
      clear h
      generalize n.tagKids = k at hl
      induction k generalizing l ss with
      | nil =>
        simp only [mapRes, Except.ok.injEq] at hl
        subst hl
        simp only [mapRes, Except.ok.injEq] at hs
        subst hs
        exact .nil
      | cons a k ih =>
        rw [mapRes] at hl
        cases ha : asLayer a with
        | error e => simp only [ha] at hl; cases hl
        | ok x =>
          simp only [ha] at hl
          cases hk : mapRes asLayer k with
          | error e => simp only [hk] at hl; cases hl
          | ok l' =>
            simp only [hk, Except.ok.injEq] at hl
            subst hl
            rw [mapRes] at hs
            cases hx : layerRepr F pr (n :: ancestors) x with
            | error e => simp only [hx] at hs; cases hs
            | ok t =>
              simp only [hx] at hs
              cases ht : mapRes (layerRepr F pr (n :: ancestors)) l' with
              | error e => simp only [ht] at hs; cases hs
              | ok ts =>
                simp only [ht, Except.ok.injEq] at hs
                subst hs
                refine .cons ?_ (ih l' ts ht hk)
                rw [asLayer] at ha
                cases hc : layerOf a with
                | error e => simp only [hc] at ha; cases ha
                | ok c =>
                  simp only [hc, Except.ok.injEq] at ha
                  subst ha
                  exact ⟨c, rfl, hx⟩

/-- C130. Two canvases that are shown alike have as many layers, and each is of the same class as its
counterpart and has the same description. -/
theorem c130_tells_canvases_apart {F : Fl} {pr : Char → Bool} {anc anc' : List Node} {n m : Node} {s : Str}
    (h : canvasStr F pr anc n = .ok s) (h' : canvasStr F pr anc' m = .ok s) :
    List.Forall₂ (fun a b => layerOf a = layerOf b ∧ (getDesc F a).getD [] = (getDesc F b).getD [])
      n.tagKids m.tagKids := by
  obtain ⟨ss, hf, hs⟩ := c130_canvas_text h
  obtain ⟨ss', hf', hs'⟩ := c130_canvas_text h'
  have lift : ∀ {k : List Node} {ts : List Str} {an : List Node},
      List.Forall₂ (fun a t => ∃ c, layerOf a = .ok c ∧ layerRepr F pr an (c, a) = .ok t) k ts →
      ∃ l : List (Str × ℕ × LClass × List Str), l.map Prod.fst = ts ∧
        ∀ p ∈ l, p.2.2.1 ∈ layerClasses ∧ Shows F p.1 p.2.1 p.2.2.1 p.2.2.2 := by
    intro k ts an hk
    induction hk with
    | nil => exact ⟨[], rfl, by simp⟩
    | @cons a t k ts h1 _ ih =>
      obtain ⟨c, hc, ht⟩ := h1
      obtain ⟨l, hl, hp⟩ := ih
      have hsh := layerRepr_shows ht
      refine ⟨(t, (an.countP fun x => x.name = "layer"), c, shownOf F (c, a)) :: l,
        by rw [List.map_cons, hl], ?_⟩
      intro p hp'
      rcases List.mem_cons.1 hp' with rfl | hp'
      · exact ⟨layerOf_class hc, hsh⟩
      · exact hp p hp'
  obtain ⟨l, hl, hp⟩ := lift hf
  obtain ⟨l', hl', hp'⟩ := lift hf'
  have e : ss = ss' := by
    rw [← hl, ← hl']
    rw [joined_unique (r := []) (r' := []) hp hp' (by
      rw [hl, hl']
      rw [hs] at hs'
      simpa using hs')]
  subst e
  clear hs hs' hl hl' hp hp' h h'
  generalize n.tagKids = k at hf
  generalize m.tagKids = k' at hf'
  induction hf generalizing k' with
  | nil => cases hf'; exact .nil
  | cons h1 _ ih =>
    cases hf' with
    | cons g1 g2 =>
      obtain ⟨c, hc, ht⟩ := h1
      obtain ⟨c', hc', ht'⟩ := g1
      refine .cons ?_ (ih _ g2)
      obtain ⟨e1, -, e2, -⟩ := c130_tells_layers_apart hc hc' ht ht'
      exact ⟨by rw [hc, hc']; exact congrArg _ e1, e2⟩

/-- A circle with a description in a group. -/
def exShown : Node := .tag "layer" [("type", .str "circle".toList), ("desc", .str "it's a \"dot\"".toList)] []

/-- A text layer. -/
def exShownText : Node := .tag "layer" [("type", .str "text".toList)]
  [.tag "param" [("name", .str "text".toList)] [.tag "string" [] [.text "Hello\n".toList]]]

/-- The hypotheses of C130 are met. -/
example :
    let pr := fun _ : Char => false
    let g : Node := .tag "canvas" [] [exShown, exShownText]
    let anc : List Node := [.tag "param" [] [], .tag "layer" [] [], .tag "canvas" [] []]
    layerOf exShown = .ok lcCircle ∧ layerOf exShownText = .ok lcText ∧
    layerRepr double pr anc (lcCircle, exShown) = .ok "[-🔵circle 'it\\'s a \"dot\"']".toList ∧
    layerRepr double pr anc (lcText, exShownText) = .ok "[-𝕋text 'Hello\\n']".toList ∧
    canvasStr double pr anc g = .ok "[[-🔵circle 'it\\'s a \"dot\"'], [-𝕋text 'Hello\\n']]".toList := by
  decide +kernel

/-! ## C131: waypoints and timelines -/

/-- Neither a space nor outside ASCII. -/
def Narrow (s : Str) : Prop := s ≠ [] ∧ ∀ c ∈ s, c.toNat < 128 ∧ c ≠ ' '

theorem narrow_num {s : Str} (h0 : s ≠ []) (h : ∀ c ∈ s, numCh c = true) : Narrow s := by
  refine ⟨h0, fun c hc => ?_⟩
  rcases numCh_cases (h c hc) with h | rfl | rfl | rfl | rfl
  · simp only [isDig, Bool.and_eq_true, decide_eq_true_eq] at h
    refine ⟨?_, ?_⟩
    · have : c.toNat ≤ '9'.toNat := h.2
      exact lt_of_le_of_lt this (by decide)
    · rintro rfl; revert h; decide
  all_goals decide

theorem narrow_unit {s : Str} (h : ∀ c ∈ s, numCh c = true) (u : Char) (hu : u.toNat < 128 ∧ u ≠ ' ') :
    Narrow (s ++ [u]) := by
  refine ⟨by simp, fun c hc => ?_⟩
  rcases List.mem_append.1 hc with hc | hc
  · exact (narrow_num (List.ne_nil_of_mem hc) h).2 c hc
  · rw [List.mem_singleton] at hc; subst hc; exact hu

theorem fmtG_numCh (q : ℚ) : ∀ c ∈ fmtG q, numCh c = true := by
  rw [fmtG]
  split
  · decide
  split
  · intro c hc
    rcases List.mem_cons.1 hc with rfl | hc
    · rfl
    · exact gPos_numCh _ c hc
  · exact gPos_numCh _

theorem narrow_strUnit {st : ℚ × List Str} (h : ∀ s ∈ st.2, Narrow s) {u : Char}
    (hu : u.toNat < 128 ∧ u ≠ ' ') (size : ℚ) : ∀ s ∈ (strUnit st u size).2, Narrow s := by
  rw [strUnit]
  split
  · intro s hs
    rcases List.mem_append.1 hs with hs | hs
    · exact h s hs
    · rw [List.mem_singleton] at hs
      subst hs
      exact narrow_unit (fun c hc => numCh_of_isDig (natStr_digits _ c hc)) u hu
  · exact h

theorem join_ascii {l : List Str} (h : ∀ s ∈ l, Narrow s) : ∀ c ∈ join [' '] l, c.toNat < 128 := by
  induction l with
  | nil => simp [join]
  | cons s l ih =>
    cases l with
    | nil => exact fun c hc => ((h s (by simp)).2 c hc).1
    | cons t r =>
      intro c hc
      rw [join] at hc
      simp only [List.mem_append, List.mem_singleton] at hc
      rcases hc with (hc | rfl) | hc
      · exact ((h s (by simp)).2 c hc).1
      · decide
      · exact ih (fun x hx => h x (by simp [hx])) c hc

theorem join_head {l : List Str} (h0 : l ≠ []) (h : ∀ s ∈ l, Narrow s) :
    ∃ c r, join [' '] l = c :: r ∧ c ≠ ' ' := by
  cases l with
  | nil => exact absurd rfl h0
  | cons s l =>
    obtain ⟨hs, hc⟩ := h s (by simp)
    cases s with
    | nil => exact absurd rfl hs
    | cons c s =>
      cases l with
      | nil => exact ⟨c, s, rfl, (hc c (by simp)).2⟩
      | cons t r => exact ⟨c, _, rfl, (hc c (by simp)).2⟩

/-- The text of a time is ASCII and doesn't begin with a space. -/
theorem tstr_shape (F : Fl) (t : T) : (∀ c ∈ t.str F, c.toNat < 128) ∧
    ∃ c r, t.str F = c :: r ∧ c ≠ ' ' := by
  unfold T.str
  split
  · have := narrow_unit (fmtG_numCh t.frames) 'f' (by decide)
    refine ⟨fun c hc => (this.2 c hc).1, ?_⟩
    obtain ⟨h0, h1⟩ := this
    cases h : fmtG t.frames ++ ['f'] with
    | nil => exact absurd h h0
    | cons c r => exact ⟨c, r, rfl, (h1 c (by rw [h]; simp)).2⟩
  · rename_i fps hf
    dsimp only
    set st := strUnit (strUnit (strUnit (|F.rnd (t.frames / fps)|, []) 'h' 3600) 'm' 60) 's' 1 with hst
    have h : ∀ s ∈ st.2, Narrow s := by
      rw [hst]
      exact narrow_strUnit (narrow_strUnit (narrow_strUnit (by simp) (by decide) _) (by decide) _) (by decide) _
    have hl : ∀ l : List Str, l = (if st.1 ≠ 0 ∨ st.2 = [] then st.2 ++ [fmtG (fmod |t.frames| fps) ++ ['f']]
        else st.2) → l ≠ [] ∧ ∀ s ∈ l, Narrow s := by
      intro l hl
      split at hl
      · subst hl
        refine ⟨by simp, fun s hs => ?_⟩
        rcases List.mem_append.1 hs with hs | hs
        · exact h s hs
        · rw [List.mem_singleton] at hs
          subst hs
          exact narrow_unit (fmtG_numCh _) 'f' (by decide)
      · next hn =>
        subst hl
        push Not at hn
        exact ⟨hn.2, h⟩
    obtain ⟨h0, h1⟩ := hl _ rfl
    set l := (if st.1 ≠ 0 ∨ st.2 = [] then st.2 ++ [fmtG (fmod |t.frames| fps) ++ ['f']] else st.2)
    constructor
    · intro c hc
      rcases List.mem_append.1 hc with hc | hc
      · split at hc
        · rw [List.mem_singleton] at hc; subst hc; decide
        · simp at hc
      · exact join_ascii h1 c hc
    · split
      · exact ⟨'-', _, rfl, by decide⟩
      · exact join_head h0 h1

theorem checkInterp_shown {s b : Str} (h : checkInterp s = .ok b) :
    ∃ p ∈ shownInterp, b = p.1.toList ∧ emojiOf b = .ok p.2 := by
  have all : ∀ p ∈ shownInterp, emojiOf p.1.toList = .ok p.2 := by decide
  have key : b ∈ shownInterp.map fun p => p.1.toList := by
    rw [checkInterp] at h
    split at h
    · cases h
    · next hu =>
      split at h
      · next hc =>
        cases h
        have : s ∈ interpolationTypes.map fun p => p.1.toList := by simpa using hc
        simp only [interpolationTypes, List.map, List.mem_cons, List.not_mem_nil, or_false] at this
        rcases this with h | h | h | h | h | h
        case inr.inr.inr.inr.inr => exact absurd h hu
        all_goals subst h; decide
      · cases hl : List.lookup s (interpolationSynonyms.map fun p => (p.1.toList, p.2.toList)) with
        | none => simp only [hl] at h; cases h
        | some t =>
          simp only [hl, Except.ok.injEq] at h
          subst h
          obtain ⟨l1, l2, he, -⟩ := List.lookup_eq_some_iff.1 hl
          have hm : (s, t) ∈ interpolationSynonyms.map fun p => (p.1.toList, p.2.toList) := by rw [he]; simp
          have : ∀ q ∈ (interpolationSynonyms.map fun p => (p.1.toList, p.2.toList)),
              q.2 ∈ shownInterp.map fun p => p.1.toList := by decide
          exact this _ hm
  obtain ⟨p, hp, rfl⟩ := List.mem_map.1 key
  exact ⟨p, hp, rfl, all p hp⟩

/-- A waypoint as it comes from the constructor or from a file. -/
def WellMade (w : Waypoint) : Prop :=
  (∃ s, checkInterp s = .ok w.before) ∧ (∃ s, checkInterp s = .ok w.after) ∧ ∃ c, fromTag w.val = .ok c

theorem wellMade_fromTag {F : Fl} {root : Option Attrs} {ty : Str} {n : Node} {w : Waypoint}
    (h : Waypoint.fromTag F root ty n = .ok w) : WellMade w := by
  rw [Waypoint.fromTag] at h
  repeat' (split at h <;> try cases h)
  exact ⟨⟨_, by assumption⟩, ⟨_, by assumption⟩, ⟨_, by assumption⟩⟩

/-- C131. The text of a waypoint: its time, with spaces before it up to three characters, how it is
entered and left, and its value. It fails only if that of the value does. -/
theorem c131_waypoint_text (F : Fl) (pr : Char → Bool) (root : Option Attrs) (w : Waypoint) (c : VCls)
    (hw : WellMade w) (hc : fromTag w.val = .ok c) :
    (∀ e, valueStr F pr root c w.val = .error e → waypointStr F pr root w = .error e) ∧
    ∀ v, valueStr F pr root c w.val = .ok v → ∃ b a, (b, a) ∈ shownInterp.product shownInterp ∧
      w.before = b.1.toList ∧ w.after = a.1.toList ∧
      waypointStr F pr root w = .ok ("[".toList ++ List.replicate (3 - (w.time.str F).length) ' ' ++ w.time.str F ++
        " ".toList ++ [b.2] ++ "-".toList ++ [a.2] ++ " - ".toList ++ v ++ "]".toList) := by
  obtain ⟨⟨s, hs⟩, ⟨t, ht⟩, -⟩ := hw
  obtain ⟨b, hb, hbe, hbm⟩ := checkInterp_shown hs
  obtain ⟨a, ha, hae, ham⟩ := checkInterp_shown ht
  refine ⟨fun e he => by simp only [waypointStr, hbm, ham, hc, he], fun v hv => ⟨b, a, ?_, hbe, hae, ?_⟩⟩
  · exact List.pair_mem_product.2 ⟨hb, ha⟩
  · simp [waypointStr, hbm, ham, hc, hv, padLeft]

theorem emojiOf_wide {s : Str} {c : Char} (h : emojiOf s = .ok c) : 128 ≤ c.toNat := by
  rw [emojiOf] at h
  split at h
  · cases h
  · next d hd =>
    cases h
    obtain ⟨l1, l2, he, -⟩ := List.lookup_eq_some_iff.1 hd
    have hm : (s, c) ∈ interpolationEmojis.map fun p => (p.1.toList, p.2) := by rw [he]; simp
    have : ∀ q ∈ (interpolationEmojis.map fun p => (p.1.toList, p.2)), 128 ≤ q.2.toNat := by decide
    exact this _ hm

theorem emojiOf_inj {s t : Str} {c : Char} (h : emojiOf s = .ok c) (h' : emojiOf t = .ok c) : s = t := by
  have get : ∀ {s : Str} {c : Char}, emojiOf s = .ok c →
      (s, c) ∈ interpolationEmojis.map fun p => (p.1.toList, p.2) := by
    intro s c h
    rw [emojiOf] at h
    split at h
    · cases h
    · next d hd =>
      cases h
      obtain ⟨l1, l2, he, -⟩ := List.lookup_eq_some_iff.1 hd
      rw [he]; simp
  have : ∀ p ∈ (interpolationEmojis.map fun p => (p.1.toList, p.2)),
      ∀ q ∈ (interpolationEmojis.map fun p => (p.1.toList, p.2)), p.2 = q.2 → p.1 = q.1 := by decide
  exact this _ (get h) _ (get h') rfl

/-- What made the text of a waypoint. -/
theorem waypointStr_parts {F : Fl} {pr : Char → Bool} {root : Option Attrs} {w : Waypoint} {s : Str}
    (h : waypointStr F pr root w = .ok s) : ∃ b a c v, emojiOf w.before = .ok b ∧ emojiOf w.after = .ok a ∧
      fromTag w.val = .ok c ∧ valueStr F pr root c w.val = .ok v ∧
      s = '[' :: (padLeft 3 (w.time.str F) ++ ' ' :: b :: '-' :: a :: ' ' :: '-' :: ' ' :: (v ++ [']'])) := by
  rw [waypointStr] at h
  repeat' (split at h <;> try cases h)
  exact ⟨_, _, _, _, by assumption, by assumption, by assumption, by assumption, rfl⟩

/-- C131. Two waypoints that are shown alike have the same text for their times and for their values,
and are entered and left in the same way. -/
theorem c131_tells_waypoints_apart {F : Fl} {pr : Char → Bool} {root root' : Option Attrs} {w w' : Waypoint}
    {s : Str} (h : waypointStr F pr root w = .ok s) (h' : waypointStr F pr root' w' = .ok s) :
    w.time.str F = w'.time.str F ∧ w.before = w'.before ∧ w.after = w'.after ∧
      ∃ c c' v, fromTag w.val = .ok c ∧ fromTag w'.val = .ok c' ∧
        valueStr F pr root c w.val = .ok v ∧ valueStr F pr root' c' w'.val = .ok v := by
  obtain ⟨b, a, c, v, hb, ha, hc, hv, rfl⟩ := waypointStr_parts h
  obtain ⟨b', a', c', v', hb', ha', hc', hv', he⟩ := waypointStr_parts h'
  have ascii : ∀ t : T, ∀ x ∈ padLeft 3 (t.str F) ++ [' '], decide (x.toNat < 128) = true := by
    intro t x hx
    simp only [padLeft, List.mem_append, List.mem_replicate, List.mem_singleton] at hx
    rcases hx with (⟨-, rfl⟩ | hx) | rfl
    · decide
    · simpa using (tstr_shape F t).1 x hx
    · decide
  simp only [List.cons.injEq, true_and] at he
  have he' : (padLeft 3 (w.time.str F) ++ [' ']) ++ b :: '-' :: a :: ' ' :: '-' :: ' ' :: (v ++ [']']) =
      (padLeft 3 (w'.time.str F) ++ [' ']) ++ b' :: '-' :: a' :: ' ' :: '-' :: ' ' :: (v' ++ [']']) := by
    simpa using he
  have wide : ∀ {s : Str} {e : Char} {u : Str}, emojiOf s = .ok e →
      ∀ x, (e :: u).head? = some x → decide (x.toNat < 128) = false := by
    intro s e u hs x hx
    simp only [List.head?_cons, Option.some.injEq] at hx
    subst hx
    simpa using emojiOf_wide hs
  obtain ⟨e1, e2⟩ := span_unique (p := fun x => decide (x.toNat < 128)) (ascii w.time) (wide hb)
    (ascii w'.time) (wide hb') he'
  simp only [List.cons.injEq, true_and] at e2
  obtain ⟨rfl, rfl, e2⟩ := e2
  have e3 : v = v' := List.append_cancel_right e2
  subst e3
  refine ⟨?_, emojiOf_inj hb hb', emojiOf_inj ha ha', c, c', v, hc, hc', hv, hv'⟩
  have e4 := List.append_cancel_right e1
  simp only [padLeft] at e4
  have nospace : ∀ t : T, ∀ x, (t.str F).head? = some x → (x == ' ') = false := by
    intro t x hx
    obtain ⟨d, r, hd, hd'⟩ := (tstr_shape F t).2
    rw [hd] at hx
    simp only [List.head?_cons, Option.some.injEq] at hx
    subst hx
    simpa using hd'
  exact (span_unique (p := fun x => x == ' ') (by simp) (nospace w.time) (by simp) (nospace w'.time) e4).2

/-- C131. At whole frames, not negative, of the same file, waypoints shown alike are at the same time. -/
theorem c131_same_frame {F : Fl} (hF : F.Lawful) {pr : Char → Bool} {root : Attrs} {w w' : Waypoint} {s : Str}
    (n n' k : ℕ) (hn : n < 2 ^ 53) (hn' : n' < 2 ^ 53) (hk : 1 ≤ k) (hk6 : k < 10 ^ 6)
    (hroot : HasFps F root k) (hw : w.time = ⟨n, some (k:ℚ)⟩) (hw' : w'.time = ⟨n', some (k:ℚ)⟩)
    (h : waypointStr F pr (some root) w = .ok s) (h' : waypointStr F pr (some root) w' = .ok s) :
    n = n' := by
  have e := (c131_tells_waypoints_apart h h').1
  have r := c01_time_text_roundtrip hF root n k hn hk hk6 hroot
  have r' := c01_time_text_roundtrip hF root n' k hn' hk hk6 hroot
  rw [hw, hw'] at e
  rw [e, r'] at r
  simp only [Except.ok.injEq, T.mk.injEq, and_true] at r
  exact_mod_cast r.symm

theorem mem_putWp_cases {w x : Waypoint} {d : List Waypoint} (h : x ∈ putWp w d) : x = w ∨ x ∈ d := by
  induction d with
  | nil => simpa [putWp] using h
  | cons y d ih =>
    rw [putWp] at h
    split at h
    · rcases List.mem_cons.1 h with h | h
      · exact Or.inl h
      · exact Or.inr (by simp [h])
    · rcases List.mem_cons.1 h with h | h
      · exact Or.inr (by simp [h])
      · rcases ih h with h | h
        · exact Or.inl h
        · exact Or.inr (by simp [h])

theorem waypoints_wellMade {F : Fl} {ctx : Ctx} {n : Node} {ws : List Waypoint}
    (h : waypoints F ctx n = .ok ws) : ∀ w ∈ ws, WellMade w := by
  rw [waypoints] at h
  split at h
  · cases h; simp
  cases ht : strAttr n "type" with
  | error e => simp only [ht] at h; cases h
  | ok ty =>
    simp only [ht] at h
    cases hm : mapRes (Waypoint.fromTag F ctx.root ty) (waypointTags n) with
    | error e => simp only [hm] at h; cases h
    | ok l =>
      simp only [hm, Except.ok.injEq] at h
      subst h
      have hl : ∀ w ∈ l, WellMade w := fun w hw => by
        obtain ⟨x, -, hx⟩ := mapRes_mem hm hw
        exact wellMade_fromTag hx
      have key : ∀ (l d : List Waypoint), (∀ w ∈ l, WellMade w) → (∀ w ∈ d, WellMade w) →
          ∀ w ∈ l.foldl (fun d w => putWp w d) d, WellMade w := by
        intro l
        induction l with
        | nil => exact fun d _ h => h
        | cons x l ih =>
          intro d hl hd
          refine ih _ (fun w hw => hl w (by simp [hw])) fun w hw => ?_
          rcases mem_putWp_cases hw with rfl | hw
          · exact hl _ (by simp)
          · exact hd w hw
      exact key l [] hl (by simp)

/-- C131. The text of the timeline of a value that isn't animated. -/
theorem c131_still_timeline (F : Fl) (pr : Char → Bool) (ctx : Ctx) (c : VCls) (n : Node)
    (hn : n.name ≠ "animated") :
    timelineStr F pr ctx c n = .ok ("[timeline of ".toList ++ valueClassName c ++ ":{}]".toList) := by
  have : waypoints F ctx n = .ok [] := by simp [waypoints, waypointTags, hn]
  simp [timelineStr, this, mapRes, dictStr, join]

/-- C131. If the waypoints can be read, and the value at each can be shown, then so can the timeline:
its text has, in order, the time and the text of each waypoint. -/
theorem c131_timeline_text (F : Fl) (pr : Char → Bool) (ctx : Ctx) (c : VCls) (n : Node) (ws : List Waypoint)
    (hws : waypoints F ctx n = .ok ws)
    (hv : ∀ w ∈ ws, ∀ c, fromTag w.val = .ok c → ∃ s, valueStr F pr ctx.root c w.val = .ok s) :
    ∃ ts, List.Forall₂ (fun w t => ∃ s, waypointStr F pr ctx.root w = .ok s ∧
        t = w.time.str F ++ ": ".toList ++ s) ws ts ∧
      timelineStr F pr ctx c n =
        .ok ("[timeline of ".toList ++ valueClassName c ++ ":{".toList ++ join ", ".toList ts ++ "}]".toList) := by
  have ok : ∀ w ∈ ws, ∃ s, waypointStr F pr ctx.root w = .ok s := by
    intro w hw
    have hm := waypoints_wellMade hws w hw
    obtain ⟨c, hc⟩ := hm.2.2
    obtain ⟨v, hv⟩ := hv w hw c hc
    obtain ⟨b, a, -, -, -, h⟩ := (c131_waypoint_text F pr ctx.root w c hm hc).2 v hv
    exact ⟨_, h⟩
  have main : ∀ l : List Waypoint, (∀ w ∈ l, ∃ s, waypointStr F pr ctx.root w = .ok s) →
      ∃ r, mapRes (fun w => (waypointStr F pr ctx.root w).map fun s => (w.time.str F, s)) l = .ok r ∧
        List.Forall₂ (fun w t => ∃ s, waypointStr F pr ctx.root w = .ok s ∧
          t = w.time.str F ++ ": ".toList ++ s) l (r.map fun p => p.1 ++ ':' :: ' ' :: p.2) := by
    intro l hl
    induction l with
    | nil => exact ⟨[], rfl, .nil⟩
    | cons w l ih =>
      obtain ⟨s, hs⟩ := hl w (by simp)
      obtain ⟨r, hr, hf⟩ := ih fun x hx => hl x (by simp [hx])
      refine ⟨(w.time.str F, s) :: r, ?_, .cons ⟨s, hs, by simp⟩ hf⟩
      rw [mapRes, hs, hr]
      rfl
  obtain ⟨r, hr, hf⟩ := main ws ok
  refine ⟨_, hf, ?_⟩
  simp only [timelineStr, hws, hr, dictStr]
  simp

/-- An animated number. -/
def exShownReal : Node := .tag "animated" [("type", .str "real".toList)]
  [.tag "waypoint" [("time", .str "0s".toList), ("before", .str "halt".toList), ("after", .str "constant".toList)]
     [.tag "real" [("value", .str "1.5".toList)] []],
   .tag "waypoint" [("time", .str "1s 2f".toList), ("before", .str "auto".toList), ("after", .str "linear".toList)]
     [.tag "real" [("value", .str "-2".toList)] []]]

/-- The hypotheses of C131 are met. -/
example :
    let pr := fun _ : Char => false
    let ctx : Ctx := ⟨some [("fps", .str "24.000".toList)], true⟩
    waypoints double ctx exShownReal = .ok [
      ⟨⟨0, some 24⟩, "ease".toList, "constant".toList, .tag "real" [("value", .str "1.5".toList)] []⟩,
      ⟨⟨26, some 24⟩, "tcb".toList, "linear".toList, .tag "real" [("value", .str "-2".toList)] []⟩] ∧
    timelineStr double pr ctx .real exShownReal =
      .ok "[timeline of Real:{0f: [ 0f 🫐-🟥 - 1.5], 1s 2f: [1s 2f 🟢-🌽 - -2.0]}]".toList := by
  decide +kernel

end Sang
