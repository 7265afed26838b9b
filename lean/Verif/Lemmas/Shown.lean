import Verif.Find

/-! # The text of a value, for a message in the log -/

namespace Sang

theorem mapRes_ne {α β : Type} {f : α → Res β} {e : Err} (h : ∀ x, f x ≠ .error e) (l : List α) :
    mapRes f l ≠ .error e := by
  induction l with
  | nil => simp [mapRes]
  | cons x r ih =>
    rw [mapRes]
    cases hx : f x with
    | error e' => intro he; simp only [Except.error.injEq] at he; exact h x (by rw [hx, he])
    | ok y =>
      cases hr : mapRes f r with
      | error e' => intro he; simp only [Except.error.injEq] at he; exact ih (by rw [hr, he])
      | ok ys => simp

theorem pyFloat_ne_attr (F : Fl) (s : Str) : pyFloat F s ≠ .error .attr := by
  rw [pyFloat]; split <;> [simp; (split <;> [simp; (split <;> [simp; (split <;> simp)])])]

theorem pyInt_ne_attr (s : Str) : pyInt s ≠ .error .attr := by
  simp only [pyInt]; split <;> [simp; (split <;> [simp; (split <;> simp)])]

theorem simpleText_ne_attr (n : Node) : simpleText n ≠ .error .attr := by
  rw [simpleText]; split <;> simp

theorem getFloat_ne_attr (F : Fl) (n : Node) : getFloat F n ≠ .error .attr := by
  rw [getFloat]
  split
  · next e h => rintro ⟨⟩; exact simpleText_ne_attr n h
  · exact pyFloat_ne_attr F _

theorem getInt_ne_attr (n : Node) : getInt n ≠ .error .attr := by
  rw [getInt]
  split
  · next e h => rintro ⟨⟩; exact simpleText_ne_attr n h
  · exact pyInt_ne_attr _

theorem getBool_ne_attr (n : Node) : getBool n ≠ .error .attr := by
  rw [getBool]
  split
  · next e h => rintro ⟨⟩; exact simpleText_ne_attr n h
  · simp

theorem collectParts_ne_attr (F : Fl) (l : List Str) (parts : Parts) : collectParts F parts l ≠ .error .attr := by
  induction l generalizing parts with
  | nil => simp [collectParts]
  | cons s r ih =>
    rw [collectParts]
    split
    · next e h =>
      rw [addPart] at h
      split at h
      · cases h
      · split at h
        · cases h
        · split at h
          · cases h; simp
          · split at h
            · next e' h' => cases h; rintro ⟨⟩; exact pyFloat_ne_attr F _ h'
            · cases h
    · exact ih _

theorem parseSpec_ne_attr (F : Fl) (fps : Option ℚ) (s : Str) : parseSpec F fps s ≠ .error .attr := by
  rw [parseSpec]
  split
  · next e h => rintro ⟨⟩; exact collectParts_ne_attr F _ _ h
  · next parts h =>
    simp only [framesOf]
    split
    · next e h =>
      split at h
      · split at h
        · cases h; simp
        · cases h
      · cases h
    · split
      · simp
      · split
        · simp
        · split <;> simp

theorem getTime_ne_attr (F : Fl) (root : Option Attrs) (n : Node) : getTime F root n ≠ .error .attr := by
  rw [getTime]
  split
  · next e h => rintro ⟨⟩; exact simpleText_ne_attr n h
  · rw [T.new]
    split
    · next e h =>
      rw [readFps.eq_def] at h
      split at h
      · cases h
      · split at h
        · cases h; simp
        · next a _ =>
          split at h
          · next e' h' =>
            cases h
            rintro ⟨⟩
            cases a with
            | str s => exact pyFloat_ne_attr F s h'
            | _ => cases h'
          · split at h <;> cases h; simp
    · simp only
      split
      · next e h => rintro ⟨⟩; exact parseSpec_ne_attr F _ _ h
      · simp

theorem colorTuple_ne_attr (F : Fl) (n : Node) : colorTuple F n ≠ .error .attr := by
  apply mapRes_ne
  intro dim
  rw [colorComponent]
  split
  · simp
  · rw [floatString]
    split
    · simp
    · exact pyFloat_ne_attr F _

theorem colorHex_ne_attr (F : Fl) (n : Node) : colorHex F n ≠ .error .attr := by
  rw [colorHex]
  split
  · next e h => rintro ⟨⟩; exact colorTuple_ne_attr F n h
  · simp

theorem gradientStops_ne_attr (F : Fl) (n : Node) : gradientStops F n ≠ .error .attr := by
  simp only [gradientStops]
  split
  · simp
  · split
    · next e h =>
      rintro ⟨⟩
      refine mapRes_ne (f := stopOf F) (e := .attr) (fun c => ?_) _ h
      rw [stopOf]
      split
      · simp
      · next a _ =>
        split
        · next e' h' =>
          rintro ⟨⟩
          cases a with
          | str s => exact pyFloat_ne_attr F s h'
          | _ => cases h'
        · simp
    · simp

theorem vectorTuple_ne_attr (F : Fl) (n : Node) : vectorTuple F n ≠ .error .attr := by
  apply mapRes_ne
  intro k
  rw [floatOpt.eq_def]
  split
  · simp
  · exact pyFloat_ne_attr F _

/-- Making the text of a value without others in it doesn't raise `AttributeError`. -/
theorem plainStr_ne_attr (F : Fl) (pr : Char → Bool) (root : Option Attrs) (c : VCls) (n : Node) :
    plainStr F pr root c n ≠ .error .attr := by
  rw [plainStr.eq_def]
  split
  · rw [gradientStr]
    split
    · next e h => rintro ⟨⟩; exact gradientStops_ne_attr F n h
    · split
      · next e h =>
        rintro ⟨⟩
        refine mapRes_ne (f := stopStr F) (e := .attr) (fun c => ?_) _ h
        rw [stopStr]
        split
        · next e' h' =>
          rintro ⟨⟩
          rw [colorStr] at h'
          split at h'
          · cases h'
          · exact colorHex_ne_attr F _ h'
        · simp
      · simp
  · split
    · simp
    · clear * -
      cases c with
      | real | angle =>
        simp only
        split
        · next e h => rintro ⟨⟩; exact getFloat_ne_attr F n h
        · simp
      | integer =>
        simp only
        split
        · next e h => rintro ⟨⟩; exact getInt_ne_attr n h
        · simp
      | bool =>
        simp only
        split
        · next e h => rintro ⟨⟩; exact getBool_ne_attr n h
        · simp
      | time =>
        simp only
        split
        · next e h => rintro ⟨⟩; exact getTime_ne_attr F root n h
        · simp
      | color => exact colorHex_ne_attr F n
      | vector =>
        simp only [vectorStr]
        split
        · split
          · next e h => rintro ⟨⟩; exact vectorTuple_ne_attr F n h
          · simp
        · simp
      | _ => simp

theorem mapRes_ne_mem {α β : Type} {f : α → Res β} {e : Err} {l : List α} (h : mapRes f l = .error e) :
    ∃ x ∈ l, f x = .error e := by
  induction l with
  | nil => cases h
  | cons x r ih =>
    rw [mapRes] at h
    cases hx : f x with
    | error e' => rw [hx] at h; cases h; exact ⟨x, by simp, hx⟩
    | ok y =>
      rw [hx] at h
      cases hr : mapRes f r with
      | error e' =>
        rw [hr] at h; cases h
        obtain ⟨z, hz, hz'⟩ := ih hr
        exact ⟨z, by simp [hz], hz'⟩
      | ok ys => rw [hr] at h; cases h

/-- What is equal to something doesn't raise `AttributeError` when its text is made. -/
theorem shown_of_eq {F : Fl} {a : LAttr} {w : PV} (h : attrEq F a w = .ok true) : attrShown F a ≠ .error .attr := by
  intro hs
  cases a with
  | val c n =>
    rw [attrShown.eq_def] at hs
    split at hs
    all_goals try cases hs
    next c' n' hc' he =>
    cases he
    by_cases hcan : c = .canvas ∧ n.name ≠ "animated"
    · obtain ⟨rfl, hn⟩ := hcan
      have hE : attrEq F (.val .canvas n) w = canvasEq F n w := rfl
      rw [hE, canvasEq, canvasLayers] at h
      by_cases hk : n.tagKids.all (fun x => x.name = "layer") = true
      · simp only [hk, if_true] at h
        have hemp : n.tagKids = [] := by
          cases w with
          | val c r m =>
            split at h
            · split at h
              · cases h
              · simp only [Except.ok.injEq, Bool.and_eq_true, List.isEmpty_iff] at h
                exact h.1
            · split at h <;> cases h
            · cases h
          | _ => simp at h
        simp only [hn, ne_eq, not_false_eq_true, and_self, if_true, canvasStr, hemp] at hs
        simp [mapRes] at hs
      · simp [hk] at h
    · rw [if_neg hcan, valueStr] at hs
      by_cases hcomp : c = .composite ∧ n.name ≠ "animated"
      · obtain ⟨rfl, hn⟩ := hcomp
        have hE : attrEq F (.val .composite n) w = compositeEq F none n w := rfl
        rw [hE, compositeEq.eq_def] at h
        rw [if_pos ⟨rfl, hn⟩] at hs
        cases hd : compositeDict n with
        | error e =>
          rw [hd] at h
          simp only at h
          split at h <;> try cases h
          split at h <;> cases h
        | ok l =>
          rw [hd] at hs
          simp only at hs
          cases hm : mapRes (partStr F (fun _ => true) none) l with
          | ok ps => rw [hm] at hs; cases hs
          | error e =>
            rw [hm] at hs
            cases hs
            obtain ⟨p, -, hp⟩ := mapRes_ne_mem hm
            rw [partStr] at hp
            split at hp
            · next e' h' => cases hp; exact plainStr_ne_attr _ _ _ _ _ h'
            · cases hp
      · rw [if_neg hcomp] at hs
        cases hp : plainStr F (fun _ => true) none c n with
        | ok s => rw [hp] at hs; cases hs
        | error e => rw [hp] at hs; cases hs; exact plainStr_ne_attr _ _ _ _ _ hp
  | _ => cases hs

theorem attrShown_plain {F : Fl} {c : VCls} {n : Node} (h1 : c ≠ .time) (h2 : c ≠ .canvas) (h3 : c ≠ .composite)
    {s : Str} (h : plainStr F (fun _ => true) none c n = .ok s) : attrShown F (.val c n) = .ok () := by
  have key : attrShown F (.val c n) =
      match if c = .canvas ∧ n.name ≠ "animated" then canvasStr F (fun _ => true) [] n
        else valueStr F (fun _ => true) none c n with
      | .error e => .error e
      | .ok _ => .ok () := by
    cases c <;> first | rfl | exact absurd rfl h1
  rw [key, if_neg (fun e => h2 e.1), valueStr, if_neg (fun e => h3 e.1), h]

theorem attrShown_ne_attr {F : Fl} {c : VCls} {n : Node} (h2 : c ≠ .canvas) (h3 : c ≠ .composite) :
    attrShown F (.val c n) ≠ .error .attr := by
  by_cases h1 : c = .time
  · subst h1; simp [attrShown]
  have key : attrShown F (.val c n) =
      match if c = .canvas ∧ n.name ≠ "animated" then canvasStr F (fun _ => true) [] n
        else valueStr F (fun _ => true) none c n with
      | .error e => .error e
      | .ok _ => .ok () := by
    cases c <;> first | rfl | exact absurd rfl h1
  rw [key, if_neg (fun e => h2 e.1), valueStr, if_neg (fun e => h3 e.1)]
  cases h : plainStr F (fun _ => true) none c n with
  | error e => rintro ⟨⟩; exact plainStr_ne_attr _ _ _ _ _ h
  | ok s => simp

theorem wantShown_ne_attr {F : Fl} {v : PV} (h : ∀ r m, v ≠ .val .composite r m) : wantShown F v ≠ .error .attr := by
  rw [wantShown.eq_def]
  split
  · simp
  · next c r n _ =>
    rw [valueStr, if_neg (by rintro ⟨rfl, -⟩; exact h _ _ rfl)]
    cases hp : plainStr F (fun _ => true) r c n with
    | error e => rintro ⟨⟩; exact plainStr_ne_attr _ _ _ _ _ hp
    | ok s => simp
  · simp

/-- What a layer meets one criterion for. -/
theorem meets_error {F : Fl} {d : Defaults} {k : String} {v : PV} {x : LObj} {e : Err} (h : tryAttr F d k v x = .error e) :
    meetsAny F d x [(k, v)] = if e = .attr then .ok false else .error e := by
  simp only [meetsAny, h]
  cases e <;> rfl

theorem attrShown_string {F : Fl} {n : Node} : attrShown F (.val .string n) = .ok () := by
  by_cases hn : n.name = "animated" <;>
  exact attrShown_plain (by simp) (by simp) (by simp) (by rw [plainStr.eq_def]; simp [hn]; rfl)

theorem attrShown_integer {F : Fl} {n : Node} {i : ℤ} (h : getInt n = .ok i) : attrShown F (.val .integer n) = .ok () := by
  by_cases hn : n.name = "animated" <;>
  exact attrShown_plain (by simp) (by simp) (by simp) (by rw [plainStr.eq_def]; simp [hn, h]; rfl)

theorem attrShown_bool {F : Fl} {n : Node} {i : Bool} (h : getBool n = .ok i) : attrShown F (.val .bool n) = .ok () := by
  by_cases hn : n.name = "animated" <;>
  exact attrShown_plain (by simp) (by simp) (by simp) (by rw [plainStr.eq_def]; simp [hn, h]; rfl)

theorem attrShown_real {F : Fl} {n : Node} {i : ℚ} (h : getFloat F n = .ok i) : attrShown F (.val .real n) = .ok () := by
  by_cases hn : n.name = "animated" <;>
  exact attrShown_plain (by simp) (by simp) (by simp) (by rw [plainStr.eq_def]; simp [hn, h]; rfl)

theorem attrShown_angle {F : Fl} {n : Node} {i : ℚ} (h : getFloat F n = .ok i) : attrShown F (.val .angle n) = .ok () := by
  by_cases hn : n.name = "animated" <;>
  exact attrShown_plain (by simp) (by simp) (by simp) (by rw [plainStr.eq_def]; simp [hn, h]; rfl)

theorem attrShown_color {F : Fl} {n : Node} {s : Str} (h : colorHex F n = .ok s) : attrShown F (.val .color n) = .ok () := by
  by_cases hn : n.name = "animated" <;>
  exact attrShown_plain (by simp) (by simp) (by simp) (by rw [plainStr.eq_def]; simp [hn, h]; rfl)

end Sang
