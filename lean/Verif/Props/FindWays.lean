import Verif.Props.FindAttr

/-! # C147: the ways of writing a search -/

namespace Sang
open Spec

/-- The keys of a mapping are different from one another. -/
def KeysDiffer (kw : List (String × Want)) : Prop := (kw.map Prod.fst).Nodup

theorem lookup_none_of {β : Type} {kw : List (String × β)} {k : String} (h : k ∉ kw.map Prod.fst) :
    kw.lookup k = none := by
  induction kw with
  | nil => rfl
  | cons p kw ih =>
    simp only [List.map_cons, List.mem_cons, not_or] at h
    rw [List.lookup_cons, show (k == p.1) = false by simpa using h.1]
    exact ih h.2

theorem lookup_some_of {β : Type} {kw : List (String × β)} {k : String} (h : k ∈ kw.map Prod.fst) :
    (kw.lookup k).isSome = true := by
  induction kw with
  | nil => simp at h
  | cons p kw ih =>
    rw [List.lookup_cons]
    by_cases e : k = p.1
    · simp [e]
    · rw [show (k == p.1) = false by simpa using e]
      simp only [List.map_cons, List.mem_cons] at h
      exact ih (h.resolve_left e)

/-! ## A type by position or by name -/

/-- C147. `find_all(t, ...)` for text is `find_all(type=t, ...)`: the same layers, or the same
exception. -/
theorem c147_text_is_type (F : Fl) (d : Defaults) (s : Str) (kw : List (String × Want))
    (attrs : Option (List (String × Want))) (hkw : "type" ∉ kw.map Prod.fst) (r : Bool) (n : Node) :
    findAllLayers F d {pos := [.str s], kw := kw, attrs := attrs} r n =
      findAllLayers F d {kw := kw ++ [("type", .pv (.str s))], attrs := attrs} r n := by
  simp [findAllLayers, posArg, lookup_none_of hkw, criteria]

/-- C147. And `find_all(C, ...)` for a class of layers is `find_all(type=C, ...)`. -/
theorem c147_class_is_type (F : Fl) (d : Defaults) (s : Str) (kw : List (String × Want))
    (attrs : Option (List (String × Want))) (hkw : "type" ∉ kw.map Prod.fst) (r : Bool) (n : Node) :
    findAllLayers F d {pos := [.cls s], kw := kw, attrs := attrs} r n =
      findAllLayers F d {kw := kw ++ [("type", .cls s)], attrs := attrs} r n := by
  simp [findAllLayers, posArg, lookup_none_of hkw, criteria]

theorem mapRes_criterion_type {kw : List (String × Want)} {c : String × Want} {s : Str}
    (h : criterion c = criterion ("type", .pv (.str s))) :
    mapRes criterion (kw ++ [c]) = mapRes criterion (kw ++ [("type", .pv (.str s))]) := by
  induction kw with
  | nil => simp [mapRes, h]
  | cons p kw ih => simp only [List.cons_append, mapRes, ih]

/-- C147. A class stands for its name. -/
theorem c147_class_is_name (F : Fl) (d : Defaults) (s : Str) (kw : List (String × Want)) (r : Bool)
    (n : Node) :
    findAllLayers F d {pos := [.cls s], kw := kw} r n =
      findAllLayers F d {pos := [.str s], kw := kw} r n := by
  simp only [findAllLayers, posArg]
  by_cases h : (kw.lookup "type").isSome = true
  · simp [h]
  · simp only [h, if_false, Bool.false_eq_true]
    have : criteria {pos := [.cls s], kw := kw} (kw ++ [("type", .cls s)]) =
        criteria {pos := [.str s], kw := kw} (kw ++ [("type", .pv (.str s))]) := by
      simp only [criteria, Option.getD_none, addAttrs]
      exact mapRes_criterion_type (by simp [criterion])
    rw [this]

/-! ## Criteria in `attrs` -/

theorem addAttrs_disjoint {kw A : List (String × Want)} (hA : KeysDiffer A)
    (hd : ∀ k ∈ A.map Prod.fst, k ∉ kw.map Prod.fst ∧ k ≠ "attrs") : addAttrs kw A = .ok (kw ++ A) := by
  induction A generalizing kw with
  | nil => simp [addAttrs]
  | cons p A ih =>
    obtain ⟨k, w⟩ := p
    simp only [KeysDiffer, List.map_cons, List.nodup_cons] at hA
    have h1 := hd k (by simp)
    rw [addAttrs, if_neg (by simp [h1.2, lookup_none_of h1.1])]
    rw [ih hA.2]
    · simp
    · intro j hj
      have h2 := hd j (by simp only [List.map_cons, List.mem_cons]; exact Or.inr hj)
      refine ⟨?_, h2.2⟩
      simp only [List.map_append, List.map_cons, List.map_nil, List.mem_append, List.mem_singleton, not_or]
      refine ⟨h2.1, ?_⟩
      rintro rfl
      exact hA.1 hj

/-- C147. Criteria given in `attrs` are criteria like the others: `find_all(attrs={...}, k=v)` is
`find_all(k=v, ...)`. -/
theorem c147_attrs_are_criteria (F : Fl) (d : Defaults) {kw A : List (String × Want)} (hA : KeysDiffer A)
    (hd : ∀ k ∈ A.map Prod.fst, k ∉ kw.map Prod.fst ∧ k ≠ "attrs") (r : Bool) (n : Node) :
    findAllLayers F d {kw := kw, attrs := some A} r n = findAllLayers F d {kw := kw ++ A} r n := by
  simp [findAllLayers, posArg, criteria, addAttrs_disjoint hA hd, addAttrs]

/-! ## What is refused -/

theorem addAttrs_clash {kw A : List (String × Want)} {k : String} (hk : k ∈ A.map Prod.fst)
    (hc : k ∈ kw.map Prod.fst ∨ k = "attrs") : addAttrs kw A = .error .attr := by
  induction A generalizing kw with
  | nil => simp at hk
  | cons p A ih =>
    obtain ⟨j, w⟩ := p
    rw [addAttrs]
    by_cases hj : j = "attrs" ∨ (kw.lookup j).isSome = true
    · rw [if_pos hj]
    · rw [if_neg hj]
      simp only [List.map_cons, List.mem_cons] at hk
      rcases hk with rfl | hk
      · exfalso
        exact hj (hc.elim (fun h => Or.inr (lookup_some_of h)) Or.inl)
      · apply ih hk
        rcases hc with h | h
        · left; simp only [List.map_append, List.mem_append]; exact Or.inl h
        · exact Or.inr h

/-- C147. Refused, whatever is searched: more than one positional argument; a positional argument that is
no type, flag or function; a type given twice; and a criterion given twice. None of the exceptions
is the `ValueError` the code means to raise. -/
theorem c147_refused (F : Fl) (d : Defaults) (r : Bool) (n : Node) :
    (∀ p q l kw attrs, findAllLayers F d {pos := p :: q :: l, kw := kw, attrs := attrs} r n =
      .error .unbound) ∧
    (∀ kw attrs, findAllLayers F d {pos := [.other], kw := kw, attrs := attrs} r n = .error .type) ∧
    (∀ s kw attrs, "type" ∈ kw.map Prod.fst →
      findAllLayers F d {pos := [.str s], kw := kw, attrs := attrs} r n = .error .unbound ∧
      findAllLayers F d {pos := [.cls s], kw := kw, attrs := attrs} r n = .error .unbound) ∧
    (∀ kw A k, k ∈ A.map Prod.fst → k ∈ kw.map Prod.fst →
      findAllLayers F d {kw := kw, attrs := some A} r n = .error .attr) ∧
    (∀ s kw A, "type" ∉ kw.map Prod.fst → "type" ∈ A.map Prod.fst →
      findAllLayers F d {pos := [.str s], kw := kw, attrs := some A} r n = .error .attr ∧
      findAllLayers F d {pos := [.cls s], kw := kw, attrs := some A} r n = .error .attr) := by
  refine ⟨fun p q l kw attrs => rfl, fun kw attrs => rfl, fun s kw attrs h => ?_, fun kw A k h1 h2 => ?_,
    fun s kw A h1 h2 => ?_⟩
  · simp [findAllLayers, posArg, lookup_some_of h]
  · simp [findAllLayers, posArg, criteria, addAttrs_clash h1 (Or.inl h2)]
  · have h : ∀ w : Want, addAttrs (kw ++ [("type", w)]) A = .error .attr := fun w =>
      addAttrs_clash h2 (Or.inl (by simp))
    simp [findAllLayers, posArg, criteria, lookup_none_of h1, h]

/-! ## Flags and functions -/

/-- C147. With a flag or a function in first place, criteria that could be used make no difference. -/
theorem c147_special_ignores (F : Fl) (d : Defaults) (p : PosArg)
    (hp : (∃ b, p = .bool b) ∨ ∃ f, p = .fn f) (kw : List (String × PV))
    (hkw : ∀ c ∈ kw, c.1 ≠ "type") (r : Bool) (n : Node) :
    findAllLayers F d {pos := [p], kw := kw.map fun c => (c.1, Want.pv c.2)} r n =
      findAllLayers F d {pos := [p]} r n := by
  have ht : criteria {pos := [p], kw := kw.map fun c => (c.1, Want.pv c.2)}
      (kw.map fun c => (c.1, Want.pv c.2)) = .ok kw := mapRes_target_pv hkw
  have h0 : criteria {pos := [p]} [] = .ok [] := rfl
  have hm : ∀ sp, sp ≠ Special.none → matcher F d sp kw = matcher F d sp [] := by
    intro sp hsp
    funext x
    cases sp <;> first | exact absurd rfl hsp | rfl
  rcases hp with ⟨b, rfl⟩ | ⟨f, rfl⟩
  · simp only [findAllLayers, posArg, ht, h0, hm (.bool b) (by simp)]
  · simp only [findAllLayers, posArg, ht, h0, hm (.fn f) (by simp)]

/-! ## Alternatives -/

/-- The layers found by a search for some criteria. -/
theorem found_by_criteria {F : Fl} {d : Defaults} {kw : List (String × Want)} {n : Node} {l : List LObj}
    (h : findAllLayers F d {kw := kw} true n = .ok l) :
    ∃ ts, mapRes criterion kw = .ok ts ∧ (l.map Prod.snd).Sublist (layersBelow n) ∧
      ∀ x ∈ layersBelow n, ∃ c b, layerOf x = .ok c ∧ meetsAny F d (c, x) ts = .ok b ∧
        (x ∈ l.map Prod.snd ↔ b = true) := by
  cases ht : mapRes criterion kw with
  | error e => simp [findAllLayers, posArg, criteria, addAttrs, ht] at h
  | ok ts =>
    have hc : criteria {kw := kw} kw = .ok ts := ht
    rw [search_ok (sp := .none) rfl hc] at h
    obtain ⟨h1, h2, h3⟩ := h
    refine ⟨ts, rfl, by rw [h2]; exact List.filter_sublist, fun x hx => ?_⟩
    obtain ⟨b, hb⟩ := h1 x hx
    have hb' := hb
    rw [matcher_layer (layersBelow_isLayer hx)] at hb
    cases hl : layerOf x with
    | error e => rw [hl] at hb; cases hb
    | ok c =>
      rw [hl] at hb
      refine ⟨c, b, rfl, hb, ?_⟩
      rw [h2, List.mem_filter, hb']
      exact ⟨fun h => h.2, fun h => ⟨hx, h⟩⟩

theorem mapRes_mem_iff {kw : List (String × Want)} {ts : List (String × PV)} (h : mapRes criterion kw = .ok ts)
    (t : String × PV) : t ∈ ts ↔ ∃ c ∈ kw, criterion c = .ok t := by
  induction kw generalizing ts with
  | nil => simp only [mapRes] at h; injection h with h; simp [← h]
  | cons c kw ih =>
    rw [mapRes] at h
    cases hc : criterion c with
    | error e => rw [hc] at h; cases h
    | ok u =>
      rw [hc] at h
      cases hm : mapRes criterion kw with
      | error e => rw [hm] at h; cases h
      | ok us =>
        rw [hm] at h
        simp only at h
        injection h with h
        subst h
        rw [List.mem_cons, ih hm]
        constructor
        · rintro (rfl | ⟨c', h1, h2⟩)
          · exact ⟨c, by simp, hc⟩
          · exact ⟨c', List.mem_cons_of_mem _ h1, h2⟩
        · rintro ⟨c', h1, h2⟩
          rcases List.mem_cons.1 h1 with rfl | h1
          · rw [hc] at h2; injection h2 with h2; exact Or.inl h2.symm
          · exact Or.inr ⟨c', h1, h2⟩

/-- Lists of layers found below the same thing are the same if they have the same members. -/
theorem found_ext {F : Fl} {d : Defaults} {kw kw' : List (String × Want)} {n : Node} {l l' : List LObj}
    (h : findAllLayers F d {kw := kw} true n = .ok l) (h' : findAllLayers F d {kw := kw'} true n = .ok l')
    (hmem : ∀ x ∈ layersBelow n, x ∈ l.map Prod.snd ↔ x ∈ l'.map Prod.snd) : l = l' := by
  obtain ⟨ts, ht, _⟩ := found_by_criteria h
  obtain ⟨ts', ht', _⟩ := found_by_criteria h'
  have hc : criteria {kw := kw} kw = .ok ts := ht
  have hc' : criteria {kw := kw'} kw' = .ok ts' := ht'
  rw [search_ok (sp := .none) rfl hc] at h
  rw [search_ok (sp := .none) rfl hc'] at h'
  have e : l.map Prod.snd = l'.map Prod.snd := by
    rw [h.2.1, h'.2.1]
    apply List.filter_congr
    intro x hx
    have hm := hmem x hx
    rw [h.2.1, h'.2.1, List.mem_filter, List.mem_filter] at hm
    rw [Bool.eq_iff_iff]
    exact ⟨fun a => (hm.1 ⟨hx, a⟩).2, fun a => (hm.2 ⟨hx, a⟩).2⟩
  have key : ∀ (l l' : List LObj), (∀ x ∈ l, layerOf x.2 = .ok x.1) → (∀ x ∈ l', layerOf x.2 = .ok x.1) →
      l.map Prod.snd = l'.map Prod.snd → l = l' := by
    intro l
    induction l with
    | nil => intro l' _ _ e; cases l' with
      | nil => rfl
      | cons y l' => simp at e
    | cons x l ih => intro l' a b e; cases l' with
      | nil => simp at e
      | cons y l' =>
        simp only [List.map_cons, List.cons.injEq] at e
        have h1 := a x (by simp)
        have h2 := b y (by simp)
        rw [e.1, h2] at h1
        injection h1 with h1
        rw [ih l' (fun z hz => a z (by simp [hz])) (fun z hz => b z (by simp [hz])) e.2]
        congr 1
        exact Prod.ext h1.symm e.1
  exact key l l' h.2.2 h'.2.2 e

/-- C147. A search for some criteria and for others together finds what either of the searches finds on
its own, and nothing else. -/
theorem c147_together_finds_either {F : Fl} {d : Defaults} {kw kw' : List (String × Want)} {n : Node}
    {l l₁ l₂ : List LObj} (h : findAllLayers F d {kw := kw ++ kw'} true n = .ok l)
    (h₁ : findAllLayers F d {kw := kw} true n = .ok l₁)
    (h₂ : findAllLayers F d {kw := kw'} true n = .ok l₂) (x : LObj) : x ∈ l ↔ x ∈ l₁ ∨ x ∈ l₂ := by
  have cls : ∀ {kw l}, findAllLayers F d {kw := kw} true n = .ok l →
      ∀ x : LObj, x ∈ l ↔ x.2 ∈ l.map Prod.snd ∧ layerOf x.2 = .ok x.1 := by
    intro kw l h x
    obtain ⟨ts, ht, _⟩ := found_by_criteria h
    have hc : criteria {kw := kw} kw = .ok ts := ht
    rw [search_ok (sp := .none) rfl hc] at h
    constructor
    · intro hx; exact ⟨List.mem_map_of_mem hx, h.2.2 x hx⟩
    · rintro ⟨hx, hc⟩
      obtain ⟨y, hy, e⟩ := List.mem_map.1 hx
      have := h.2.2 y hy
      rw [e, hc] at this
      injection this with this
      rwa [show x = y from Prod.ext this e.symm]
  obtain ⟨ts, ht, hs, hm⟩ := found_by_criteria h
  obtain ⟨ts₁, ht₁, hs₁, hm₁⟩ := found_by_criteria h₁
  obtain ⟨ts₂, ht₂, hs₂, hm₂⟩ := found_by_criteria h₂
  rw [cls h, cls h₁, cls h₂, ← or_and_right]
  refine and_congr_left fun hc => ?_
  by_cases hx : x.2 ∈ layersBelow n
  · obtain ⟨c, b, e, a1, a2⟩ := hm _ hx
    obtain ⟨c₁, b₁, e₁, a1₁, a2₁⟩ := hm₁ _ hx
    obtain ⟨c₂, b₂, e₂, a1₂, a2₂⟩ := hm₂ _ hx
    rw [e] at e₁ e₂
    injection e₁ with e₁
    injection e₂ with e₂
    subst e₁ e₂
    rw [a2, a2₁, a2₂, meetsAny_true a1, meetsAny_true a1₁, meetsAny_true a1₂]
    simp only [mapRes_mem_iff ht, mapRes_mem_iff ht₁, mapRes_mem_iff ht₂, List.mem_append]
    constructor
    · rintro ⟨k, w, a, ⟨c', h1 | h1, h2⟩, h3⟩
      · exact Or.inl ⟨k, w, a, ⟨c', h1, h2⟩, h3⟩
      · exact Or.inr ⟨k, w, a, ⟨c', h1, h2⟩, h3⟩
    · rintro (⟨k, w, a, ⟨c', h1, h2⟩, h3⟩ | ⟨k, w, a, ⟨c', h1, h2⟩, h3⟩)
      · exact ⟨k, w, a, ⟨c', Or.inl h1, h2⟩, h3⟩
      · exact ⟨k, w, a, ⟨c', Or.inr h1, h2⟩, h3⟩
  · exact ⟨fun h => absurd (hs.subset h) hx,
      fun h => h.elim (fun h => absurd (hs₁.subset h) hx) (fun h => absurd (hs₂.subset h) hx)⟩

/-- C147. The order of the criteria makes no difference to what is found. -/
theorem c147_order {F : Fl} {d : Defaults} {kw kw' : List (String × Want)} {n : Node}
    {l l' : List LObj} (hp : kw.Perm kw') (h : findAllLayers F d {kw := kw} true n = .ok l)
    (h' : findAllLayers F d {kw := kw'} true n = .ok l') : l = l' := by
  refine found_ext h h' fun x hx => ?_
  obtain ⟨ts, ht, hs, hm⟩ := found_by_criteria h
  obtain ⟨ts', ht', hs', hm'⟩ := found_by_criteria h'
  obtain ⟨c, b, e, a1, a2⟩ := hm _ hx
  obtain ⟨c', b', e', a1', a2'⟩ := hm' _ hx
  rw [e] at e'
  injection e' with e'
  subst e'
  rw [a2, a2', meetsAny_true a1, meetsAny_true a1']
  simp only [mapRes_mem_iff ht, mapRes_mem_iff ht', hp.mem_iff]

/-- A version that is no number. -/
def exBadVersion : Node := .tag "canvas" []
  [.tag "layer" [("type", .str "circle".toList), ("desc", .str "head".toList), ("version", .str "x".toList)] []]

/-- C147, what fails: the order decides whether an exception is raised, as the first criterion met settles
it. -/
theorem c147_order_of_exceptions_fails :
    ¬ ∀ (kw kw' : List (String × Want)) (n : Node), kw.Perm kw' →
      findAllLayers double .initial {kw := kw} true n = findAllLayers double .initial {kw := kw'} true n := by
  intro h
  have := h [("desc", .pv (.str "head".toList)), ("version", .pv (.float 1))]
    [("version", .pv (.float 1)), ("desc", .pv (.str "head".toList))] exBadVersion (List.Perm.swap _ _ _)
  revert this
  decide +kernel

/-- C147's hypotheses on a concrete document: a search by type and description, written in four ways. -/
example :
    let n : Node := .tag "canvas" [] [exNamed "head" "true", exLayer "star", exLayer "text"]
    findAllLayers double .initial {pos := [.str "star".toList], kw := [("desc", .pv (.str "head".toList))]} true n =
      .ok [(lcCircle, exNamed "head" "true"), (lcStar, exLayer "star")] ∧
    findAllLayers double .initial
      {kw := [("type", .cls "Star".toList)], attrs := some [("desc", .pv (.str "head".toList))]} true n =
      .ok [(lcCircle, exNamed "head" "true"), (lcStar, exLayer "star")] ∧
    findAllLayers double .initial {kw := [("type", .cls "Star".toList)]} true n = .ok [(lcStar, exLayer "star")] ∧
    findAllLayers double .initial {kw := [("desc", .pv (.str "head".toList))]} true n =
      .ok [(lcCircle, exNamed "head" "true")] ∧
    findAllLayers double .initial {pos := [.bool true], kw := [("desc", .pv (.str "tail".toList))]} true n =
      findAllLayers double .initial {pos := [.bool true]} true n := by decide +kernel

end Sang
