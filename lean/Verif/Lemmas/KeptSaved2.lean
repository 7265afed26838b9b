import Verif.Lemmas.KeptSaved

/-!
# Lemmas: texts in an animation that has been saved and opened
-/

namespace Sang

open Spec

theorem clean_descTags {n : Node} (hc : Clean n) : ∀ x ∈ n.descTags, Clean x := by
  intro x hx
  have : x ∈ (placesIn [] 0 n.kids).map Prod.snd := by rw [placesIn_nodes]; exact hx
  obtain ⟨⟨q, x'⟩, hq, rfl⟩ := List.mem_map.1 this
  obtain ⟨r, -, -, hr, -⟩ := mem_places.1 hq
  exact clean_at hc hr

theorem clean_paramName {x : Node} (hc : Clean x) {a : AttrV} (h : x.attrs.get "name" = some a) :
    ∃ s, a = .str s ∧ OneLine s := by
  cases x with
  | text s => cases h
  | tag n at' ks =>
    have hm : ("name", a) ∈ at' := by
      rw [Node.attrs, Attrs.get] at h
      obtain ⟨l1, l2, rfl, -⟩ := List.lookup_eq_some_iff.1 h
      simp
    exact hc.1 _ hm (by show "name" ≠ "time"; decide)

theorem getParam_opened {F : Fl} {f : Str} {y v : Node} {c : VCls} (hx : y.XmlOk F) (hc : Clean y)
    (h : getParam f y = .ok (c, v)) : getParam f (y.opened F) = .ok (c, v.opened F) := by
  rw [getParam] at h
  split at h
  · cases h
  next p hp =>
  split at h
  · cases h
  next s c0 u hv =>
  injection h with h
  injection h with e1 e2
  subst e1; subst e2
  have hpd : p ∈ y.descTags := by
    obtain ⟨h1, h2, h3⟩ := findParam_some hp
    exact List.mem_filter.2 ⟨h3, h2⟩
  have hpc := clean_descTags hc p hpd
  have e := findParam_opened hx (fun x hx _ a ha => clean_paramName (clean_descTags hc x hx) ha) f
  rw [hp] at e
  have e' := (nameAndValue_opened (xmlOk_descTags hx p hpd) (fun _ a ha => clean_paramName hpc ha) hv).1
  rw [getParam, e, Option.map_some]
  simp only [e']

theorem isLayer_tag {ty : String} {y : Node} (h : IsLayer ty y) : y.isTag = true := by
  cases y with
  | text s => simp [IsLayer, Node.name] at h
  | tag => rfl

theorem itemText_opened {F : Fl} {tbl : List (List Place)} {e v : Node} (hx : e.XmlOk F) (hc : Clean e)
    {x : ℕ × ℕ} (hv : itemText tbl e x = some v) : itemText tbl (e.opened F) x = some (v.opened F) := by
  obtain ⟨p, y, c, hp, hy, h⟩ := itemText_some.1 hv
  refine itemText_some.2 ⟨p, y.opened F, c, hp, opened_at hc hy ?_, getParam_opened (xmlOk_at hx hy) (clean_at hc hy) h⟩
  cases y with
  | text s => simp [getParam, findParam, Node.descTags, Node.kids, Node.nodesIn] at h
  | tag => rfl

/-! ## Documents that differ in certain places -/

theorem shape_cases {e b : Node} (h : shape e = shape b) :
    (∃ s, e = .text s ∧ b = .text s) ∨ ∃ n a ks ks', e = .tag n a ks ∧ b = .tag n a ks' ∧ ks.length = ks'.length := by
  cases e with
  | text s =>
    cases b with
    | text s' => simp only [shape, Shape.text.injEq] at h; exact .inl ⟨s, rfl, by rw [h]⟩
    | tag => simp [shape] at h
  | tag n a ks =>
    cases b with
    | text s' => simp [shape] at h
    | tag n' a' ks' =>
      simp only [shape, Shape.element.injEq] at h
      obtain ⟨rfl, rfl, h⟩ := h
      exact .inr ⟨n, a, ks, ks', rfl, rfl, h⟩

/-- The same, except in places in `P`, where there are elements. -/
structure SameOutside (P : List ℕ → Prop) (e b : Node) : Prop where
  rest : ∀ q, (¬ ∃ p, P p ∧ p <+: q) → shapeAt q e = shapeAt q b
  tags : ∀ p, P p → ∃ y z, nodeAt p e = some y ∧ nodeAt p b = some z ∧ y.isTag = true ∧ z.isTag = true

theorem SameOutside.top {P : List ℕ → Prop} {e b : Node} (h : SameOutside P e b) (hP : ¬ P []) : shape e = shape b := by
  have := h.rest [] (by rintro ⟨p, hp, hq⟩; rw [List.prefix_nil.1 hq] at hp; exact hP hp)
  simpa [shapeAt, nodeAt] using this

theorem SameOutside.kid {P : List ℕ → Prop} {n : String} {a : Attrs} {ks ks' : List Node}
    (h : SameOutside P (.tag n a ks) (.tag n a ks')) (hP : ¬ P []) {i : ℕ} {x y : Node} (hx : ks[i]? = some x)
    (hy : ks'[i]? = some y) : SameOutside (fun p => P (i :: p)) x y := by
  constructor
  · intro q hq
    have := h.rest (i :: q) (by
      rintro ⟨p, hp, hpq⟩
      cases p with
      | nil => exact hP hp
      | cons j p =>
        rw [List.cons_prefix_cons] at hpq
        obtain ⟨rfl, hpq⟩ := hpq
        exact hq ⟨p, hp, hpq⟩)
    simp only [shapeAt, nodeAt_cons, Node.kids, hx, hy, Option.bind_some] at this
    exact this
  · intro p hp
    obtain ⟨u, w, h1, h2, h3⟩ := h.tags _ hp
    simp only [nodeAt_cons, Node.kids, hx, hy, Option.bind_some] at h1 h2
    exact ⟨u, w, h1, h2, h3⟩

theorem SameOutside.like {P : List ℕ → Prop} {x y : Node} (h : SameOutside P x y) : KidLike x y := by
  by_cases hP : P []
  · obtain ⟨u, w, h1, h2, h3, h4⟩ := h.tags _ hP
    injection h1 with h1
    injection h2 with h2
    subst h1; subst h2
    exact KidLike.of_tags h3 h4
  · rcases shape_cases (h.top hP) with ⟨s, rfl, rfl⟩ | ⟨n, a, ks, ks', rfl, rfl, -⟩
    · exact KidLike.refl _
    · exact KidLike.of_tags rfl rfl

theorem SameOutside.kids {P : List ℕ → Prop} {n : String} {a : Attrs} {ks ks' : List Node}
    (h : SameOutside P (.tag n a ks) (.tag n a ks')) (hP : ¬ P []) (hl : ks.length = ks'.length) :
    List.Forall₂ KidLike ks ks' := by
  rw [List.forall₂_iff_get]
  refine ⟨hl, fun i hi hi' => ?_⟩
  exact (h.kid hP (i := i) (List.getElem?_eq_getElem hi) (List.getElem?_eq_getElem hi')).like

theorem kidLike_symm {x y : Node} (h : KidLike x y) : KidLike y x :=
  ⟨h.1.symm, fun e => (h.2 (h.1.trans e)).symm⟩

theorem kidsLike_symm {ks ks' : List Node} (h : List.Forall₂ KidLike ks ks') : List.Forall₂ KidLike ks' ks := by
  induction h with
  | nil => exact .nil
  | cons h _ ih => exact .cons (kidLike_symm h) ih

/-- They stay so. -/
theorem SameOutside.opened {F : Fl} : ∀ {q : List ℕ} {P : List ℕ → Prop} {e b : Node}, SameOutside P e b → Clean e →
    Clean b → (¬ ∃ p, P p ∧ p <+: q) → shapeAt q (e.opened F) = shapeAt q (b.opened F) := by
  intro q
  induction q with
  | nil =>
    intro P e b h hc hb hq
    have hP : ¬ P [] := fun h' => hq ⟨[], h', List.prefix_rfl⟩
    rcases shape_cases (h.top hP) with ⟨s, rfl, rfl⟩ | ⟨n, a, ks, ks', rfl, rfl, hl⟩
    · rfl
    · have hk := h.kids hP hl
      rcases hc.2.1 with ⟨h1, h2⟩ | ⟨s, rfl⟩
      · rw [solid_opened h1 h2, solid_opened (kidsLike_noAdj hk h1) fun s hs => h2 s (kidsLike_texts hk hs)]
        simp [shapeAt, nodeAt, shape, hl]
      · rcases hk with _ | ⟨hxy, hk⟩
        cases hk
        rw [hxy.2 rfl]
  | cons i q ih =>
    intro P e b h hc hb hq
    have hP : ¬ P [] := fun h' => hq ⟨[], h', List.nil_prefix⟩
    rcases shape_cases (h.top hP) with ⟨s, rfl, rfl⟩ | ⟨n, a, ks, ks', rfl, rfl, hl⟩
    · rfl
    · have hk := h.kids hP hl
      rcases hc.2.1 with ⟨h1, h2⟩ | ⟨s, rfl⟩
      · rw [solid_opened h1 h2, solid_opened (kidsLike_noAdj hk h1) fun s hs => h2 s (kidsLike_texts hk hs)]
        simp only [shapeAt, nodeAt_cons, Node.kids, List.getElem?_map]
        cases hi : ks[i]? with
        | none =>
          have hi' : ks'[i]? = none := by
            rw [List.getElem?_eq_none_iff] at hi ⊢; omega
          rw [hi']
        | some x =>
          obtain ⟨y, hy⟩ : ∃ y, ks'[i]? = some y := by
            rw [List.getElem?_eq_some_iff] at hi
            obtain ⟨hi, -⟩ := hi
            exact ⟨_, List.getElem?_eq_getElem (by omega)⟩
          rw [hy]
          simp only [Option.map_some, Option.bind_some]
          refine ih (h.kid hP hi hy) (hc.kid (List.mem_of_getElem? hi)) (hb.kid (List.mem_of_getElem? hy)) ?_
          rintro ⟨p, hp, hpq⟩
          exact hq ⟨i :: p, hp, by rw [List.cons_prefix_cons]; exact ⟨rfl, hpq⟩⟩
      · rcases hk with _ | ⟨hxy, hk⟩
        cases hk
        rw [hxy.2 rfl]

/-- What is clean outside those places and in them is clean. -/
theorem SameOutside.clean : ∀ {e : Node} {P : List ℕ → Prop} {b : Node}, SameOutside P e b → Clean b →
    (∀ p y, P p → nodeAt p e = some y → Clean y) → Clean e := by
  suffices hk : ∀ (k : ℕ) (e : Node) (P : List ℕ → Prop) (b : Node), sizeOf e ≤ k → SameOutside P e b → Clean b →
      (∀ p y, P p → nodeAt p e = some y → Clean y) → Clean e from fun {e P b} => hk _ e P b le_rfl
  intro k
  induction k with
  | zero => intro e P b hk; cases e <;> simp at hk
  | succ k ih =>
    intro e P b hk h hb hc
    by_cases hP : P []
    · exact hc [] e hP rfl
    · rcases shape_cases (h.top hP) with ⟨s, rfl, rfl⟩ | ⟨n, a, ks, ks', rfl, rfl, hl⟩
      · trivial
      · refine ⟨hb.1, kidsLike_solid (kidsLike_symm (h.kids hP hl)) hb.2.1, cleanAll_iff.2 fun x hx => ?_⟩
        obtain ⟨i, hi, rfl⟩ := List.getElem_of_mem hx
        have e1 : ks[i]? = some ks[i] := List.getElem?_eq_getElem hi
        have e2 : ks'[i]? = some ks'[i] := List.getElem?_eq_getElem (by omega)
        refine ih _ _ _ ?_ (h.kid hP e1 e2) (hb.kid (List.getElem_mem _)) ?_
        · have := List.sizeOf_lt_of_mem hx
          simp at hk
          omega
        · intro p y hp hy
          exact hc (i :: p) y hp (by rw [nodeAt_cons, Node.kids, e1]; exact hy)

/-! ## Documents with other texts -/

theorem Kept.outside {tbl : List (List Place)} {b e : Node} (hb : Kept tbl b b) (h : Kept tbl b e) :
    SameOutside (fun p => ∃ x, placeOf tbl x = some p) e b := by
  refine ⟨fun q hq => h.rest q ?_, ?_⟩
  · rintro ⟨x, p, hp, hpq⟩
    exact hq ⟨p, ⟨x, hp⟩, hpq⟩
  · rintro p ⟨x, hp⟩
    obtain ⟨y, hy, hyl⟩ := h.text x p hp
    obtain ⟨z, hz, hzl⟩ := hb.text x p hp
    exact ⟨y, z, hy, hz, isLayer_tag hyl, isLayer_tag hzl⟩

theorem Kept.clean {tbl : List (List Place)} {b e : Node} (hb : Kept tbl b b) (h : Kept tbl b e) (hc : Clean b)
    (ht : ∀ x v, itemText tbl e x = some v → Clean v) : Clean e := by
  refine (hb.outside h).clean hc ?_
  rintro p y ⟨x, hp⟩ hy
  obtain ⟨z, hz, -⟩ := hb.text x p hp
  cases hx : itemText tbl e x with
  | none =>
    rw [h.out x p z hp hz hx] at hy
    injection hy with hy
    subst hy
    exact clean_at hc hz
  | some u =>
    rw [h.own x p z u hp hz hx] at hy
    injection hy with hy
    subst hy
    exact clean_putText (item_tag hx) (ht x u hx) (clean_at hc hz)

mutual
theorem bared_opened {F : Fl} : ∀ {n : Node}, n.XmlOk F → Clean n → bared (n.opened F) = (bared n).opened F
  | .text _, _, _ => rfl
  | .tag n a ks, hx, hc => by
    have ht := opened_isTextHead hx hc
    rw [bared]
    cases hh : isTextHead n a with
    | true =>
      rw [opened_tag, opened_tag, bared, ht, hh]
      rfl
    | false =>
      rcases hc.2.1 with ⟨h1, h2⟩ | ⟨s, rfl⟩
      · have hk : List.Forall₂ KidLike ks (ks.map bared) := by
          rw [List.forall₂_map_right_iff, List.forall₂_same]
          intro x _
          cases x with
          | text s => exact KidLike.refl _
          | tag => exact KidLike.of_tags rfl rfl
        simp only [Bool.false_eq_true, if_false, baredKids_map]
        rw [solid_opened h1 h2, solid_opened (kidsLike_noAdj hk h1) fun s hs => h2 s (kidsLike_texts hk hs), bared, ht,
          hh]
        simp only [Bool.false_eq_true, if_false]
        rw [baredKids_opened hx.2.2 hc.2.2]
      · simp only [Bool.false_eq_true, if_false, baredKids, bared]
        rw [opened_tag, bared, ht, hh]
        have hr : Node.reloadKids F [] ([Node.text s].map Node.sorted) = readText s := by
          rw [List.map_cons, Node.sorted, List.map_nil, Node.reloadKids, Node.reloadKids, List.nil_append]
        rw [hr]
        simp only [Bool.false_eq_true, if_false]
        congr 1
        rw [readText]
        split
        · rfl
        · split <;> rfl
theorem baredKids_opened {F : Fl} : ∀ {ks : List Node}, Node.XmlOkKids F ks → CleanAll ks →
    baredKids (ks.map (Node.opened F)) = (ks.map bared).map (Node.opened F)
  | [], _, _ => rfl
  | _ :: _, hx, hc => by
    rw [List.map_cons, baredKids, bared_opened hx.1 hc.1, baredKids_opened hx.2 hc.2]; rfl
end

/-- Saved and opened, they are still so. -/
theorem Kept.opened {F : Fl} {tbl : List (List Place)} {b e : Node} (hb : Kept tbl b b) (h : Kept tbl b e)
    (hbc : Clean b) (hbx : b.XmlOk F) (hec : Clean e) (hex : e.XmlOk F) :
    Kept tbl (b.opened F) (e.opened F) := by
  have hout := hb.outside h
  have htag : ∀ x p z', placeOf tbl x = some p → nodeAt p (b.opened F) = some z' →
      ∃ z, nodeAt p b = some z ∧ z.isTag = true ∧ z' = z.opened F := by
    intro x p z' hp hz'
    obtain ⟨z, hz, hzl⟩ := hb.text x p hp
    refine ⟨z, hz, isLayer_tag hzl, ?_⟩
    rw [opened_at hbc hz (isLayer_tag hzl)] at hz'
    injection hz' with hz'
    exact hz'.symm
  refine ⟨opened_calm hex hec h.calm, ?_, ?_, ?_, ?_, ?_⟩
  · rw [bared_opened hex hec, bared_opened hbx hbc, h.bare]
  · intro x p hp
    obtain ⟨y, hy, hyl⟩ := h.text x p hp
    exact ⟨_, opened_at hec hy (isLayer_tag hyl), (opened_isLayer (xmlOk_at hex hy) (clean_at hec hy) _).2 hyl⟩
  · intro q hq
    refine hout.opened hec hbc ?_
    rintro ⟨p, ⟨x, hp⟩, hpq⟩
    exact hq ⟨x, p, hp, hpq⟩
  · intro x p z' hp hz' hn
    obtain ⟨z, hz, hzt, rfl⟩ := htag x p z' hp hz'
    cases hx : itemText tbl e x with
    | some v => rw [itemText_opened hex hec hx] at hn; cases hn
    | none => exact opened_at hec (h.out x p z hp hz hx) hzt
  · intro x p z' u hp hz' hu
    obtain ⟨z, hz, hzt, rfl⟩ := htag x p z' hp hz'
    cases hx : itemText tbl e x with
    | some v =>
      rw [itemText_opened hex hec hx] at hu
      injection hu with hu
      subst hu
      have hown := h.own x p z v hp hz hx
      rw [← putText_opened (item_tag hx) (xmlOk_at hbx hz) (clean_at hbc hz)]
      refine opened_at hec hown ?_
      cases z with
      | text s => cases hzt
      | tag => rfl
    | none =>
      have hz2 := opened_at (F := F) hec (h.out x p z hp hz hx) hzt
      obtain ⟨p', y, c, hp', hy, hg⟩ := itemText_some.1 hu
      rw [hp] at hp'
      injection hp' with hp'
      subst hp'
      rw [hz2] at hy
      injection hy with hy
      subst hy
      rw [putText_own hg, hz2]

end Sang
