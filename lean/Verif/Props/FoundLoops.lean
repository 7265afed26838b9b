import Verif.Props.MovedFound

/-!
# C176: moving what has been found

`find_all` gives a list, which moving layers doesn't change, unlike `children` (C171). So
`for x in group.find_all(True): other.append(x)` takes apart all the groups in `group`.
-/

namespace Sang

open Spec Relation

namespace Dom

theorem overList_eq (body : ℕ → Dom → Dom × Res Unit) : ∀ (l : List ℕ) (h : Dom), overList body l h = forList body l h := by
  intro l
  induction l with
  | nil => intro h; rfl
  | cons x r ih =>
    intro h
    rw [overList, forList]
    rcases body x h with ⟨h', e | ⟨⟩⟩
    · rfl
    · exact ih h'

theorem mapRes_total {α β : Type} {f : α → Res β} {l : List α} (h : ∀ x ∈ l, ∃ y, f x = .ok y) : ∃ ys, mapRes f l = .ok ys := by
  induction l with
  | nil => exact ⟨[], rfl⟩
  | cons x r ih =>
    obtain ⟨y, hy⟩ := h x (by simp)
    obtain ⟨ys, hys⟩ := ih fun z hz => h z (by simp [hz])
    exact ⟨y :: ys, by rw [mapRes, hy, hys]⟩

/-- C176. The loop goes through the layers that were there when it began, in the order of the file, whatever is done in it. -/
theorem c176_loop {h : Dom} {z : ℕ} (hcl : ∀ x ∈ h.findLayers z, ∃ cl, layerOf (h.bare x) = .ok cl)
    (body : ℕ → Dom → Dom × Res Unit) : forFound z body h = forList body (h.findLayers z) h := by
  obtain ⟨ys, hys⟩ := mapRes_total hcl
  rw [forFound, hys]
  exact overList_eq body _ h

/-- A child of a canvas is below `z` just if the canvas is `z` or below it. -/
theorem child_found {h : Dom} (hf : Forest h) {c x z : ℕ} (hx : Par h x c) (hl : isLayer (h.bare x) = true) :
    x ∈ h.findLayers z ↔ Within h c z := by
  rw [mem_findLayers hf]
  constructor
  · rintro ⟨ht, -⟩
    obtain ⟨d, hd, hdz⟩ := TransGen.head'_iff.1 ht
    have : d = c := by rw [Par, hx] at hd; injection hd with hd; exact hd.symm
    exact this ▸ hdz
  · intro hc
    exact ⟨TransGen.head' hx hc, hl⟩

theorem child_par {h : Dom} (hf : Forest h) {k : GKind} {g c : ℕ} {l : List ℕ} (hh : HolderAt h k g c)
    (hl : h.children k g = .ok l) {x : ℕ} (hx : x ∈ l) : Par h x c ∧ isLayer (h.bare x) = true := by
  obtain ⟨e, -⟩ := (children_iff (holderAt_canvas hf hh) _).1 hl
  rw [e, List.mem_reverse, layersOf_eq] at hx
  exact ⟨(hf.child _ _).1 (List.mem_filter.1 hx).1, (List.mem_filter.1 hx).2⟩

/-- C176. `for x in z.find_all(True): group.append(x)`, for a group or animation that isn't in `z`, moves every layer that was below
`z`, at whatever depth: `group` has those it had, and after them all those of `z` in the order of the file. `z` itself and the groups
that were in it have none. All else is as it was. -/
theorem c176_all_moved {h : Dom} (hf : Forest h) {H : Set (GKind × ℕ × ℕ)} (hH : ∀ a ∈ H, HolderAt h a.1 a.2.1 a.2.2)
    {st : ℕ → List ℕ} (hst : ∀ a ∈ H, h.children a.1 a.2.1 = .ok (st a.2.1)) {k : GKind} {g t z : ℕ} (hg : (k, g, t) ∈ H)
    (hout : ¬ Within h t z) (hcl : ∀ x ∈ h.findLayers z, ∃ cl, layerOf (h.bare x) = .ok cl) :
    ∃ h', forFound z (fun x => Dom.groupAppend k g x) h = (h', .ok ()) ∧
      h'.children k g = .ok (st g ++ h.findLayers z) ∧
      (∀ a ∈ H, Within h a.2.2 z → h'.children a.1 a.2.1 = .ok []) ∧
      ∀ a ∈ H, ¬ Within h a.2.2 z → a.2.1 ≠ g → h'.children a.1 a.2.1 = .ok (st a.2.1) := by
  have hmem : ∀ a ∈ H, ∀ x ∈ st a.2.1, x ∈ h.findLayers z ↔ Within h a.2.2 z := by
    intro a ha x hx
    obtain ⟨p1, p2⟩ := child_par hf (hH a ha) (hst a ha) hx
    exact child_found hf p1 p2
  obtain ⟨h', e, hch⟩ := append_each hg (h.findLayers z) h st hf hH hst (findLayers_nodup hf z) fun x hx => by
    obtain ⟨h1, h2⟩ := (mem_findLayers hf).1 hx
    obtain ⟨d, hd, -⟩ := TransGen.head'_iff.1 h1
    exact ⟨(hf.made d x hd).2, h2, hcl x hx, fun hm => hout ((hmem _ hg x hm).1 hx),
      fun hw => hout (hw.trans h1.to_reflTransGen)⟩
  have keep : ∀ a ∈ H, ¬ Within h a.2.2 z → (st a.2.1).filter (· ∉ h.findLayers z) = st a.2.1 := by
    intro a ha hw
    rw [List.filter_eq_self]
    intro x hx
    have : x ∉ h.findLayers z := fun hm => hw ((hmem a ha x hx).1 hm)
    simpa using this
  refine ⟨h', (c176_loop hcl _).trans e, ?_, fun a ha hw => ?_, fun a ha hw hne => ?_⟩
  · have := hch _ hg
    have hk := keep _ hg hout
    dsimp only at this hk
    rw [this, if_pos rfl, hk]
  · have hne : a.2.1 ≠ g := by
      intro he
      have h1 := hH a ha
      have h2 := hH _ hg
      rw [he] at h1
      have := holderAt_same hf h1 h2
      have e : a.2.2 = t := this.2
      exact hout (e ▸ hw)
    rw [hch a ha, if_neg hne, List.append_nil, List.filter_eq_nil_iff.2]
    intro x hx
    have := (hmem a ha x hx).2 hw
    simpa using this
  · rw [hch a ha, if_neg hne, keep a ha hw, List.append_nil]

/-! ## The order -/

theorem sublist_flatMap {α : Type} (f : α → List α) (l : List α) : l.Sublist (l.flatMap fun c => c :: f c) := by
  induction l with
  | nil => exact .slnil
  | cons x r ih =>
    rw [List.flatMap_cons, List.cons_append]
    exact (ih.trans (List.sublist_append_right _ _)).cons_cons x

theorem kids_sublist {h : Dom} (hf : Forest h) (c : ℕ) : (h.kids c).Sublist (h.desc c) := by
  rw [desc_eq hf]
  exact sublist_flatMap _ _

theorem desc_sublist {h : Dom} (hf : Forest h) {c z : ℕ} (hw : Within h c z) : (h.desc c).Sublist (h.desc z) := by
  induction hw with
  | refl => exact .refl _
  | @tail a b _ hab ih =>
    refine ih.trans ?_
    rw [desc_eq hf b]
    obtain ⟨A, B, e⟩ := List.append_of_mem ((hf.child b a).2 hab)
    rw [e, List.flatMap_append, List.flatMap_cons]
    exact ((List.sublist_cons_self a _).trans (List.sublist_append_left _ _)).trans (List.sublist_append_right _ _)

/-- A group's children are among the layers found in it, in the opposite order. -/
theorem children_sublist {h : Dom} (hf : Forest h) {k : GKind} {g c : ℕ} {l : List ℕ} (hh : HolderAt h k g c)
    (hl : h.children k g = .ok l) : l.reverse.Sublist (h.findLayers g) := by
  obtain ⟨e, -⟩ := (children_iff (holderAt_canvas hf hh) _).1 hl
  rw [e, List.reverse_reverse, layersOf_eq, findLayers]
  exact ((kids_sublist hf c).trans (desc_sublist hf (canvas_inside hf (holderAt_canvas hf hh)))).filter _

theorem sublist_all {l m : List ℕ} (hs : l.Sublist m) (hnd : m.Nodup) (hall : ∀ x ∈ m, x ∈ l) : l = m :=
  hs.eq_of_length_le (hnd.subperm hall).length_le

/-- C176, not what one would expect: if all the layers found are the group's own, they are in the opposite order afterwards
(whereas with `group.children` they stay in order, C171). -/
theorem c176_reversed {h : Dom} (hf : Forest h) {H : Set (GKind × ℕ × ℕ)} (hH : ∀ a ∈ H, HolderAt h a.1 a.2.1 a.2.2)
    {st : ℕ → List ℕ} (hst : ∀ a ∈ H, h.children a.1 a.2.1 = .ok (st a.2.1)) {k k' : GKind} {g g' t t' : ℕ} (hg : (k, g, t) ∈ H)
    (hg' : (k', g', t') ∈ H) (hout : ¬ Within h t' g) (hown : ∀ x ∈ h.findLayers g, x ∈ st g) :
    ∃ h', forFound g (fun x => Dom.groupAppend k' g' x) h = (h', .ok ()) ∧
      h'.children k' g' = .ok (st g' ++ (st g).reverse) ∧ h'.children k g = .ok [] := by
  have hfound : (st g).reverse = h.findLayers g :=
    sublist_all (children_sublist hf (hH _ hg) (hst _ hg)) (findLayers_nodup hf g) fun x hx =>
      List.mem_reverse.2 (hown x hx)
  obtain ⟨-, hall⟩ := (children_iff (holderAt_canvas hf (hH _ hg)) _).1 (hst _ hg)
  obtain ⟨h', e1, e2, e3, -⟩ := c176_all_moved hf hH hst hg' hout fun x hx => hall x (hown x hx)
  exact ⟨h', e1, by rw [hfound]; exact e2, e3 _ hg (canvas_inside hf (holderAt_canvas hf (hH _ hg)))⟩

/-- C176, violated: a group can't be taken apart in place. `for x in group.find_all(True): group.append(x)` raises `ValueError` at
the first layer, and nothing has been moved: the first layer in the file is the last of the group's children, and that can't be
appended (C71). -/
theorem c176_own_group_fails {h : Dom} (hf : Forest h) {k : GKind} {g c x : ℕ} {l r : List ℕ} (hh : HolderAt h k g c)
    (hl : h.children k g = .ok l) (hcl : ∀ x ∈ h.findLayers g, ∃ cl, layerOf (h.bare x) = .ok cl)
    (hx : h.findLayers g = x :: r) (hown : x ∈ l) :
    forFound g (fun y => Dom.groupAppend k g y) h = (h, .error .value) := by
  have hs := children_sublist hf hh hl
  have hnd := findLayers_nodup hf g
  rw [hx] at hs hnd
  have hlast : l.getLast? = some x := by
    rw [← List.head?_reverse]
    have hm : x ∈ l.reverse := List.mem_reverse.2 hown
    generalize l.reverse = m at hs hm
    cases hs with
    | cons _ h1 => exact absurd (h1.subset hm) (List.nodup_cons.1 hnd).1
    | cons_cons _ h1 => rfl
  rw [c176_loop hcl, hx, forList, c71_append_last_child_fails hf hl hlast]

end Dom

open Dom

/-! ## Examples -/

/-- The document of `exDom` and another, empty animation, 15. -/
def exFlat : Dom := (exDom.alloc (.tag "canvas" [] [])).1

theorem exFlat_forest : Forest exFlat := (alloc_made exDom_forest _).forest

/-- Both animations, and the group in the first. -/
def exFlatHolders : Set (GKind × ℕ × ℕ) := {(.animation, 0, 0), (.group, 1, 3), (.animation, 15, 15)}

/-- What they hold. -/
def exFlatLists : ℕ → List ℕ := fun q => if q = 0 then [9, 1] else if q = 1 then [4] else []

theorem exFlatHolders_ok : ∀ a ∈ exFlatHolders, HolderAt exFlat a.1 a.2.1 a.2.2 := by
  rintro a (rfl | rfl | rfl)
  · exact ⟨by decide +kernel, by decide +kernel, rfl, by decide +kernel⟩
  · exact ⟨by decide +kernel, by decide +kernel, by decide +kernel, 2, [], [], [], [], by decide +kernel, by simp, by decide +kernel,
      by decide +kernel, by simp⟩
  · exact ⟨by decide +kernel, by decide +kernel, rfl, by decide +kernel⟩

theorem exFlatLists_ok : ∀ a ∈ exFlatHolders, exFlat.children a.1 a.2.1 = .ok (exFlatLists a.2.1) := by
  rintro a (rfl | rfl | rfl) <;> decide +kernel

theorem exFlat_outside {x y : ℕ} (h : x ∉ y :: exFlat.desc y) : ¬ Within exFlat x y :=
  fun hi => h ((within_iff exFlat_forest).1 hi)

/-- All the layers of the first animation, the circle in its group too, moved to the second. -/
example : ∃ h', forFound 0 (fun x => Dom.groupAppend .animation 15 x) exFlat = (h', .ok ()) ∧
    h'.children .animation 15 = .ok [1, 4, 9] ∧ h'.children .animation 0 = .ok [] ∧ h'.children .group 1 = .ok [] := by
  have hfound : exFlat.findLayers 0 = [1, 4, 9] := by decide +kernel
  obtain ⟨h', e1, e2, e3, -⟩ := c176_all_moved exFlat_forest exFlatHolders_ok exFlatLists_ok (k := .animation) (g := 15) (t := 15)
    (z := 0) (.inr (.inr rfl)) (exFlat_outside (by decide +kernel)) (by
      intro x hx
      rw [hfound] at hx
      simp only [List.mem_cons, List.not_mem_nil, or_false] at hx
      rcases hx with rfl | rfl | rfl
      · exact ⟨lcGroup, by decide +kernel⟩
      · exact ⟨lcCircle, by decide +kernel⟩
      · exact ⟨lcStar, by decide +kernel⟩)
  rw [hfound] at e2
  exact ⟨h', e1, e2, e3 _ (.inl rfl) .refl,
    e3 _ (.inr (.inl rfl)) ((within_iff exFlat_forest).2 (by decide +kernel))⟩

/-- In place it can't be done. -/
example : forFound 0 (fun x => Dom.groupAppend .animation 0 x) exFlat = (exFlat, .error .value) := by
  have hfound : exFlat.findLayers 0 = [1, 4, 9] := by decide +kernel
  refine c176_own_group_fails exFlat_forest (exFlatHolders_ok _ (.inl rfl)) (exFlatLists_ok _ (.inl rfl)) ?_ hfound
    (by decide +kernel)
  intro x hx
  rw [hfound] at hx
  simp only [List.mem_cons, List.not_mem_nil, or_false] at hx
  rcases hx with rfl | rfl | rfl
  · exact ⟨lcGroup, by decide +kernel⟩
  · exact ⟨lcCircle, by decide +kernel⟩
  · exact ⟨lcStar, by decide +kernel⟩

/-- An animation with a circle, 1, and a star, 2 in the order of the file, and an empty animation, 3. -/
def exPair : Dom := ((Dom.empty.alloc (.tag "canvas" [] [.tag "layer" [("type", .str "circle".toList)] [],
  .tag "layer" [("type", .str "star".toList)] []])).1.alloc (.tag "canvas" [] [])).1

theorem exPair_forest : Forest exPair := (alloc_made (alloc_made forest_empty _).forest _).forest

/-- The hypotheses of `c176_reversed`, met: the star came first, and comes last. -/
example : exPair.children .animation 0 = .ok [2, 1] ∧
    ∃ h', forFound 0 (fun x => Dom.groupAppend .animation 3 x) exPair = (h', .ok ()) ∧
    h'.children .animation 3 = .ok [1, 2] ∧ h'.children .animation 0 = .ok [] := by
  refine ⟨by decide +kernel, ?_⟩
  refine c176_reversed exPair_forest (H := {a | a = (.animation, 0, 0) ∨ a = (.animation, 3, 3)})
    (st := fun q => if q = 0 then [2, 1] else []) ?_ ?_ (k := .animation) (g := 0) (t := 0) (t' := 3) (.inl rfl)
    (.inr rfl) (fun hi => absurd ((within_iff exPair_forest).1 hi) (by decide +kernel)) (by
      have : exPair.findLayers 0 = [1, 2] := by decide +kernel
      rw [this]
      simp)
  · rintro a (rfl | rfl) <;> exact ⟨by decide +kernel, by decide +kernel, rfl, by decide +kernel⟩
  · rintro a (rfl | rfl) <;> decide +kernel

end Sang
