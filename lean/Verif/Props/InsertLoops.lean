import Verif.Props.FoundLoops

/-!
# C179: loops over a group's children that insert them in another group
-/

namespace Sang

open Spec Relation

namespace Dom

/-- Inserting a layer that isn't in the group, where `S` begins. -/
theorem insert_step {H : Set (GKind × ℕ × ℕ)} {k : GKind} {g t : ℕ} (hg : (k, g, t) ∈ H) {h : Dom} {st : ℕ → List ℕ} (hf : Forest h)
    (hH : ∀ a ∈ H, HolderAt h a.1 a.2.1 a.2.2) (hst : ∀ a ∈ H, h.children a.1 a.2.1 = .ok (st a.2.1)) {P S : List ℕ}
    (hPS : st g = P ++ S) (hS : S ≠ []) {i : ℤ} (hi : position (P ++ S).length i = P.length) {x : ℕ} (h1 : x < h.size)
    (h2 : isLayer (h.bare x) = true) (h3 : ∃ cl, layerOf (h.bare x) = .ok cl) (h4 : x ∉ st g) (h5 : ¬ Within h t x) :
    ∃ h', h.groupInsert k g i x = (h', .ok ()) ∧ Forest h' ∧ (∀ a ∈ H, HolderAt h' a.1 a.2.1 a.2.2) ∧
      (∀ a ∈ H, h'.children a.1 a.2.1 = .ok (if a.2.1 = g then P ++ x :: S else (st a.2.1).filter (· ≠ x))) ∧ Put h x t h' := by
  obtain ⟨e, f', hH', hst'⟩ := move_step hf hH hst (o := .insert k g i x) hg h1 h2 h3 h5
  obtain ⟨y, S', rfl⟩ := List.exists_cons_of_ne_nil hS
  rw [hPS] at h4
  have hlists : (MoveOp.insert k g i x).lists st =
      (fun q => if q = g then P ++ x :: y :: S' else (st q).filter (· ≠ x), .ok ()) := by
    have hxy : x ≠ y := fun e => h4 (by simp [e])
    have hxP : x ∉ P := fun hm => h4 (by simp [hm])
    have hxS : x ∉ y :: S' := fun hm => h4 (List.mem_append_right _ hm)
    have hy : (P ++ y :: S')[P.length]? = some y := by
      rw [List.getElem?_append_right le_rfl, Nat.sub_self]; rfl
    simp only [MoveOp.lists, hPS, hi]
    rw [if_neg (by omega)]
    simp only [Int.toNat_natCast, hy, if_neg hxy]
    refine Prod.ext ?_ rfl
    funext q
    by_cases hq : q = g
    · simp only [if_pos hq]
      rw [hq, hPS, List.take_left, List.drop_left, filter_ne_self hxP, filter_ne_self hxS]
    · simp only [if_neg hq]
  rw [hlists] at e hst'
  simp only [MoveOp.run] at e f' hH' hst'
  cases hr : h.groupInsert k g i x with
  | mk h' res =>
    rw [hr] at e f' hH' hst'
    simp only at e
    subst e
    exact ⟨h', rfl, f', hH', hst', run_put hf (o := .insert k g i x) (hH _ hg) (hst _ hg) h1 h5 hr⟩

/-- Inserting each layer of a list in a group: each after the one before it, or each before it. -/
theorem insert_each {H : Set (GKind × ℕ × ℕ)} {k : GKind} {g t : ℕ} (hg : (k, g, t) ∈ H) (b : Bool) (pos : ℕ → ℤ) :
    ∀ (l : List ℕ) (h : Dom) (st : ℕ → List ℕ) (P S : List ℕ), Forest h → (∀ a ∈ H, HolderAt h a.1 a.2.1 a.2.2) →
    (∀ a ∈ H, h.children a.1 a.2.1 = .ok (st a.2.1)) → st g = P ++ S → S ≠ [] →
    (∀ l1 x l2, l = l1 ++ x :: l2 →
      position (P.length + l1.length + S.length) (pos x) = P.length + if b then l1.length else 0) →
    l.Nodup → (∀ x ∈ l, x < h.size ∧ isLayer (h.bare x) = true ∧ (∃ cl, layerOf (h.bare x) = .ok cl) ∧ x ∉ st g ∧ ¬ Within h t x) →
    ∃ h', forList (fun x => groupInsert k g (pos x) x) l h = (h', .ok ()) ∧
      ∀ a ∈ H, h'.children a.1 a.2.1 =
        .ok (if a.2.1 = g then P ++ (if b then l else l.reverse) ++ S else (st a.2.1).filter (· ∉ l)) := by
  intro l
  induction l with
  | nil =>
    intro h st P S _ _ hst hPS _ _ _ _
    refine ⟨h, rfl, fun a ha => ?_⟩
    rw [hst a ha]
    by_cases hag : a.2.1 = g
    · rw [if_pos hag, hag, hPS]; simp
    · rw [if_neg hag]; simp
  | cons x r ih =>
    intro h st P S hf hH hst hPS hS hpos hnd hl
    obtain ⟨l1, l2, l3, l4, l5⟩ := hl x (by simp)
    obtain ⟨h', e, f', hH', hst', m⟩ := insert_step hg hf hH hst hPS hS (i := pos x)
      (by have := hpos [] x r rfl
          simp only [List.length_nil, Nat.add_zero] at this
          rw [List.length_append, this]; simp) l1 l2 l3 l4 l5
    have hht := hH _ hg
    have hts : t < h.size := inside_made hf (canvas_inside hf (holderAt_canvas hf hht)) hht.2.1
    have key : ∀ P' S', P ++ x :: S = P' ++ S' → S' ≠ [] →
        (∀ l1 z l2, r = l1 ++ z :: l2 →
          position (P'.length + l1.length + S'.length) (pos z) = P'.length + if b then l1.length else 0) →
        ∃ h'', forList (fun x => groupInsert k g (pos x) x) (x :: r) h = (h'', .ok ()) ∧
          ∀ a ∈ H, h''.children a.1 a.2.1 = .ok (if a.2.1 = g then P' ++ (if b then r else r.reverse) ++ S'
            else (st a.2.1).filter (· ∉ x :: r)) := by
      intro P' S' hP' hS' hp'
      obtain ⟨h'', e', hch⟩ := ih h' (fun q => if q = g then P ++ x :: S else (st q).filter (· ≠ x)) P' S' f' hH' hst'
          (by simp only [if_true]; exact hP') hS' hp' (List.nodup_cons.1 hnd).2 fun y hy => by
        obtain ⟨y1, y2, y3, y4, y5⟩ := hl y (List.mem_cons_of_mem _ hy)
        have hyx : y ≠ x := fun e => (List.nodup_cons.1 hnd).1 (e ▸ hy)
        refine ⟨y1.trans_le m.size, by rw [m.bare y1]; exact y2, by rw [m.bare y1]; exact y3, ?_,
          fun hw => y5 (m.within_back hf hw hts (name_isTag hht.1 (by decide)) l5)⟩
        rw [hPS] at y4
        simp only [if_true]
        simpa [hyx] using y4
      refine ⟨h'', by rw [forList, e]; exact e', fun a ha => ?_⟩
      rw [hch a ha]
      by_cases hag : a.2.1 = g
      · simp only [if_pos hag]
      · simp only [if_neg hag]
        rw [List.filter_filter]
        congr 1
        apply List.filter_congr
        intro z _
        simp [not_or, Bool.and_comm]
    cases b with
    | true =>
      obtain ⟨h'', e1, e2⟩ := key (P ++ [x]) S (by simp) hS fun m1 z m2 hz => by
        have := hpos (x :: m1) z m2 (by rw [hz]; rfl)
        simp only [List.length_cons, List.length_append, List.length_nil, if_true] at this ⊢
        push_cast at this ⊢
        rw [show P.length + (0 + 1) + m1.length + S.length = P.length + (m1.length + 1) + S.length by omega, this]
        omega
      exact ⟨h'', e1, fun a ha => by rw [e2 a ha]; simp⟩
    | false =>
      obtain ⟨h'', e1, e2⟩ := key P (x :: S) rfl (by simp) fun m1 z m2 hz => by
        have := hpos (x :: m1) z m2 (by rw [hz]; rfl)
        simp only [List.length_cons] at this ⊢
        rw [show P.length + m1.length + (S.length + 1) = P.length + (m1.length + 1) + S.length by omega, this]
        rfl
      exact ⟨h'', e1, fun a ha => by rw [e2 a ha]; simp⟩

/-- A loop whose body raises at once. -/
theorem loop_refused {c : ℕ} {body : ℕ → Dom → Dom × Res Unit} {h : Dom} {e : Err} (hb : ∀ x, body x h = (h, .error e))
    (hall : ∀ x ∈ h.kids c, isLayer (h.bare x) = true → ∃ cl, layerOf (h.bare x) = .ok cl) : ∀ i, i ≤ (h.kids c).length →
    (∃ x ∈ (h.kids c).take i, isLayer (h.bare x) = true) → loopFrom c body i h = (h, .error e) := by
  intro i
  induction i with
  | zero => rintro - ⟨x, hx, -⟩; simp at hx
  | succ i ih =>
    intro hi hex
    have hx : (h.kids c)[i]? = some (h.kids c)[i] := List.getElem?_eq_getElem (by omega)
    rw [loopFrom, hx]
    simp only
    by_cases hl : isLayer (h.bare (h.kids c)[i]) = true
    · obtain ⟨cl, hcl⟩ := hall _ (List.getElem_mem _) hl
      simp only [if_pos hl, hcl, hb]
    · rw [if_neg hl]
      refine ih (by omega) ?_
      obtain ⟨x, hm, hxl⟩ := hex
      rw [List.take_add_one, hx, List.mem_append] at hm
      rcases hm with hm | hm
      · exact ⟨x, hm, hxl⟩
      · simp only [Option.toList_some, List.mem_singleton] at hm
        rw [hm] at hxl
        exact absurd hxl hl

section
variable {h : Dom} {H : Set (GKind × ℕ × ℕ)} {st : ℕ → List ℕ} {k k' : GKind} {g g' c c' : ℕ}

/-- A layer is in one group only. -/
theorem in_one (hf : Forest h) (hH : ∀ a ∈ H, HolderAt h a.1 a.2.1 a.2.2)
    (hst : ∀ a ∈ H, h.children a.1 a.2.1 = .ok (st a.2.1)) (hg : (k, g, c) ∈ H) : ∀ a ∈ H, a.2.1 ≠ g → ∀ x ∈ st g, x ∉ st a.2.1 := by
  intro a ha hag x hx hx'
  obtain ⟨p1, -⟩ := child_par hf (hH _ hg) (hst _ hg) hx
  obtain ⟨p2, -⟩ := child_par hf (hH _ ha) (hst _ ha) hx'
  have := par_unique p1 p2
  have hha := hH _ ha
  rw [← this] at hha
  exact hag (holderAt_distinct hf hha (hH _ hg))

theorem insert_all (hf : Forest h) (hH : ∀ a ∈ H, HolderAt h a.1 a.2.1 a.2.2)
    (hst : ∀ a ∈ H, h.children a.1 a.2.1 = .ok (st a.2.1)) (hg : (k, g, c) ∈ H)
    (hg' : (k', g', c') ∈ H) (hne : g' ≠ g) (hin : ∀ x ∈ st g, ¬ Within h c' x) (b : Bool) (pos : ℕ → ℤ) {P S : List ℕ}
    (hPS : st g' = P ++ S) (hS : S ≠ [])
    (hpos : ∀ l1 x l2, st g = l1 ++ x :: l2 →
      position (P.length + l1.length + S.length) (pos x) = P.length + if b then l1.length else 0) :
    ∃ h', forChildren k g (fun x => Dom.groupInsert k' g' (pos x) x) h = (h', .ok ()) ∧ h'.children k g = .ok [] ∧
      h'.children k' g' = .ok (P ++ (if b then st g else (st g).reverse) ++ S) ∧
      ∀ a ∈ H, a.2.1 ≠ g → a.2.1 ≠ g' → h'.children a.1 a.2.1 = .ok (st a.2.1) := by
  have hloop := c171_loop hf hH hst hg (op := fun x => .insert k' g' (pos x) x) fun x _ => ⟨rfl, hne, c', hg', hin⟩
  have only := in_one hf hH hst hg
  obtain ⟨e, hall⟩ := (children_iff (holderAt_canvas hf (hH _ hg)) _).1 (hst _ hg)
  dsimp only at e hall
  have hnd : (st g).Nodup := by
    rw [e, layersOf_eq, List.nodup_reverse]
    exact (hf.nodup c).filter _
  obtain ⟨h', e', hch⟩ := insert_each hg' b pos (st g) h st P S hf hH hst hPS hS hpos hnd fun x hx => by
    obtain ⟨p1, p2⟩ := child_par hf (hH _ hg) (hst _ hg) hx
    exact ⟨(hf.made c x p1).2, p2, hall x hx, only _ hg' hne x hx, hin x hx⟩
  refine ⟨h', hloop.trans e', ?_, ?_, fun a ha h1 h2 => ?_⟩
  · have := hch _ hg
    dsimp only at this
    rw [this, if_neg hne.symm, List.filter_eq_nil_iff.2 (by simp)]
  · have := hch _ hg'
    dsimp only at this
    rw [this, if_pos rfl]
  · rw [hch a ha, if_neg h2, List.filter_eq_self.2]
    intro z hz
    have : z ∉ st g := fun hm => only a ha h1 z hm hz
    simpa using this

/-- C179. `for x in group.children: other.insert(i, x)`, where `other` has a layer at `i`, moves all layers of `group` to that place,
the last of them first. -/
theorem c179_insert_at (hf : Forest h) (hH : ∀ a ∈ H, HolderAt h a.1 a.2.1 a.2.2)
    (hst : ∀ a ∈ H, h.children a.1 a.2.1 = .ok (st a.2.1)) (hg : (k, g, c) ∈ H)
    (hg' : (k', g', c') ∈ H) (hne : g' ≠ g) (hin : ∀ x ∈ st g, ¬ Within h c' x) {i : ℕ} (hi : i < (st g').length) :
    ∃ h', forChildren k g (fun x => Dom.groupInsert k' g' i x) h = (h', .ok ()) ∧ h'.children k g = .ok [] ∧
      h'.children k' g' = .ok ((st g').take i ++ (st g).reverse ++ (st g').drop i) ∧
      ∀ a ∈ H, a.2.1 ≠ g → a.2.1 ≠ g' → h'.children a.1 a.2.1 = .ok (st a.2.1) := by
  have hlen : ((st g').take i).length = i := by rw [List.length_take]; omega
  refine insert_all hf hH hst hg hg' hne hin false (fun _ => i) (List.take_append_drop i _).symm ?_ fun l1 x l2 _ => ?_
  · rw [Ne, List.drop_eq_nil_iff]; omega
  · rw [hlen, position, if_neg (by omega)]; simp

/-- C179. With an index from the end, `for x in group.children: other.insert(-m, x)`, they are in order. -/
theorem c179_insert_from_end (hf : Forest h) (hH : ∀ a ∈ H, HolderAt h a.1 a.2.1 a.2.2)
    (hst : ∀ a ∈ H, h.children a.1 a.2.1 = .ok (st a.2.1)) (hg : (k, g, c) ∈ H)
    (hg' : (k', g', c') ∈ H) (hne : g' ≠ g) (hin : ∀ x ∈ st g, ¬ Within h c' x) {m : ℕ} (hm : 0 < m) (hm' : m ≤ (st g').length) :
    ∃ h', forChildren k g (fun x => Dom.groupInsert k' g' (-m) x) h = (h', .ok ()) ∧ h'.children k g = .ok [] ∧
      h'.children k' g' = .ok ((st g').take ((st g').length - m) ++ st g ++ (st g').drop ((st g').length - m)) ∧
      ∀ a ∈ H, a.2.1 ≠ g → a.2.1 ≠ g' → h'.children a.1 a.2.1 = .ok (st a.2.1) := by
  refine insert_all hf hH hst hg hg' hne hin true (fun _ => -m) (List.take_append_drop _ _).symm ?_ fun l1 x l2 _ => ?_
  · rw [Ne, List.drop_eq_nil_iff]; omega
  · rw [position, if_pos (by omega), List.length_take, List.length_drop]
    simp only [if_true]
    push_cast
    omega

/-- C179. `for n, x in enumerate(group.children): other.insert(i + n, x)`, where `other` has a layer at `i`: they are in order. (The
number of a layer is its place among those of `group`.) -/
theorem c179_enumerated (hf : Forest h) (hH : ∀ a ∈ H, HolderAt h a.1 a.2.1 a.2.2)
    (hst : ∀ a ∈ H, h.children a.1 a.2.1 = .ok (st a.2.1)) (hg : (k, g, c) ∈ H)
    (hg' : (k', g', c') ∈ H) (hne : g' ≠ g) (hin : ∀ x ∈ st g, ¬ Within h c' x) {i : ℕ} (hi : i < (st g').length) :
    ∃ h', forChildren k g (fun x => Dom.groupInsert k' g' ((i + (st g).idxOf x : ℕ) : ℤ) x) h = (h', .ok ()) ∧
      h'.children k g = .ok [] ∧ h'.children k' g' = .ok ((st g').take i ++ st g ++ (st g').drop i) ∧
      ∀ a ∈ H, a.2.1 ≠ g → a.2.1 ≠ g' → h'.children a.1 a.2.1 = .ok (st a.2.1) := by
  have hlen : ((st g').take i).length = i := by rw [List.length_take]; omega
  have hnd : (st g).Nodup := by
    obtain ⟨e, -⟩ := (children_iff (holderAt_canvas hf (hH _ hg)) _).1 (hst _ hg)
    dsimp only at e
    rw [e, layersOf_eq, List.nodup_reverse]
    exact (hf.nodup c).filter _
  refine insert_all hf hH hst hg hg' hne hin true (fun x => ((i + (st g).idxOf x : ℕ) : ℤ)) (List.take_append_drop i _).symm ?_
    fun l1 x l2 hx => ?_
  · rw [Ne, List.drop_eq_nil_iff]; omega
  · have : x ∉ l1 := by
      rw [hx, List.nodup_append] at hnd
      exact fun hm => hnd.2.2 x hm x (by simp) rfl
    rw [hlen, hx, List.idxOf_append_of_notMem this, List.idxOf_cons_self, position, if_neg (by omega)]
    simp

/-- C179. If `other` has no layer at the index — it may have none — then the loop raises `IndexError` at the first layer, and nothing
has been moved. -/
theorem c179_no_such_place (hf : Forest h) (hh : HolderAt h k g c) {l l' : List ℕ} (hl : h.children k g = .ok l) (hne : l ≠ [])
    (hl' : h.children k' g' = .ok l') {i : ℤ} (hi : (l'.length : ℤ) ≤ i ∨ i < -l'.length) :
    forChildren k g (fun x => Dom.groupInsert k' g' i x) h = (h, .error .index) := by
  obtain ⟨e, hall⟩ := (children_iff (holderAt_canvas hf hh) _).1 hl
  rw [forChildren, holderAt_canvas hf hh]
  have hmem : ∀ x, x ∈ l ↔ x ∈ h.kids c ∧ isLayer (h.bare x) = true := fun x => by
    rw [e, List.mem_reverse, layersOf_eq, List.mem_filter]
  obtain ⟨x, hx⟩ := List.exists_mem_of_ne_nil _ hne
  refine loop_refused (fun y => ?_) (fun y hy hyl => hall y ((hmem y).2 ⟨hy, hyl⟩)) _ le_rfl
    ⟨x, by rw [List.take_length]; exact ((hmem x).1 hx).1, ((hmem x).1 hx).2⟩
  have hp : pyIndex l' i = .error .index := by
    rw [pyIndex]
    rcases hi with hi | hi
    · simp only [if_neg (show ¬ i < 0 by omega)]
      rw [List.getElem?_eq_none (by omega)]
    · simp only [if_pos (show i < 0 by omega)]
      rw [if_pos (by omega)]
  rw [Dom.groupInsert, hl']
  simp only [hp]

end

end Dom

open Dom

/-! ## Examples -/

/-- Two animations, each with a circle and a star: 1 and 2, 4 and 5, in the order of the file. -/
def exFour : Dom := ((Dom.empty.alloc (.tag "canvas" [] [.tag "layer" [("type", .str "circle".toList)] [],
  .tag "layer" [("type", .str "star".toList)] []])).1.alloc (.tag "canvas" [] [.tag "layer" [("type", .str "circle".toList)] [],
  .tag "layer" [("type", .str "star".toList)] []])).1

theorem exFour_forest : Forest exFour := (alloc_made (alloc_made forest_empty _).forest _).forest

/-- Both of them. -/
def exFourHolders : Set (GKind × ℕ × ℕ) := {a | a = (.animation, 0, 0) ∨ a = (.animation, 3, 3)}

/-- What they hold. -/
def exFourLists : ℕ → List ℕ := fun q => if q = 0 then [2, 1] else [5, 4]

theorem exFourHolders_ok : ∀ a ∈ exFourHolders, HolderAt exFour a.1 a.2.1 a.2.2 := by
  rintro a (rfl | rfl) <;> exact ⟨by decide +kernel, by decide +kernel, rfl, by decide +kernel⟩

theorem exFourLists_ok : ∀ a ∈ exFourHolders, exFour.children a.1 a.2.1 = .ok (exFourLists a.2.1) := by
  rintro a (rfl | rfl) <;> decide +kernel

theorem exFour_outside : ∀ x ∈ exFourLists 0, ¬ Within exFour 3 x := by
  intro x hx hi
  have : x = 2 ∨ x = 1 := by simpa [exFourLists] using hx
  rcases this with rfl | rfl <;> exact absurd ((within_iff exFour_forest).1 hi) (by decide +kernel)

/-- Inserted at 1 they are reversed; before the last, or numbered, they aren't. -/
example : (∃ h', forChildren .animation 0 (fun x => Dom.groupInsert .animation 3 1 x) exFour = (h', .ok ()) ∧
      h'.children .animation 3 = .ok [5, 1, 2, 4] ∧ h'.children .animation 0 = .ok []) ∧
    (∃ h', forChildren .animation 0 (fun x => Dom.groupInsert .animation 3 (-1) x) exFour = (h', .ok ()) ∧
      h'.children .animation 3 = .ok [5, 2, 1, 4]) ∧
    ∃ h', forChildren .animation 0 (fun x => Dom.groupInsert .animation 3 ((0 + [2, 1].idxOf x : ℕ) : ℤ) x) exFour = (h', .ok ()) ∧
      h'.children .animation 3 = .ok [2, 1, 5, 4] := by
  refine ⟨?_, ?_, ?_⟩
  · obtain ⟨h', a, b, d, -⟩ := c179_insert_at exFour_forest exFourHolders_ok exFourLists_ok (k := .animation) (k' := .animation)
      (g := 0) (g' := 3) (.inl rfl) (.inr rfl) (by decide) exFour_outside (i := 1) (by decide)
    exact ⟨h', a, d, b⟩
  · obtain ⟨h', a, -, d, -⟩ := c179_insert_from_end exFour_forest exFourHolders_ok exFourLists_ok (k := .animation)
      (k' := .animation) (g := 0) (g' := 3) (.inl rfl) (.inr rfl) (by decide) exFour_outside (m := 1) (by decide) (by decide)
    exact ⟨h', a, d⟩
  · obtain ⟨h', a, -, d, -⟩ := c179_enumerated exFour_forest exFourHolders_ok exFourLists_ok (k := .animation)
      (k' := .animation) (g := 0) (g' := 3) (.inl rfl) (.inr rfl) (by decide) exFour_outside (i := 0) (by decide)
    exact ⟨h', a, d⟩

/-- The star and the circle can't be inserted in the empty animation. -/
example : forChildren .animation 0 (fun x => Dom.groupInsert .animation 3 0 x) exPair = (exPair, .error .index) :=
  c179_no_such_place exPair_forest (k := .animation) (g := 0) (c := 0) ⟨by decide +kernel, by decide +kernel, rfl, by decide +kernel⟩ (l := [2, 1]) (l' := [])
    (by decide +kernel) (by simp) (by decide +kernel) (.inl (by simp))

end Sang
