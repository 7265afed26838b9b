import Verif.Props.FoundLoops

/-!
# C177: moving the descendants of a group in a loop
-/

namespace Sang

open Spec Relation

namespace Dom

theorem forList_append (body : ℕ → Dom → Dom × Res Unit) (a b : List ℕ) (h : Dom) :
    forList body (a ++ b) h = match forList body a h with
      | (h, .error e) => (h, .error e)
      | (h, .ok ()) => forList body b h := by
  induction a generalizing h with
  | nil => rfl
  | cons x r ih =>
    rw [List.cons_append, forList, forList]
    rcases body x h with ⟨h', e | ⟨⟩⟩
    · rfl
    · exact ih h'

/-- What is so when each of these layers has been appended to the group. -/
structure Each (H : Set (GKind × ℕ × ℕ)) (st : ℕ → List ℕ) (g t : ℕ) (l : List ℕ) (h h' : Dom) : Prop where
  forest : Forest h'
  size : h.size ≤ h'.size
  bare : ∀ z, z < h.size → h'.bare z = h.bare z
  there : ∀ q, q ≠ t → q < h.size → h'.kids q = (h.kids q).filter (· ∉ l)
  holders : ∀ a ∈ H, HolderAt h' a.1 a.2.1 a.2.2
  lists : ∀ a ∈ H, h'.children a.1 a.2.1 = .ok ((st a.2.1).filter (· ∉ l) ++ if a.2.1 = g then l else [])
  target : ∀ y, Within h' t y → Within h t y

theorem append_each_more {H : Set (GKind × ℕ × ℕ)} {k : GKind} {g t : ℕ} (hg : (k, g, t) ∈ H) : ∀ (l : List ℕ) (h : Dom)
    (st : ℕ → List ℕ), Forest h → (∀ a ∈ H, HolderAt h a.1 a.2.1 a.2.2) → (∀ a ∈ H, h.children a.1 a.2.1 = .ok (st a.2.1)) →
    l.Nodup → (∀ x ∈ l, x < h.size ∧ isLayer (h.bare x) = true ∧ (∃ cl, layerOf (h.bare x) = .ok cl) ∧ x ∉ st g ∧ ¬ Within h t x) →
    ∃ h', forList (fun x => groupAppend k g x) l h = (h', .ok ()) ∧ Each H st g t l h h' := by
  intro l
  induction l with
  | nil =>
    intro h st hf hH hst _ _
    exact ⟨h, rfl, hf, le_rfl, fun _ _ => rfl, fun q _ _ => by simp, hH, fun a ha => by rw [hst a ha]; simp, fun _ h => h⟩
  | cons x r ih =>
    intro h st hf hH hst hnd hl
    obtain ⟨l1, l2, l3, l4, l5⟩ := hl x (by simp)
    obtain ⟨e, f', hH', hst'⟩ := move_step hf hH hst (o := .append k g x) hg l1 l2 l3 l5
    have hne : (st g).getLast? ≠ some x := fun he => l4 (List.mem_of_getLast? he)
    have hlists : (MoveOp.append k g x).lists st = (fun q => (st q).filter (· ≠ x) ++ if q = g then [x] else [], .ok ()) := by
      simp only [MoveOp.lists, if_neg hne]
    rw [hlists] at e hst'
    simp only [MoveOp.run] at e f' hH' hst'
    cases hr : h.groupAppend k g x with
    | mk h' res =>
      rw [hr] at e f' hH' hst'
      simp only at e
      subst e
      have m := run_put hf (o := .append k g x) (hH _ hg) (hst _ hg) l1 l5 hr
      simp only [MoveOp.layer] at m
      have hht := hH _ hg
      have hts : t < h.size := inside_made hf (canvas_inside hf (holderAt_canvas hf hht)) hht.2.1
      have htt := name_isTag hht.1 (by decide)
      obtain ⟨h'', e', E⟩ := ih h' (fun q => (st q).filter (· ≠ x) ++ if q = g then [x] else []) f' hH' hst'
          (List.nodup_cons.1 hnd).2 fun y hy => by
        obtain ⟨y1, y2, y3, y4, y5⟩ := hl y (List.mem_cons_of_mem _ hy)
        have hyx : y ≠ x := fun e => (List.nodup_cons.1 hnd).1 (e ▸ hy)
        refine ⟨y1.trans_le m.size, by rw [m.bare y1]; exact y2, by rw [m.bare y1]; exact y3, ?_,
          fun hw => y5 (m.within_back hf hw hts htt l5)⟩
        simp [List.mem_filter, hyx, y4]
      have ef : ∀ l : List ℕ, (l.filter (· ≠ x)).filter (· ∉ r) = l.filter (· ∉ x :: r) := by
        intro l
        rw [List.filter_filter]
        apply List.filter_congr
        intro z _
        simp [not_or, Bool.and_comm]
      refine ⟨h'', by rw [forList, hr]; exact e', E.forest, m.size.trans E.size,
        fun z hz => (E.bare z (hz.trans_le m.size)).trans (m.bare hz), fun q hq hqs => ?_, E.holders, fun a ha => ?_,
        fun y hy => m.within_back hf (E.target y hy) hts htt l5⟩
      · rw [E.there q hq (hqs.trans_le m.size), m.there q hq hqs, ef]
      · rw [E.lists a ha]
        congr 1
        rw [List.filter_append, ef]
        by_cases hag : a.2.1 = g
        · simp only [if_pos hag]
          rw [List.append_assoc, List.filter_cons_of_pos (by simpa using (List.nodup_cons.1 hnd).1)]
          rfl
        · simp only [if_neg hag]
          simp

section
variable {h : Dom} {H : Set (GKind × ℕ × ℕ)} {st : ℕ → List ℕ}

/-- A layer is in one group only. -/
theorem child_only (hf : Forest h) (hH : ∀ a ∈ H, HolderAt h a.1 a.2.1 a.2.2) (hst : ∀ a ∈ H, h.children a.1 a.2.1 = .ok (st a.2.1))
    {a b : GKind × ℕ × ℕ} (ha : a ∈ H) (hb : b ∈ H) (hne : a.2.1 ≠ b.2.1) {x : ℕ} (hx : x ∈ st a.2.1) : x ∉ st b.2.1 := by
  intro hx'
  have p1 := (child_par hf (hH a ha) (hst a ha) hx).1
  have p2 := (child_par hf (hH b hb) (hst b hb) hx').1
  have := par_unique p1 p2
  have h1 := hH a ha
  rw [this] at h1
  exact hne (holderAt_distinct hf h1 (hH b hb))

/-- A group's children are in it. -/
theorem child_within (hf : Forest h) (hH : ∀ a ∈ H, HolderAt h a.1 a.2.1 a.2.2) (hst : ∀ a ∈ H, h.children a.1 a.2.1 = .ok (st a.2.1))
    {a : GKind × ℕ × ℕ} (ha : a ∈ H) {x : ℕ} (hx : x ∈ st a.2.1) : TransGen (Par h) x a.2.1 :=
  TransGen.head' (child_par hf (hH a ha) (hst a ha) hx).1 (canvas_inside hf (holderAt_canvas hf (hH a ha)))

/-- The layer is a group. -/
def isGroupAt (h : Dom) (x : ℕ) : Bool :=
  match layerOf (h.bare x) with
  | .ok cl => cl.isGroup
  | .error _ => false

/-- The children of a group, each followed by its own children if it is a group. -/
def twoLevels (h : Dom) (st : ℕ → List ℕ) (g : ℕ) : List ℕ :=
  (st g).flatMap fun x => x :: if isGroupAt h x then st x else []

/-- A layer and its children appended to a group that isn't in it. -/
theorem withInner_eq (hf : Forest h) (hH : ∀ a ∈ H, HolderAt h a.1 a.2.1 a.2.2)
    (hst : ∀ a ∈ H, h.children a.1 a.2.1 = .ok (st a.2.1)) {k k' : GKind} {g c g' t x : ℕ} (hg : (k, g, c) ∈ H)
    (hg' : (k', g', t) ∈ H) (hne : g' ≠ g) (hx : x ∈ st g) (hin : ¬ Within h t x)
    (hgr : isGroupAt h x = true → ∃ d, (GKind.group, x, d) ∈ H) :
    withInner (fun y => groupAppend k' g' y) x h =
      forList (fun y => groupAppend k' g' y) (x :: if isGroupAt h x then st x else []) h := by
  obtain ⟨p1, p2⟩ := child_par hf (hH _ hg) (hst _ hg) hx
  obtain ⟨-, hall⟩ := (children_iff (holderAt_canvas hf (hH _ hg)) _).1 (hst _ hg)
  obtain ⟨cl, hcl⟩ := hall x hx
  obtain ⟨h1, e1, E⟩ := append_each_more hg' [x] h st hf hH hst (by simp) fun y hy => by
    rw [List.mem_singleton] at hy
    subst hy
    exact ⟨(hf.made c y p1).2, p2, ⟨cl, hcl⟩, child_only hf hH hst hg hg' hne.symm hx, hin⟩
  have ea : h.groupAppend k' g' x = (h1, .ok ()) := by
    rw [forList] at e1
    rcases hr : h.groupAppend k' g' x with ⟨h2, e | ⟨⟩⟩
    · rw [hr] at e1; simp at e1
    · rw [hr] at e1; simpa [forList] using e1
  rw [withInner, hcl, forList, ea]
  simp only
  have hgi : isGroupAt h x = cl.isGroup := by rw [isGroupAt, hcl]
  cases hcg : cl.isGroup with
  | false =>
    rw [hgi, hcg]
    rfl
  | true =>
    rw [hgi, hcg]
    obtain ⟨d, hd⟩ := hgr (hgi.trans hcg)
    simp only [if_true]
    have hgx : g' ≠ x := by
      rintro rfl
      exact hin (canvas_inside hf (holderAt_canvas hf (hH _ hg')))
    have hself : x ∉ st x := fun hm => hf.acyclic x (child_within hf hH hst hd hm)
    have e2 : (st x).filter (· ∉ [x]) ++ (if x = g' then [x] else []) = st x := by
      rw [if_neg hgx.symm, List.append_nil, List.filter_eq_self]
      intro y hy
      have : y ≠ x := fun e => hself (e ▸ hy)
      simpa using this
    have := c171_loop E.forest E.holders (st := fun q => (st q).filter (· ∉ [x]) ++ if q = g' then [x] else []) E.lists (k := .group) (g := x) (c := d) hd (op := fun y => .append k' g' y)
      fun y _ => ⟨rfl, hgx, t, hg', fun z hz hw => by
        rw [e2] at hz
        exact hin ((E.target z hw).trans (child_within hf hH hst hd hz).to_reflTransGen)⟩
    rw [e2] at this
    exact this

end

/-- The loop from some position on. -/
theorem desc_loop {H : Set (GKind × ℕ × ℕ)} {k k' : GKind} {g c g' t : ℕ} (hg : (k, g, c) ∈ H) (hg' : (k', g', t) ∈ H)
    (hne : g' ≠ g) : ∀ (i : ℕ) (h : Dom)
    (st : ℕ → List ℕ), Forest h → (∀ a ∈ H, HolderAt h a.1 a.2.1 a.2.2) → (∀ a ∈ H, h.children a.1 a.2.1 = .ok (st a.2.1)) →
    layersOf h ((h.kids c).drop i) = [] →
    (∀ x ∈ st g, ¬ Within h t x ∧ (isGroupAt h x = true → ∃ d, (GKind.group, x, d) ∈ H)) →
    i ≤ (h.kids c).length →
    loopFrom c (withInner fun x => groupAppend k' g' x) i h = forList (fun x => groupAppend k' g' x) (twoLevels h st g) h := by
  intro i
  induction i with
  | zero =>
    intro h st hf hH hst hlay _ _
    obtain ⟨e, -⟩ := (children_iff (holderAt_canvas hf (hH _ hg)) _).1 (hst _ hg)
    rw [List.drop_zero] at hlay
    rw [hlay] at e
    have e : st g = [] := e
    rw [twoLevels, e]; rfl
  | succ i ih =>
    intro h st hf hH hst hlay hop hi
    have hh := hH _ hg
    have hl := hst _ hg
    obtain ⟨x, hx⟩ : ∃ x, (h.kids c)[i]? = some x := ⟨_, List.getElem?_eq_getElem (by omega)⟩
    obtain ⟨ek, ef⟩ := split_at hx (hf.nodup c)
    have hdrop : (h.kids c).drop i = x :: (h.kids c).drop (i + 1) := by
      obtain ⟨hlt, hget⟩ := List.getElem?_eq_some_iff.1 hx
      rw [← hget, List.getElem_cons_drop]
    simp only [loopFrom, hx]
    by_cases hxl : isLayer (h.bare x) = true
    · rw [if_pos hxl]
      obtain ⟨e, hall⟩ := (children_iff (holderAt_canvas hf hh) _).1 hl
      dsimp only at e hall
      have hx1 : layersOf h [x] = [x] := by rw [layersOf_eq, List.filter_cons_of_pos (by exact hxl)]; rfl
      have est : st g = x :: (layersOf h ((h.kids c).take i)).reverse := by
        rw [e]
        conv_lhs => rw [ek]
        rw [← List.singleton_append, layersOf_append, layersOf_append, hlay, hx1]
        simp
      have hxs : x ∈ st g := by rw [est]; simp
      have hmade : ∀ z ∈ h.kids c, z < h.size := fun z hz => (hf.made c z ((hf.child c z).1 hz)).2
      have hxk : x ∈ h.kids c := List.mem_of_getElem? hx
      obtain ⟨cl, hcl⟩ := hall x hxs
      obtain ⟨o1, o2⟩ := hop x hxs
      have hnd : (st g).Nodup := by
        rw [e, layersOf_eq, List.nodup_reverse]
        exact (hf.nodup c).filter _
      generalize hR : (layersOf h ((h.kids c).take i)).reverse = R at est
      set L1 : List ℕ := x :: if isGroupAt h x then st x else [] with hL1
      have etwo : twoLevels h st g = L1 ++ R.flatMap fun y => y :: if isGroupAt h y then st y else [] := by
        rw [twoLevels, est, List.flatMap_cons]
      -- what is known of the layer and its children
      have hmem : ∀ y ∈ L1, y = x ∨ isGroupAt h x = true ∧ y ∈ st x := by
        intro y hy
        rw [hL1] at hy
        rcases List.mem_cons.1 hy with rfl | hy
        · exact .inl rfl
        · split at hy
          · next hgx => exact .inr ⟨hgx, hy⟩
          · cases hy
      have hnotg : ∀ y ∈ L1, y ≠ x → ∀ a ∈ H, a.2.1 ≠ x → y ∉ st a.2.1 := by
        intro y hy hyx a ha hax
        rcases hmem y hy with e | ⟨h1, h2⟩
        · exact absurd e hyx
        · obtain ⟨d, hd⟩ := o2 h1
          exact child_only hf hH hst hd ha hax.symm h2
      have hgx : g ≠ x := by
        rintro rfl
        exact hf.acyclic g (child_within hf hH hst hg hxs)
      have hg'x : g' ≠ x := by
        rintro rfl
        exact o1 (canvas_inside hf (holderAt_canvas hf (hH _ hg')))
      have hL1nd : L1.Nodup := by
        rw [hL1]
        split
        · next hgx =>
          obtain ⟨d, hd⟩ := o2 hgx
          obtain ⟨e', -⟩ := (children_iff (holderAt_canvas hf (hH _ hd)) _).1 (hst _ hd)
          dsimp only at e'
          refine List.nodup_cons.2 ⟨fun hm => hf.acyclic x (child_within hf hH hst hd hm), ?_⟩
          rw [e', layersOf_eq, List.nodup_reverse]
          exact (hf.nodup d).filter _
        · simp
      obtain ⟨h', e1, E⟩ := append_each_more hg' L1 h st hf hH hst hL1nd fun y hy => by
        rcases hmem y hy with rfl | ⟨h1, h2⟩
        · exact ⟨hmade y hxk, hxl, ⟨cl, hcl⟩, child_only hf hH hst hg hg' hne.symm hxs, o1⟩
        · obtain ⟨d, hd⟩ := o2 h1
          obtain ⟨q1, q2⟩ := child_par hf (hH _ hd) (hst _ hd) h2
          obtain ⟨-, hall'⟩ := (children_iff (holderAt_canvas hf (hH _ hd)) _).1 (hst _ hd)
          exact ⟨(hf.made d y q1).2, q2, hall' y h2, child_only hf hH hst hd hg' hg'x.symm h2,
            fun hw => o1 (hw.trans (child_within hf hH hst hd h2).to_reflTransGen)⟩
      rw [hcl]
      simp only
      rw [withInner_eq hf hH hst hg hg' hne hxs o1 o2, etwo, forList_append, ← hL1, e1]
      simp only
      have hct : c ≠ t := by
        rintro rfl
        exact hne (holderAt_distinct hf (hH _ hg') hh)
      have hcs : c < h.size := (hf.made c x ((hf.child c x).1 hxk)).1
      have hxL : x ∈ L1 := by rw [hL1]; simp
      have hkids : h'.kids c = (h.kids c).take i ++ (h.kids c).drop (i + 1) := by
        rw [E.there c hct hcs, ← ef]
        apply List.filter_congr
        intro z hz
        have : z ∈ L1 ↔ z = x := by
          refine ⟨fun hm => ?_, fun e => e ▸ hxL⟩
          rcases hmem z hm with e | ⟨h1, h2⟩
          · exact e
          · exfalso
            obtain ⟨d, hd⟩ := o2 h1
            have q1 := (child_par hf (hH _ hd) (hst _ hd) h2).1
            have := par_unique q1 ((hf.child c z).1 hz)
            have hhd := hH _ hd
            dsimp only at this hhd
            rw [this] at hhd
            exact hgx (holderAt_distinct hf hh hhd)
        simp [this]
      have hlen : ((h.kids c).take i).length = i := by rw [List.length_take]; omega
      have hkeep : ∀ a ∈ H, a.2.1 ≠ x → a.2.1 ≠ g → a.2.1 ≠ g' →
          (st a.2.1).filter (· ∉ L1) ++ (if a.2.1 = g' then L1 else []) = st a.2.1 := by
        intro a ha h1 h2 h3
        rw [if_neg h3, List.append_nil, List.filter_eq_self]
        intro z hz
        have : z ∉ L1 := by
          intro hm
          by_cases hzx : z = x
          · subst hzx
            exact child_only hf hH hst hg ha h2.symm hxs hz
          · exact hnotg z hm hzx a ha h1 hz
        simpa using this
      have hst2 : (st g).filter (· ∉ L1) ++ (if g = g' then L1 else []) = R := by
        rw [if_neg hne.symm, List.append_nil, est, List.filter_cons_of_neg (by simpa using hxL), List.filter_eq_self]
        intro z hz
        have hzx : z ≠ x := by
          rintro rfl
          rw [est] at hnd
          exact (List.nodup_cons.1 hnd).1 hz
        have : z ∉ L1 := fun hm => hnotg z hm hzx _ hg hgx (by rw [est]; exact List.mem_cons_of_mem _ hz)
        simpa using this
      have hRg : ∀ y ∈ R, y ∈ st g := fun y hy => by rw [est]; exact List.mem_cons_of_mem _ hy
      have hRsize : ∀ y ∈ R, y < h.size := fun y hy =>
        (hf.made c y (child_par hf (hH _ hg) (hst _ hg) (hRg y hy)).1).2
      have hsame : ∀ y ∈ R, isGroupAt h' y = isGroupAt h y := fun y hy => by
        rw [isGroupAt, isGroupAt, E.bare y (hRsize y hy)]
      have := ih h' (fun q => (st q).filter (· ∉ L1) ++ if q = g' then L1 else []) E.forest E.holders E.lists ?_ ?_ ?_
      · rw [this, twoLevels, hst2]
        congr 1
        apply List.flatMap_congr
        intro y hy
        rw [hsame y hy]
        congr 1
        split
        · next hgy =>
          obtain ⟨d, hd⟩ := (hop y (hRg y hy)).2 hgy
          have hyx : y ≠ x := by
            rintro rfl
            rw [est] at hnd
            exact (List.nodup_cons.1 hnd).1 hy
          refine hkeep _ hd hyx ?_ ?_
          · intro e
            dsimp only at e
            subst e
            exact hf.acyclic y (child_within hf hH hst hg (hRg y hy))
          · intro e
            dsimp only at e
            subst e
            exact (hop y (hRg y hy)).1 (canvas_inside hf (holderAt_canvas hf (hH _ hg')))
        · rfl
      · rw [hkids, List.drop_left' hlen, layersOf_eq]
        rw [layersOf_eq] at hlay
        rw [← hlay]
        exact List.filter_congr fun z hz => by rw [E.bare z (hmade z (List.mem_of_mem_drop hz))]
      · intro y hy
        rw [hst2] at hy
        obtain ⟨p1, p2⟩ := hop y (hRg y hy)
        exact ⟨fun hw => p1 (E.target y hw), by rw [hsame y hy]; exact p2⟩
      · rw [hkids, List.length_append, hlen]; omega
    · rw [if_neg hxl]
      refine ih h st hf hH hst ?_ hop (by omega)
      rw [hdrop, layersOf_eq, List.filter_cons_of_neg (by exact hxl), ← layersOf_eq, hlay]

theorem twoLevels_nodup {h : Dom} (hf : Forest h) {H : Set (GKind × ℕ × ℕ)} (hH : ∀ a ∈ H, HolderAt h a.1 a.2.1 a.2.2)
    {st : ℕ → List ℕ} (hst : ∀ a ∈ H, h.children a.1 a.2.1 = .ok (st a.2.1)) {k : GKind} {g c : ℕ} (hg : (k, g, c) ∈ H)
    (hgr : ∀ x ∈ st g, isGroupAt h x = true → ∃ d, (GKind.group, x, d) ∈ H) : (twoLevels h st g).Nodup := by
  have nd : ∀ a ∈ H, (st a.2.1).Nodup := by
    intro a ha
    obtain ⟨e, -⟩ := (children_iff (holderAt_canvas hf (hH _ ha)) _).1 (hst _ ha)
    rw [e, layersOf_eq, List.nodup_reverse]
    exact (hf.nodup _).filter _
  rw [twoLevels, List.nodup_flatMap]
  have up : ∀ x ∈ st g, ∀ y ∈ (x :: if isGroupAt h x then st x else []), y = x ∨
      ∃ d, (GKind.group, x, d) ∈ H ∧ y ∈ st x := by
    intro x hx y hy
    rcases List.mem_cons.1 hy with rfl | hy
    · exact .inl rfl
    · split at hy
      · next hgx =>
        obtain ⟨d, hd⟩ := hgr x hx hgx
        exact .inr ⟨d, hd, hy⟩
      · cases hy
  refine ⟨fun x hx => ?_, List.Nodup.pairwise_of_forall_ne (nd _ hg) fun a ha b hb hab => ?_⟩
  · split
    · next hgx =>
      obtain ⟨d, hd⟩ := hgr x hx hgx
      exact List.nodup_cons.2 ⟨fun hm => hf.acyclic x (child_within hf hH hst hd hm), nd _ hd⟩
    · simp
  · rw [Function.onFun, List.disjoint_left]
    intro y hya hyb
    have notg : ∀ x ∈ st g, x ≠ g := by
      rintro x hx rfl
      exact hf.acyclic x (child_within hf hH hst hg hx)
    rcases up a ha y hya with rfl | ⟨d, hd, h1⟩
    · rcases up b hb y hyb with rfl | ⟨d', hd', h2⟩
      · exact hab rfl
      · exact child_only hf hH hst hg hd' (notg b hb).symm ha h2
    · rcases up b hb y hyb with rfl | ⟨d', hd', h2⟩
      · exact child_only hf hH hst hg hd (notg a ha).symm hb h1
      · exact child_only hf hH hst hd hd' hab h1 h2

/-- C177. `for x in group.descendants: other.append(x)`, for a group or animation `other` that isn't in a layer of `group`: this
appends to `other`, in this order, each of the layers of `group` followed by its own layers. `group` has none then, nor have its
layers. All else is as it was; so the layers further down stay where they were (in that, the property is violated). -/
theorem c177_moved_partial {h : Dom} (hf : Forest h) {H : Set (GKind × ℕ × ℕ)} (hH : ∀ a ∈ H, HolderAt h a.1 a.2.1 a.2.2)
    {st : ℕ → List ℕ} (hst : ∀ a ∈ H, h.children a.1 a.2.1 = .ok (st a.2.1)) {k k' : GKind} {g g' c t : ℕ} (hg : (k, g, c) ∈ H)
    (hg' : (k', g', t) ∈ H) (hne : g' ≠ g) (hin : ∀ x ∈ st g, ¬ Within h t x)
    (hgr : ∀ x ∈ st g, isGroupAt h x = true → ∃ d, (GKind.group, x, d) ∈ H) :
    ∃ h', forDescendants k g (fun x => Dom.groupAppend k' g' x) h = (h', .ok ()) ∧
      h'.children k' g' = .ok (st g' ++ (st g).flatMap fun x => x :: if isGroupAt h x then st x else []) ∧
      h'.children k g = .ok [] ∧ (∀ x ∈ st g, isGroupAt h x = true → h'.children .group x = .ok []) ∧
      ∀ a ∈ H, a.2.1 ≠ g → a.2.1 ≠ g' → a.2.1 ∉ st g → h'.children a.1 a.2.1 = .ok (st a.2.1) := by
  have hloop : forDescendants k g (fun x => Dom.groupAppend k' g' x) h =
      forList (fun x => Dom.groupAppend k' g' x) (twoLevels h st g) h := by
    rw [forDescendants, forChildren, holderAt_canvas hf (hH _ hg)]
    exact desc_loop hg hg' hne _ h st hf hH hst (by rw [List.drop_length]; rfl) (fun x hx => ⟨hin x hx, hgr x hx⟩) le_rfl
  have mem : ∀ y, y ∈ twoLevels h st g ↔ y ∈ st g ∨ ∃ x ∈ st g, isGroupAt h x = true ∧ y ∈ st x := by
    intro y
    rw [twoLevels, List.mem_flatMap]
    constructor
    · rintro ⟨x, hx, hy⟩
      rcases List.mem_cons.1 hy with rfl | hy
      · exact .inl hx
      · split at hy
        · next hgx => exact .inr ⟨x, hx, hgx, hy⟩
        · cases hy
    · rintro (hy | ⟨x, hx, hgx, hy⟩)
      · exact ⟨y, hy, by simp⟩
      · exact ⟨x, hx, by rw [if_pos hgx]; exact List.mem_cons_of_mem _ hy⟩
  have hg'x : ∀ x ∈ st g, g' ≠ x := by
    rintro x hx rfl
    exact hin g' hx (canvas_inside hf (holderAt_canvas hf (hH _ hg')))
  have out : ∀ a ∈ H, a.2.1 ≠ g → a.2.1 ∉ st g → ∀ y ∈ st a.2.1, y ∉ twoLevels h st g := by
    intro a ha h1 h2 y hy hm
    rcases (mem y).1 hm with h3 | ⟨x, hx, hgx, h3⟩
    · exact child_only hf hH hst hg ha h1.symm h3 hy
    · obtain ⟨d, hd⟩ := hgr x hx hgx
      exact child_only hf hH hst hd ha (fun e : x = a.2.1 => h2 (e ▸ hx)) h3 hy
  have out' := out _ hg' hne fun hm => hg'x g' hm rfl
  obtain ⟨h', e, E⟩ := append_each_more hg' (twoLevels h st g) h st hf hH hst (twoLevels_nodup hf hH hst hg hgr) fun y hy => by
    have hy' : ∃ a ∈ H, y ∈ st a.2.1 ∧ ¬ Within h t y := by
      rcases (mem y).1 hy with h3 | ⟨x, hx, hgx, h3⟩
      · exact ⟨_, hg, h3, hin y h3⟩
      · obtain ⟨d, hd⟩ := hgr x hx hgx
        exact ⟨_, hd, h3, fun hw => hin x hx (hw.trans (child_within hf hH hst hd h3).to_reflTransGen)⟩
    obtain ⟨a, ha, h3, h4⟩ := hy'
    obtain ⟨q1, q2⟩ := child_par hf (hH _ ha) (hst _ ha) h3
    obtain ⟨-, hall⟩ := (children_iff (holderAt_canvas hf (hH _ ha)) _).1 (hst _ ha)
    exact ⟨(hf.made _ y q1).2, q2, hall y h3, fun hm => out' y hm hy, h4⟩
  have keep : ∀ a ∈ H, a.2.1 ≠ g → a.2.1 ∉ st g → (st a.2.1).filter (· ∉ twoLevels h st g) = st a.2.1 := by
    intro a ha h1 h2
    rw [List.filter_eq_self]
    intro y hy
    simpa using out a ha h1 h2 y hy
  refine ⟨h', hloop.trans e, ?_, ?_, fun x hx hgx => ?_, fun a ha h1 h2 h3 => ?_⟩
  · have := E.lists _ hg'
    have hk := keep _ hg' hne fun hm => hg'x g' hm rfl
    dsimp only at this hk
    rw [this, if_pos rfl, hk, twoLevels]
  · have := E.lists _ hg
    dsimp only at this
    rw [this, if_neg hne.symm, List.append_nil, List.filter_eq_nil_iff.2]
    intro y hy
    simpa using (mem y).2 (.inl hy)
  · obtain ⟨d, hd⟩ := hgr x hx hgx
    have := E.lists _ hd
    dsimp only at this
    rw [this, if_neg (hg'x x hx).symm, List.append_nil, List.filter_eq_nil_iff.2]
    intro y hy
    simpa using (mem y).2 (.inr ⟨x, hx, hgx, hy⟩)
  · rw [E.lists a ha, if_neg h2, keep a ha h1 h3, List.append_nil]

end Dom

open Dom

/-! ## Examples -/

/-- The layers of the first animation and the circle in its group, moved to the second. -/
example : ∃ h', forDescendants .animation 0 (fun x => Dom.groupAppend .animation 15 x) exFlat = (h', .ok ()) ∧
    h'.children .animation 15 = .ok [9, 1, 4] ∧ h'.children .animation 0 = .ok [] ∧ h'.children .group 1 = .ok [] := by
  obtain ⟨h', e1, e2, e3, e4, -⟩ := c177_moved_partial exFlat_forest exFlatHolders_ok exFlatLists_ok (k := .animation) (g := 0)
    (c := 0) (k' := .animation) (g' := 15) (t := 15) (.inl rfl) (.inr (.inr rfl)) (by decide)
    (fun x hx => by
      have : x = 9 ∨ x = 1 := by simpa [exFlatLists] using hx
      rcases this with rfl | rfl <;> exact exFlat_outside (by decide +kernel))
    (fun x hx hgx => by
      have : x = 9 ∨ x = 1 := by simpa [exFlatLists] using hx
      rcases this with rfl | rfl
      · exact absurd hgx (by decide +kernel)
      · exact ⟨3, .inr (.inl rfl)⟩)
  refine ⟨h', e1, ?_, e3, e4 1 (by decide) (by decide +kernel)⟩
  rw [e2]
  decide +kernel

/-- A group in a group in an animation: 0 has 1, which has 4, which has the circle, 7; and an empty animation, 8. -/
def exNest : Dom := ((Dom.empty.alloc (.tag "canvas" [] [.tag "layer" [("type", .str "group".toList)]
  [.tag "param" [("name", .str "canvas".toList)] [.tag "canvas" [] [.tag "layer" [("type", .str "group".toList)]
    [.tag "param" [("name", .str "canvas".toList)] [.tag "canvas" [] [.tag "layer" [("type", .str "circle".toList)] []]]]]]]])).1.alloc
  (.tag "canvas" [] [])).1

/-- C177, violated: the circle isn't moved itself, but stays in its group. -/
theorem c177_deep_stays :
    (forDescendants .animation 0 (fun x => Dom.groupAppend .animation 8 x) exNest).2 = .ok () ∧
    (forDescendants .animation 0 (fun x => Dom.groupAppend .animation 8 x) exNest).1.children .animation 8 = .ok [1, 4] ∧
    (forDescendants .animation 0 (fun x => Dom.groupAppend .animation 8 x) exNest).1.children .group 4 = .ok [7] := by
  decide +kernel

end Sang
