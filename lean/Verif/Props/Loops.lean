import Verif.Spec.Loops
import Verif.Props.MovedLayer

/-!
# C171: layers moved in a loop over a group
-/

namespace Sang

open Spec Relation

namespace Dom

/-- Something that isn't in the layer moved isn't in anything it wasn't in before. -/
theorem Put.within_back {h h' : Dom} (hf : Forest h) {x c z d : ℕ} (m : Put h x c h') (hzd : Within h' z d) (hz : z < h.size)
    (ht : (h.bare z).isTag = true) (hzx : ¬ Within h z x) : Within h z d := by
  induction hzd using ReflTransGen.head_induction_on with
  | refl => exact .refl
  | @head a b hab _ ih =>
    have hab' : Par h a b := (m.parent_same hz ht hzx).symm.trans hab
    exact ReflTransGen.head hab' (ih (hf.made b a hab').1 (isTag_of_kid hf hab') fun hbx => hzx (ReflTransGen.head hab' hbx))

theorem split_at {l : List ℕ} {i x : ℕ} (hx : l[i]? = some x) (hnd : l.Nodup) :
    l = l.take i ++ x :: l.drop (i + 1) ∧ l.filter (· ≠ x) = l.take i ++ l.drop (i + 1) := by
  obtain ⟨hi, hg⟩ := List.getElem?_eq_some_iff.1 hx
  have e : l = l.take i ++ x :: l.drop (i + 1) := by
    rw [← hg, List.getElem_cons_drop, List.take_append_drop]
  refine ⟨e, ?_⟩
  generalize l.take i = A at *
  generalize l.drop (i + 1) = B at *
  subst e
  rw [List.nodup_append] at hnd
  obtain ⟨-, h2, h3⟩ := hnd
  rw [List.filter_append, List.filter_cons_of_neg (by simp), filter_ne_self fun hm => h3 x hm x (by simp) rfl,
    filter_ne_self (List.nodup_cons.1 h2).1]

theorem layersOf_append (h : Dom) (a b : List ℕ) : layersOf h (a ++ b) = layersOf h a ++ layersOf h b := by
  simp only [layersOf_eq, List.filter_append]

/-- The loop from some position on. -/
theorem loop_list {H : Set (GKind × ℕ × ℕ)} {op : ℕ → MoveOp} {k : GKind} {g c : ℕ} (hg : (k, g, c) ∈ H) : ∀ (i : ℕ) (h : Dom)
    (st : ℕ → List ℕ), Forest h → (∀ a ∈ H, HolderAt h a.1 a.2.1 a.2.2) → (∀ a ∈ H, h.children a.1 a.2.1 = .ok (st a.2.1)) →
    layersOf h ((h.kids c).drop i) = [] →
    (∀ x ∈ st g, (op x).layer = x ∧ (op x).group.2 ≠ g ∧ ∃ t, ((op x).group.1, (op x).group.2, t) ∈ H ∧
      ∀ y ∈ st g, ¬ Within h t y) →
    i ≤ (h.kids c).length →
    loopFrom c (fun x => (op x).run) i h = forList (fun x => (op x).run) (st g) h := by
  intro i
  induction i with
  | zero =>
    intro h st hf hH hst hlay _ _
    obtain ⟨e, -⟩ := (children_iff (holderAt_canvas hf (hH _ hg)) _).1 (hst _ hg)
    rw [List.drop_zero] at hlay
    rw [hlay] at e
    have e : st g = [] := e
    rw [e]; rfl
  | succ i ih =>
    intro h st hf hH hst hlay hop hi
    have hh := hH _ hg
    have hl := hst _ hg
    obtain ⟨x, hx⟩ : ∃ x, (h.kids c)[i]? = some x := ⟨_, List.getElem?_eq_getElem (by omega)⟩
    obtain ⟨ek, ef⟩ := split_at hx (hf.nodup c)
    have hdrop : (h.kids c).drop i = x :: (h.kids c).drop (i + 1) := by
      obtain ⟨hlt, hget⟩ := List.getElem?_eq_some_iff.1 hx
      rw [← hget, List.getElem_cons_drop]
    simp only [loopFrom, hx]
    by_cases hxl : isLayer (h.bare x) = true
    · rw [if_pos hxl]
      obtain ⟨e, hall⟩ := (children_iff (holderAt_canvas hf hh) _).1 hl
      dsimp only at e hall
      have hx1 : layersOf h [x] = [x] := by rw [layersOf_eq, List.filter_cons_of_pos (by exact hxl)]; rfl
      have est : st g = x :: (layersOf h ((h.kids c).take i)).reverse := by
        rw [e]
        conv_lhs => rw [ek]
        rw [← List.singleton_append, layersOf_append, layersOf_append, hlay, hx1]
        simp
      have hxs : x ∈ st g := by rw [est]; simp
      have hmade : ∀ z ∈ h.kids c, z < h.size := fun z hz => (hf.made c z ((hf.child c z).1 hz)).2
      have hxk : x ∈ h.kids c := List.mem_of_getElem? hx
      obtain ⟨cl, hcl⟩ := hall x hxs
      obtain ⟨o1, o2, t, ht, o3⟩ := hop x hxs
      rw [hcl, est, forList]
      simp only
      have hxl' : isLayer (h.bare (op x).layer) = true := by rw [o1]; exact hxl
      have hstep := move_step hf hH hst ht (by rw [o1]; exact hmade x hxk) hxl' (by rw [o1]; exact ⟨cl, hcl⟩)
        (by rw [o1]; exact o3 x hxs)
      cases hr : (op x).run h with
      | mk h' r =>
        rw [hr] at hstep
        cases r with
        | error er => rfl
        | ok u =>
          simp only
          have m := run_put hf (hH _ ht) (hst _ ht) (by rw [o1]; exact hmade x hxk) (by rw [o1]; exact o3 x hxs) hr
          rw [o1] at m
          obtain ⟨-, f', hH', hst'⟩ := hstep
          have hct : c ≠ t := by
            rintro rfl
            exact o2 (holderAt_distinct hf (hH _ ht) hh)
          have hkids : h'.kids c = (h.kids c).take i ++ (h.kids c).drop (i + 1) := by
            have hcs : c < h.size := (hf.made c x ((hf.child c x).1 hxk)).1
            rw [m.there c hct hcs, ef]
          have hlen : ((h.kids c).take i).length = i := by rw [List.length_take]; omega
          have hst2 : ((op x).lists st).1 g = (layersOf h ((h.kids c).take i)).reverse := by
            have h1 := m.children hf hh (hH' _ hg) hct hl
            have h2 := hst' _ hg
            dsimp only at h1 h2
            rw [h1] at h2
            simp only [Except.ok.injEq] at h2
            rw [← h2, est, List.filter_cons_of_neg (by simp)]
            apply filter_ne_self
            intro hm
            have hnd : (st g).Nodup := by
              rw [e, layersOf_eq, List.nodup_reverse]
              exact (hf.nodup c).filter _
            rw [est] at hnd
            exact (List.nodup_cons.1 hnd).1 hm
          have := ih h' ((op x).lists st).1 f' hH' hst' ?_ ?_ ?_
          · rw [this, hst2]
          · rw [hkids, List.drop_left' hlen, layersOf_eq]
            rw [layersOf_eq] at hlay
            rw [← hlay]
            exact List.filter_congr fun z hz => by rw [m.bare (hmade z (List.mem_of_mem_drop hz))]
          · intro y hy
            rw [hst2] at hy
            obtain ⟨p1, p2, t', ht', p3⟩ := hop y (by rw [est]; exact List.mem_cons_of_mem _ hy)
            refine ⟨p1, p2, t', ht', fun z hz hw => ?_⟩
            rw [hst2] at hz
            have hht := hH _ ht'
            have hts : t' < h.size := inside_made hf (canvas_inside hf (holderAt_canvas hf hht)) hht.2.1
            exact p3 z (by rw [est]; exact List.mem_cons_of_mem _ hz)
              (m.within_back hf hw hts (name_isTag hht.1 (by decide)) (p3 x hxs))
          · rw [hkids, List.length_append, hlen]; omega
    · rw [if_neg hxl]
      refine ih h st hf hH hst ?_ hop (by omega)
      rw [hdrop, layersOf_eq, List.filter_cons_of_neg (by exact hxl), ← layersOf_eq, hlay]

/-- Appending each layer of a list to a group. -/
theorem append_each {H : Set (GKind × ℕ × ℕ)} {k : GKind} {g t : ℕ} (hg : (k, g, t) ∈ H) : ∀ (l : List ℕ) (h : Dom)
    (st : ℕ → List ℕ), Forest h → (∀ a ∈ H, HolderAt h a.1 a.2.1 a.2.2) → (∀ a ∈ H, h.children a.1 a.2.1 = .ok (st a.2.1)) →
    l.Nodup → (∀ x ∈ l, x < h.size ∧ isLayer (h.bare x) = true ∧ (∃ cl, layerOf (h.bare x) = .ok cl) ∧ x ∉ st g ∧ ¬ Within h t x) →
    ∃ h', forList (fun x => groupAppend k g x) l h = (h', .ok ()) ∧
      ∀ a ∈ H, h'.children a.1 a.2.1 = .ok ((st a.2.1).filter (· ∉ l) ++ if a.2.1 = g then l else []) := by
  intro l
  induction l with
  | nil =>
    intro h st _ _ hst _ _
    exact ⟨h, rfl, fun a ha => by rw [hst a ha]; simp⟩
  | cons x r ih =>
    intro h st hf hH hst hnd hl
    obtain ⟨l1, l2, l3, l4, l5⟩ := hl x (by simp)
    obtain ⟨e, f', hH', hst'⟩ := move_step hf hH hst (o := .append k g x) hg l1 l2 l3 l5
    have hne : (st g).getLast? ≠ some x := fun he => l4 (List.mem_of_getLast? he)
    have hlists : (MoveOp.append k g x).lists st = (fun q => (st q).filter (· ≠ x) ++ if q = g then [x] else [], .ok ()) := by
      simp only [MoveOp.lists, if_neg hne]
    rw [hlists] at e hst'
    simp only [MoveOp.run] at e f' hH' hst'
    cases hr : h.groupAppend k g x with
    | mk h' res =>
      rw [hr] at e f' hH' hst'
      simp only at e
      subst e
      have m := run_put hf (o := .append k g x) (hH _ hg) (hst _ hg) l1 l5 hr
      simp only [MoveOp.layer] at m
      have hht := hH _ hg
      have hts : t < h.size := inside_made hf (canvas_inside hf (holderAt_canvas hf hht)) hht.2.1
      obtain ⟨h'', e', hch⟩ := ih h' (fun q => (st q).filter (· ≠ x) ++ if q = g then [x] else []) f' hH' hst'
          (List.nodup_cons.1 hnd).2 fun y hy => by
        obtain ⟨y1, y2, y3, y4, y5⟩ := hl y (List.mem_cons_of_mem _ hy)
        have hyx : y ≠ x := fun e => (List.nodup_cons.1 hnd).1 (e ▸ hy)
        refine ⟨y1.trans_le m.size, by rw [m.bare y1]; exact y2, by rw [m.bare y1]; exact y3, ?_,
          fun hw => y5 (m.within_back hf hw hts (name_isTag hht.1 (by decide)) l5)⟩
        simp [List.mem_filter, hyx, y4]
      refine ⟨h'', by rw [forList, hr]; exact e', fun a ha => ?_⟩
      rw [hch a ha]
      congr 1
      have e1 : ((st a.2.1).filter (· ≠ x)).filter (· ∉ r) = (st a.2.1).filter (· ∉ x :: r) := by
        rw [List.filter_filter]
        apply List.filter_congr
        intro z _
        simp [not_or, Bool.and_comm]
      rw [List.filter_append, e1]
      by_cases hag : a.2.1 = g
      · simp only [if_pos hag]
        rw [List.append_assoc, List.filter_cons_of_pos (by simpa using (List.nodup_cons.1 hnd).1)]
        rfl
      · simp only [if_neg hag]
        simp

/-- The loop over a group's own children, when the first layer of the canvas has `N` before it. -/
theorem loop_own {k : GKind} {g c f : ℕ} : ∀ (i : ℕ) (h : Dom) (l N R : List ℕ) (y : ℕ), Forest h → HolderAt h k g c →
    h.children k g = .ok l → h.kids c = N ++ y :: R → N.length = f → layersOf h N = [] → isLayer (h.bare y) = true → f < i →
    i ≤ (h.kids c).length → (loopFrom c (fun x => groupAppend k g x) i h).2 = .error .value ∧
      ∃ l', (loopFrom c (fun x => groupAppend k g x) i h).1.children k g = .ok l' ∧ l'.Perm l := by
  intro i
  induction i with
  | zero => intro _ _ _ _ _ _ _ _ _ _ _ _ hi; omega
  | succ i ih =>
    intro h l N R y hf hh hl hk hN hNl hy hfi hi
    obtain ⟨x, hx⟩ : ∃ x, (h.kids c)[i]? = some x := ⟨_, List.getElem?_eq_getElem (by omega)⟩
    have hxk : x ∈ h.kids c := List.mem_of_getElem? hx
    obtain ⟨e, hall⟩ := (children_iff (holderAt_canvas hf hh) _).1 hl
    have hNy : ∀ z ∈ N, isLayer (h.bare z) = false := by
      intro z hz
      rw [layersOf_eq, List.filter_eq_nil_iff] at hNl
      simpa using hNl z hz
    simp only [loopFrom, hx]
    by_cases hxl : isLayer (h.bare x) = true
    · rw [if_pos hxl]
      obtain ⟨cl, hcl⟩ := hall x (by rw [e, List.mem_reverse, layersOf_eq]; exact List.mem_filter.2 ⟨hxk, hxl⟩)
      rw [hcl]
      simp only
      by_cases hfi' : i = f
      · have hxy : x = y := by
          rw [hk, hfi', ← hN, List.getElem?_append_right le_rfl, Nat.sub_self] at hx
          simpa using hx.symm
        subst hxy
        have hlast : l.getLast? = some x := by
          rw [e, List.getLast?_reverse, hk, layersOf_append, hNl, layersOf_eq, List.filter_cons_of_pos (by exact hxl)]
          rfl
        rw [c71_append_last_child_fails hf hl hlast]
        exact ⟨rfl, l, hl, .refl _⟩
      · have hxy : x ≠ y := by
          rintro rfl
          have h2 : (h.kids c)[N.length]? = some x := by
            rw [hk, List.getElem?_append_right le_rfl, Nat.sub_self]; rfl
          obtain ⟨a1, a2⟩ := List.getElem?_eq_some_iff.1 hx
          obtain ⟨b1, b2⟩ := List.getElem?_eq_some_iff.1 h2
          have := (List.Nodup.getElem_inj_iff (hf.nodup c)).1 (a2.trans b2.symm)
          omega
        have hyc : Par h y c := (hf.child c y).1 (by rw [hk]; simp)
        have hxc : Par h x c := (hf.child c x).1 hxk
        have hin : ¬ Within h c x := fun hw => hf.acyclic x (TransGen.head' hxc hw)
        have hfind : (h.kids c).find? (fun y => isLayer (h.bare y)) = some y :=
          List.find?_eq_some_iff_append.2 ⟨hy, N, R, hk, fun z hz => by simp [hNy z hz]⟩
        obtain ⟨⟨m, e'⟩, -⟩ := beside_moved hf hyc hxy (hf.made c x hxc).2 hin hk
        have hrun : h.groupAppend k g x = ((h.insertBefore y x).1, .ok ()) := by
          rw [Dom.groupAppend, holderAt_canvas hf hh]
          simp only [hfind]
          exact Prod.ext rfl e'
        have hlast : l.getLast? ≠ some x := by
          rw [e, List.getLast?_reverse, layersOf_eq, List.head?_filter, hfind]
          simpa using hxy.symm
        rw [hrun]
        simp only
        have hbare : ∀ z, (h.insertBefore y x).1.bare z = h.bare z := fun z => bare_congr (by rw [m.lbl])
        have hxN : x ∉ N := fun hm => by rw [hNy x hm] at hxl; simp at hxl
        have hxR : x ∈ R := by
          rw [hk] at hxk
          simp only [List.mem_append, List.mem_cons, hxN, hxy, false_or] at hxk
          exact hxk
        have hkids : (h.insertBefore y x).1.kids c = N ++ x :: (y :: R.filter (· ≠ x)) := by
          rw [m.here, filter_ne_self hxN]
        have hh' : HolderAt (h.insertBefore y x).1 k g c := m.put.holder hf hh.1 (fun _ => layer_other hxl) hh
        obtain ⟨-, -, -, hch⟩ := move_step (H := {(k, g, c)}) hf (by simpa using hh) (st := fun _ => l) (by simpa using hl)
          (o := .append k g x) (c := c) (by simp [MoveOp.group]) (hf.made c x hxc).2 hxl ⟨cl, hcl⟩ hin
        simp only [MoveOp.run, hrun, Set.mem_singleton_iff, forall_eq] at hch
        have hperm : (((MoveOp.append k g x).lists fun _ => l).1 g).Perm l := by
          simp only [MoveOp.lists, if_neg hlast, if_true]
          have hxl2 : x ∈ l := by rw [e, List.mem_reverse, layersOf_eq]; exact List.mem_filter.2 ⟨hxk, hxl⟩
          have hnd : l.Nodup := by
            rw [e, layersOf_eq, List.nodup_reverse]
            exact (hf.nodup c).filter _
          have h1 : l.filter (· ≠ x) = l.erase x := by
            rw [List.Nodup.erase_eq_filter hnd]
            exact List.filter_congr fun z _ => by by_cases hz : z = x <;> simp [hz]
          rw [h1]
          exact List.perm_append_comm.trans (List.perm_cons_erase hxl2).symm
        have := ih _ _ N (y :: R.filter (· ≠ x)) x m.forest hh' hch hkids hN ?_ ?_ (by omega) ?_
        · obtain ⟨i1, l', i2, i3⟩ := this
          exact ⟨i1, l', i2, i3.trans hperm⟩
        · rw [layersOf_eq] at hNl ⊢
          rw [← hNl]
          exact List.filter_congr fun z _ => by rw [hbare]
        · rw [hbare]; exact hxl
        · have hlen : (R.filter (· ≠ x)).length + 1 = R.length := by
            have hnd := hf.nodup c
            rw [hk, List.nodup_append] at hnd
            have hRn := (List.nodup_cons.1 hnd.2.1).2
            have h1 : R.filter (· ≠ x) = R.erase x := by
              rw [List.Nodup.erase_eq_filter hRn]
              exact List.filter_congr fun z _ => by by_cases hz : z = x <;> simp [hz]
            rw [h1, List.length_erase_of_mem hxR]
            have := List.length_pos_of_mem hxR
            omega
          rw [hk] at hi
          rw [hkids]
          simp only [List.length_append, List.length_cons] at hi ⊢
          omega
    · rw [if_neg hxl]
      have hif : i ≠ f := by
        rintro rfl
        rw [hk, ← hN, List.getElem?_append_right le_rfl, Nat.sub_self] at hx
        simp only [List.getElem?_cons_zero, Option.some.injEq] at hx
        subst hx
        exact hxl hy
      exact ih h l N R y hf hh hl hk hN hNl hy (by omega) (by omega)

end Dom

open Dom

/-- C171. Looping over a group's children and moving each to another group, wherever in it, is the same as if they had been
listed first: what is done in the loop doesn't disturb it. (None of the layers has a group in it that they are moved to.) -/
theorem c171_loop {h : Dom} (hf : Forest h) {H : Set (GKind × ℕ × ℕ)} (hH : ∀ a ∈ H, HolderAt h a.1 a.2.1 a.2.2)
    {st : ℕ → List ℕ} (hst : ∀ a ∈ H, h.children a.1 a.2.1 = .ok (st a.2.1)) {k : GKind} {g c : ℕ} (hg : (k, g, c) ∈ H)
    {op : ℕ → MoveOp} (hop : ∀ x ∈ st g, (op x).layer = x ∧ (op x).group.2 ≠ g ∧
      ∃ t, ((op x).group.1, (op x).group.2, t) ∈ H ∧ ∀ y ∈ st g, ¬ Within h t y) :
    forChildren k g (fun x => (op x).run) h = forList (fun x => (op x).run) (st g) h := by
  rw [forChildren, holderAt_canvas hf (hH _ hg)]
  exact loop_list hg _ h st hf hH hst (by rw [List.drop_length]; rfl) hop le_rfl

/-- C171. `for x in group.children: other.append(x)` moves every layer: `group` has none then, and `other` has those it had, and
after them those of `group` in order. All else is as it was. -/
theorem c171_all_moved {h : Dom} (hf : Forest h) {H : Set (GKind × ℕ × ℕ)} (hH : ∀ a ∈ H, HolderAt h a.1 a.2.1 a.2.2)
    {st : ℕ → List ℕ} (hst : ∀ a ∈ H, h.children a.1 a.2.1 = .ok (st a.2.1)) {k k' : GKind} {g g' c c' : ℕ} (hg : (k, g, c) ∈ H)
    (hg' : (k', g', c') ∈ H) (hne : g' ≠ g) (hin : ∀ x ∈ st g, ¬ Within h c' x) :
    ∃ h', forChildren k g (fun x => Dom.groupAppend k' g' x) h = (h', .ok ()) ∧ h'.children k g = .ok [] ∧
      h'.children k' g' = .ok (st g' ++ st g) ∧
      ∀ a ∈ H, a.2.1 ≠ g → a.2.1 ≠ g' → h'.children a.1 a.2.1 = .ok (st a.2.1) := by
  have hloop := c171_loop hf hH hst hg (op := fun x => .append k' g' x) fun x _ => ⟨rfl, hne, c', hg', hin⟩
  have only : ∀ a ∈ H, a.2.1 ≠ g → ∀ x ∈ st g, x ∉ st a.2.1 := by
    intro a ha hag x hx hx'
    obtain ⟨e1, -⟩ := (children_iff (holderAt_canvas hf (hH _ hg)) _).1 (hst _ hg)
    obtain ⟨e2, -⟩ := (children_iff (holderAt_canvas hf (hH _ ha)) _).1 (hst _ ha)
    dsimp only at e1
    rw [e1, List.mem_reverse, layersOf_eq] at hx
    rw [e2, List.mem_reverse, layersOf_eq] at hx'
    have p1 : Par h x c := (hf.child _ _).1 (List.mem_filter.1 hx).1
    have p2 : Par h x a.2.2 := (hf.child _ _).1 (List.mem_filter.1 hx').1
    have := par_unique p1 p2
    have hha := hH _ ha
    rw [← this] at hha
    exact hag (holderAt_distinct hf hha (hH _ hg))
  obtain ⟨e, hall⟩ := (children_iff (holderAt_canvas hf (hH _ hg)) _).1 (hst _ hg)
  dsimp only at e hall
  have hkid : ∀ x ∈ st g, x ∈ h.kids c ∧ isLayer (h.bare x) = true := by
    intro x hx
    rw [e, List.mem_reverse, layersOf_eq] at hx
    exact List.mem_filter.1 hx
  have hnd : (st g).Nodup := by
    rw [e, layersOf_eq, List.nodup_reverse]
    exact (hf.nodup c).filter _
  obtain ⟨h', e', hch⟩ := append_each hg' (st g) h st hf hH hst hnd fun x hx =>
    ⟨(hf.made c x ((hf.child c x).1 (hkid x hx).1)).2, (hkid x hx).2, hall x hx, only _ hg' hne x hx, hin x hx⟩
  have keep : ∀ a ∈ H, a.2.1 ≠ g → (st a.2.1).filter (· ∉ st g) = st a.2.1 := by
    intro a ha hag
    rw [List.filter_eq_self]
    intro z hz
    have : z ∉ st g := fun hm => only a ha hag z hm hz
    simpa using this
  refine ⟨h', hloop.trans e', ?_, ?_, fun a ha h1 h2 => ?_⟩
  · have := hch _ hg
    dsimp only at this
    rw [this, if_neg hne.symm, List.filter_eq_nil_iff.2 (by simp)]
    rfl
  · have := hch _ hg'
    have hk := keep _ hg' hne
    dsimp only at this hk
    rw [this, if_pos rfl, hk]
  · rw [hch a ha, if_neg h2, keep a ha h1, List.append_nil]

/-- C171, violated: `for x in group.children: group.append(x)` raises `ValueError`, whatever layers the group has, if it has any.
The group then has the same layers, in some order. -/
theorem c171_own_group_fails {h : Dom} (hf : Forest h) {k : GKind} {g c : ℕ} (hh : HolderAt h k g c) {l : List ℕ}
    (hl : h.children k g = .ok l) (hne : l ≠ []) :
    (forChildren k g (fun x => Dom.groupAppend k g x) h).2 = .error .value ∧
    ∃ l', (forChildren k g (fun x => Dom.groupAppend k g x) h).1.children k g = .ok l' ∧ l'.Perm l := by
  obtain ⟨e, hall⟩ := (children_iff (holderAt_canvas hf hh) _).1 hl
  rw [forChildren, holderAt_canvas hf hh]
  simp only
  cases hfd : (h.kids c).find? fun y => isLayer (h.bare y) with
  | none =>
    refine absurd ?_ hne
    rw [e, layersOf_eq, List.filter_eq_nil_iff.2 fun y hy => List.find?_eq_none.1 hfd y hy]
    rfl
  | some y =>
    obtain ⟨hy, A, B, ek, hA⟩ := List.find?_eq_some_iff_append.1 hfd
    refine loop_own _ h l A B y hf hh hl ek rfl ?_ hy ?_ le_rfl
    · rw [layersOf_eq, List.filter_eq_nil_iff]
      intro z hz
      simpa using hA z hz
    · rw [ek]; simp

namespace Dom

/-- Something that leaves the canvas's contents as they are doesn't disturb the loop. -/
theorem loop_undisturbed {c : ℕ} {K : List ℕ} {body : ℕ → Dom → Dom × Res Unit} {B : ℕ → Node} {I : Dom → Prop}
    (hI : ∀ h, I h → h.kids c = K ∧ ∀ z ∈ K, h.bare z = B z) (hbody : ∀ h x, I h → I (body x h).1)
    (hcl : ∀ z ∈ K, isLayer (B z) = true → ∃ cl, layerOf (B z) = .ok cl) : ∀ (i : ℕ) (h : Dom), i ≤ K.length → I h →
    loopFrom c body i h = forList body ((K.take i).filter fun z => isLayer (B z)).reverse h := by
  intro i
  induction i with
  | zero => intro h _ _; rfl
  | succ i ih =>
    intro h hi hh
    obtain ⟨e1, e2⟩ := hI h hh
    have hx : K[i]? = some (K[i]'(by omega)) := List.getElem?_eq_getElem (by omega)
    have hm : K[i]'(by omega) ∈ K := List.getElem_mem _
    simp only [loopFrom, e1, hx, e2 _ hm]
    rw [List.take_succ_eq_append_getElem (by omega), List.filter_append, List.reverse_append]
    by_cases hl : isLayer (B (K[i]'(by omega))) = true
    · obtain ⟨cl, hcl'⟩ := hcl _ hm hl
      rw [if_pos hl, List.filter_cons_of_pos (by exact hl)]
      simp only [hcl', List.filter_nil, List.reverse_singleton, List.singleton_append, forList]
      have := hbody h (K[i]'(by omega)) hh
      cases hr : body (K[i]'(by omega)) h with
      | mk h' r =>
        rw [hr] at this
        cases r with
        | error e => rfl
        | ok u => exact ih h' (by omega) this
    · rw [if_neg hl, List.filter_cons_of_neg (by exact hl)]
      simp only [List.filter_nil, List.reverse_nil, List.nil_append]
      exact ih h (by omega) hh

/-- Assigning to a subscript leaves the contents of canvases, and what things are, alone. -/
theorem setPlain_keeps {h : Dom} (hf : Forest h) (F : Fl) (a : ℕ) (f : Str) (v : PV) {c : ℕ} (hc : c < h.size)
    (hn : (h.bare c).name = "canvas") :
    Forest (h.setPlain F a f v).1 ∧ h.size ≤ (h.setPlain F a f v).1.size ∧ (h.setPlain F a f v).1.kids c = h.kids c ∧
      ∀ z, z < h.size → (h.setPlain F a f v).1.bare z = h.bare z := by
  rw [setPlain]
  cases ha : h.getItem a f with
  | error e => exact ⟨hf, le_rfl, rfl, fun _ _ => rfl⟩
  | ok r =>
    obtain ⟨cl, old⟩ := r
    simp only
    cases hm : newValue F cl v with
    | error e => exact ⟨hf, le_rfl, rfl, fun _ _ => rfl⟩
    | ok m =>
      simp only
      obtain ⟨p, hp, hkp, _⟩ := getItem_iff.1 ha
      have hop := (hf.child p old).1 (filter_single hkp).1
      have hps := (hf.made p old hop).1
      have hos := (hf.made p old hop).2
      have mk := alloc_made hf m
      have hop' : Par (h.alloc m).1 old p := by rw [Par, mk.ext.parent old hos]; exact hop
      have hnew := mk.new
      obtain ⟨A, B, hk⟩ := List.append_of_mem ((mk.forest.child p old).2 hop')
      obtain ⟨m', -⟩ := replaced mk.forest hop' (x := (h.alloc m).2) (by omega) mk.size (mk.fresh hf hps) hk
      have hcp : c ≠ p := by
        rintro rfl
        have := ((find_iff hf _ _ _).1 hp).2.1
        simp only [isParam, Bool.and_eq_true, decide_eq_true_eq] at this
        rw [hn] at this
        simp at this
      refine ⟨m'.forest, by rw [m'.size]; exact mk.ext.size, ?_, fun z hz => bare_congr (by rw [m'.lbl, mk.ext.lbl z hz])⟩
      rw [m'.there c hcp, mk.ext.kids c hc]
      apply filter_ne_self
      intro hmem
      have := (hf.made c _ ((hf.child c _).1 hmem)).2
      omega

end Dom

/-- C171. So it is with loops that don't move the layers but assign to a parameter of each, `for x in group.children: x[f] = v`. -/
theorem c171_assign (F : Fl) {h : Dom} (hf : Forest h) {k : GKind} {g c : ℕ} (hh : HolderAt h k g c) {l : List ℕ}
    (hl : h.children k g = .ok l) (f : Str) (v : PV) :
    forChildren k g (fun x => setPlain F x f v) h = forList (fun x => setPlain F x f v) l h := by
  have hcs : c < h.size := inside_made hf (canvas_inside hf (holderAt_canvas hf hh)) hh.2.1
  obtain ⟨e, hall⟩ := (children_iff (holderAt_canvas hf hh) _).1 hl
  rw [forChildren, holderAt_canvas hf hh]
  simp only
  have key := loop_undisturbed (c := c) (K := h.kids c) (body := fun x => setPlain F x f v) (B := h.bare)
    (I := fun h' => Forest h' ∧ h.size ≤ h'.size ∧ h'.kids c = h.kids c ∧ ∀ z, z < h.size → h'.bare z = h.bare z)
    (fun h' i => ⟨i.2.2.1, fun z hz => i.2.2.2 z (hf.made c z ((hf.child c z).1 hz)).2⟩)
    (fun h' x i => by
      obtain ⟨i1, i2, i3, i4⟩ := i
      obtain ⟨j1, j2, j3, j4⟩ := setPlain_keeps i1 F x f v (hcs.trans_le i2) (by rw [i4 c hcs]; exact hh.1)
      exact ⟨j1, i2.trans j2, j3.trans i3, fun z hz => (j4 z (hz.trans_le i2)).trans (i4 z hz)⟩)
    (fun z hz hlz => hall z (by rw [e, List.mem_reverse, layersOf_eq]; exact List.mem_filter.2 ⟨hz, hlz⟩))
    (h.kids c).length h le_rfl ⟨hf, le_rfl, rfl, fun _ _ => rfl⟩
  rw [key, List.take_length, e, layersOf_eq]

/-- The group's only layer, the circle, moved to the animation. -/
example : ∃ h', forChildren .group 1 (fun x => Dom.groupAppend .animation 0 x) exDom = (h', .ok ()) ∧
    h'.children .group 1 = .ok [] ∧ h'.children .animation 0 = .ok [9, 1, 4] := by
  obtain ⟨h', h1, h2, h3, -⟩ := c171_all_moved exDom_forest exHolders_ok exLists_ok (k := .group) (g := 1) (c := 3)
    (k' := .animation) (g' := 0) (c' := 0) (.inr rfl) (.inl rfl) (by decide) (fun x hx => by
      have : x = 4 := by simpa [exLists] using hx
      subst this
      exact exDom_outside (by decide +kernel))
  exact ⟨h', h1, h2, h3⟩

/-- The animation's layers appended to the animation, in memory: the order is another, and there's an exception. -/
example : (forChildren .animation 0 (fun x => Dom.groupAppend .animation 0 x) exDom).2 = .error .value ∧
    (forChildren .animation 0 (fun x => Dom.groupAppend .animation 0 x) exDom).1.children .animation 0 = .ok [1, 9] := by
  refine ⟨(c171_own_group_fails exDom_forest (exHolders_ok _ (.inl rfl)) (l := [9, 1]) (exLists_ok _ (.inl rfl)) (by simp)).1, ?_⟩
  decide +kernel

/-- The z-depth of the animation's layers set in a loop. -/
example : forChildren .animation 0 (fun x => setPlain double x "z_depth".toList (.float 3)) exDom =
    forList (fun x => setPlain double x "z_depth".toList (.float 3)) [9, 1] exDom ∧
    (forList (fun x => setPlain double x "z_depth".toList (.float 3)) [9, 1] exDom).2 = .ok () :=
  ⟨c171_assign double exDom_forest (exHolders_ok _ (.inl rfl)) (exLists_ok _ (.inl rfl)) _ _, by decide +kernel⟩

end Sang
