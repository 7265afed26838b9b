import Verif.Props.InsertLoops

/-!
# C172: putting some of a group's layers last
-/

namespace Sang

open Spec Relation

namespace Dom

theorem reorder_some {H : Set (GKind × ℕ × ℕ)} {k : GKind} {g c : ℕ} (hg : (k, g, c) ∈ H) : ∀ (s : List ℕ) (h : Dom) (st : ℕ → List ℕ),
    Forest h → (∀ a ∈ H, HolderAt h a.1 a.2.1 a.2.2) → (∀ a ∈ H, h.children a.1 a.2.1 = .ok (st a.2.1)) → s.Nodup →
    (∀ x ∈ s, x ∈ st g) → (∀ y, s.head? = some y → (st g).getLast? ≠ some y) →
    ∃ h', overList (fun x => groupAppend k g x) s h = (h', .ok ()) ∧
      ∀ a ∈ H, h'.children a.1 a.2.1 = .ok (if a.2.1 = g then (st g).filter (· ∉ s) ++ s else st a.2.1) := by
  intro s
  induction s with
  | nil =>
    intro h st _ _ hst _ _ _
    refine ⟨h, rfl, fun a ha => ?_⟩
    rw [hst a ha]
    by_cases hag : a.2.1 = g
    · rw [if_pos hag, hag]; simp
    · rw [if_neg hag]
  | cons x r ih =>
    intro h st hf hH hst hnd hs hlast
    have hx := hs x (by simp)
    obtain ⟨p1, p2⟩ := child_par hf (hH _ hg) (hst _ hg) hx
    obtain ⟨-, hall⟩ := (children_iff (holderAt_canvas hf (hH _ hg)) _).1 (hst _ hg)
    obtain ⟨e, f', hH', hst'⟩ := move_step hf hH hst (o := .append k g x) hg (hf.made c x p1).2 p2 (hall x hx)
      fun hw => hf.acyclic x (TransGen.head' p1 hw)
    have hlists : (MoveOp.append k g x).lists st = (fun q => (st q).filter (· ≠ x) ++ if q = g then [x] else [], .ok ()) := by
      simp only [MoveOp.lists, if_neg (hlast x rfl)]
    rw [hlists] at e hst'
    simp only [MoveOp.run] at e f' hH' hst'
    obtain ⟨h', e', hch⟩ := ih (h.groupAppend k g x).1 (fun q => if q = g then (st g).filter (· ≠ x) ++ [x] else st q) f' hH'
      (fun a ha => by
        rw [hst' a ha]
        by_cases hag : a.2.1 = g
        · simp only [hag, if_true]
        · simp only [if_neg hag, List.append_nil]
          rw [filter_ne_self (in_one hf hH hst hg a ha hag x hx)])
      (List.nodup_cons.1 hnd).2
      (fun y hy => by
        have hyx : y ≠ x := fun e => (List.nodup_cons.1 hnd).1 (e ▸ hy)
        simp only [if_true, List.mem_append, List.mem_filter]
        exact .inl ⟨hs y (List.mem_cons_of_mem _ hy), by simpa using hyx⟩)
      (fun y hy => by
        simp only [if_true, List.getLast?_append, List.getLast?_singleton, Option.some_or, ne_eq, Option.some.injEq]
        rintro rfl
        exact (List.nodup_cons.1 hnd).1 (List.mem_of_mem_head? hy))
    refine ⟨h', ?_, fun a ha => ?_⟩
    · rw [overList, show h.groupAppend k g x = ((h.groupAppend k g x).1, .ok ()) from Prod.ext rfl e]
      exact e'
    · rw [hch a ha]
      by_cases hag : a.2.1 = g
      · simp only [if_pos hag, if_true]
        congr 1
        rw [List.filter_append, List.filter_cons_of_pos (by simpa using (List.nodup_cons.1 hnd).1), List.filter_nil,
          List.append_assoc, List.singleton_append, List.filter_filter]
        congr 1
        apply List.filter_congr
        intro z _
        simp [not_or, Bool.and_comm]
      · simp only [if_neg hag]

section
variable {h : Dom} {H : Set (GKind × ℕ × ℕ)} {st : ℕ → List ℕ} {k : GKind} {g c : ℕ}

/-- C172. `for x in s: group.append(x)`, where `s` is a list of the group's layers in another order, such as
`sorted(group.children, …)` makes: if `s` doesn't begin with the group's last layer, then the group has the order of `s`, and all
other groups are as they were. -/
theorem c172_others_partial (hf : Forest h) (hH : ∀ a ∈ H, HolderAt h a.1 a.2.1 a.2.2)
    (hst : ∀ a ∈ H, h.children a.1 a.2.1 = .ok (st a.2.1)) (hg : (k, g, c) ∈ H) {s : List ℕ} (hs : s.Perm (st g))
    (hne : s.head? ≠ (st g).getLast?) :
    ∃ h', overList (fun x => groupAppend k g x) s h = (h', .ok ()) ∧ h'.children k g = .ok s ∧
      ∀ a ∈ H, a.2.1 ≠ g → h'.children a.1 a.2.1 = .ok (st a.2.1) := by
  have hnd : (st g).Nodup := by
    obtain ⟨e, -⟩ := (children_iff (holderAt_canvas hf (hH _ hg)) _).1 (hst _ hg)
    dsimp only at e
    rw [e, layersOf_eq, List.nodup_reverse]
    exact (hf.nodup c).filter _
  obtain ⟨h', e, hch⟩ := reorder_some hg s h st hf hH hst (hs.nodup_iff.2 hnd) (fun x hx => hs.mem_iff.1 hx)
    fun y hy hl => hne (hy.trans hl.symm)
  refine ⟨h', e, ?_, fun a ha hag => by rw [hch a ha, if_neg hag]⟩
  have := hch _ hg
  dsimp only at this
  rw [this, if_pos rfl, List.filter_eq_nil_iff.2 fun z hz => by simpa using hs.mem_iff.2 hz]
  rfl

/-- C172. Some of the layers, in any order, are put last in that order. -/
theorem c172_some_last_partial (hf : Forest h) (hH : ∀ a ∈ H, HolderAt h a.1 a.2.1 a.2.2)
    (hst : ∀ a ∈ H, h.children a.1 a.2.1 = .ok (st a.2.1)) (hg : (k, g, c) ∈ H) {s : List ℕ} (hnd : s.Nodup)
    (hs : ∀ x ∈ s, x ∈ st g) (hne : s.head? ≠ (st g).getLast?) :
    ∃ h', overList (fun x => groupAppend k g x) s h = (h', .ok ()) ∧ h'.children k g = .ok ((st g).filter (· ∉ s) ++ s) ∧
      ∀ a ∈ H, a.2.1 ≠ g → h'.children a.1 a.2.1 = .ok (st a.2.1) := by
  obtain ⟨h', e, hch⟩ := reorder_some hg s h st hf hH hst hnd hs fun y hy hl => hne (hy.trans hl.symm)
  refine ⟨h', e, ?_, fun a ha hag => by rw [hch a ha, if_neg hag]⟩
  have := hch _ hg
  dsimp only at this
  rw [this, if_pos rfl]

end

end Dom

open Dom

/-! ## Examples -/

/-- An animation with a circle, 3, a star, 2, and a circle, 1, in the order of its children. -/
def exRow : Dom := (Dom.empty.alloc (.tag "canvas" [] [.tag "layer" [("type", .str "circle".toList)] [],
  .tag "layer" [("type", .str "star".toList)] [], .tag "layer" [("type", .str "circle".toList)] []])).1

/-- They are put in another order. -/
example : ∃ h', overList (fun x => Dom.groupAppend .animation 0 x) [2, 1, 3] exRow = (h', .ok ()) ∧
    h'.children .animation 0 = .ok [2, 1, 3] := by
  obtain ⟨h', a, b, -⟩ := c172_others_partial (alloc_made forest_empty _).forest (h := exRow)
    (H := {a | a = (.animation, 0, 0)}) (st := fun _ => [3, 2, 1]) (k := .animation) (g := 0) (c := 0)
    (by rintro a rfl; exact ⟨by decide +kernel, by decide +kernel, rfl, by decide +kernel⟩)
    (by rintro a rfl; decide +kernel) rfl (s := [2, 1, 3]) (by decide) (by decide)
  exact ⟨h', a, b⟩

/-- The star is put last. -/
example : ∃ h', overList (fun x => Dom.groupAppend .animation 0 x) [2] exRow = (h', .ok ()) ∧
    h'.children .animation 0 = .ok [3, 1, 2] := by
  obtain ⟨h', a, b, -⟩ := c172_some_last_partial (alloc_made forest_empty _).forest (h := exRow)
    (H := {a | a = (.animation, 0, 0)}) (st := fun _ => [3, 2, 1]) (k := .animation) (g := 0) (c := 0)
    (by rintro a rfl; exact ⟨by decide +kernel, by decide +kernel, rfl, by decide +kernel⟩)
    (by rintro a rfl; decide +kernel) rfl (s := [2]) (by decide) (by decide) (by decide)
  exact ⟨h', a, b⟩

end Sang
