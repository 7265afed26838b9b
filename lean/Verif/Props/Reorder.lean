import Verif.Props.Loops

/-!
# C172: the layers of a group in another order
-/

namespace Sang

open Spec Relation

namespace Dom

/-- Appending some of a group's layers to it again. -/
theorem append_again {k : GKind} {g c : ℕ} : ∀ (r : List ℕ) (h : Dom) (l : List ℕ), Forest h → HolderAt h k g c →
    h.children k g = .ok l → r.Nodup → (∀ x ∈ r, x ∈ l) → (∀ x, r.head? = some x → l.getLast? ≠ some x) →
    ∃ h', forList (fun x => groupAppend k g x) r h = (h', .ok ()) ∧ h'.children k g = .ok (l.filter (· ∉ r) ++ r) := by
  intro r
  induction r with
  | nil =>
    intro h l _ _ hl _ _ _
    exact ⟨h, rfl, by rw [hl]; simp⟩
  | cons x r ih =>
    intro h l hf hh hl hnd hsub hhead
    obtain ⟨e, hall⟩ := (children_iff (holderAt_canvas hf hh) _).1 hl
    have hxl := hsub x (by simp)
    obtain ⟨hxk, hlay⟩ : x ∈ h.kids c ∧ isLayer (h.bare x) = true := by
      rw [e, List.mem_reverse, layersOf_eq] at hxl
      exact List.mem_filter.1 hxl
    have hxc : Par h x c := (hf.child c x).1 hxk
    have hin : ¬ Within h c x := fun hw => hf.acyclic x (TransGen.head' hxc hw)
    have hlast := hhead x rfl
    have hstep := move_step (H := {(k, g, c)}) hf (by simpa using hh) (st := fun _ => l) (by simpa using hl)
      (o := .append k g x) (c := c) (by simp [MoveOp.group]) (hf.made c x hxc).2 hlay (hall x hxl) hin
    simp only [MoveOp.run, MoveOp.lists, if_neg hlast, Set.mem_singleton_iff, forall_eq, if_true] at hstep
    obtain ⟨e1, f', hh', hch⟩ := hstep
    cases hr : h.groupAppend k g x with
    | mk h' res =>
      rw [hr] at e1 f' hh' hch
      simp only at e1
      subst e1
      obtain ⟨hxr, hnd'⟩ := List.nodup_cons.1 hnd
      obtain ⟨h'', e2, hch'⟩ := ih h' _ f' hh' hch hnd' (fun y hy => by
          have hyx : y ≠ x := fun e => hxr (e ▸ hy)
          simp [List.mem_filter, hyx, hsub y (List.mem_cons_of_mem _ hy)]) (fun y hy => by
          have hyx : y ≠ x := by
            rintro rfl
            exact hxr (List.mem_of_mem_head? hy)
          rw [List.getLast?_concat]
          simpa using hyx.symm)
      refine ⟨h'', by rw [forList, hr]; exact e2, ?_⟩
      rw [hch']
      congr 1
      have e3 : (l.filter (· ≠ x)).filter (· ∉ r) = l.filter (· ∉ x :: r) := by
        rw [List.filter_filter]
        apply List.filter_congr
        intro z _
        simp [not_or, Bool.and_comm]
      rw [List.filter_append, e3, List.filter_cons_of_pos (by simpa using hxr)]
      simp

end Dom

open Dom

/-- C172. If a group's layers are listed in any order, and appended to the group one after another, the group has them in that
order; unless the first is its last one to begin with. -/
theorem c172_reorder_partial {h : Dom} (hf : Forest h) {k : GKind} {g c : ℕ} (hh : HolderAt h k g c) {l p : List ℕ}
    (hl : h.children k g = .ok l) (hp : p.Perm l) (hfirst : ∀ x, p.head? = some x → l.getLast? ≠ some x) :
    ∃ h', forList (fun x => Dom.groupAppend k g x) p h = (h', .ok ()) ∧ h'.children k g = .ok p := by
  have hnd : l.Nodup := by
    obtain ⟨e, -⟩ := (children_iff (holderAt_canvas hf hh) _).1 hl
    rw [e, layersOf_eq, List.nodup_reverse]
    exact (hf.nodup c).filter _
  obtain ⟨h', h1, h2⟩ := append_again p h l hf hh hl (hp.nodup_iff.2 hnd) (fun x hx => hp.mem_iff.1 hx) hfirst
  refine ⟨h', h1, ?_⟩
  rw [h2, List.filter_eq_nil_iff.2 fun x hx => by simpa using hp.mem_iff.2 hx]
  rfl

/-- C172, violated: if it is, `ValueError` is raised, and nothing changes. -/
theorem c172_first_was_last_fails {h : Dom} (hf : Forest h) {k : GKind} {g : ℕ} {l p : List ℕ} (hl : h.children k g = .ok l) {x : ℕ}
    (hx : p.head? = some x) (hlast : l.getLast? = some x) :
    forList (fun x => Dom.groupAppend k g x) p h = (h, .error .value) := by
  cases p with
  | nil => simp at hx
  | cons y r =>
    simp only [List.head?_cons, Option.some.injEq] at hx
    subst hx
    rw [forList, c71_append_last_child_fails hf hl hlast]

/-- C172, violated: so a group's layers can't be put in the opposite order in this way, whatever they are. -/
theorem c172_reverse_fails {h : Dom} (hf : Forest h) {k : GKind} {g : ℕ} {l : List ℕ} (hl : h.children k g = .ok l) (hne : l ≠ []) :
    forList (fun x => Dom.groupAppend k g x) l.reverse h = (h, .error .value) := by
  obtain ⟨x, hx⟩ : ∃ x, l.getLast? = some x := ⟨_, List.getLast?_eq_some_getLast hne⟩
  exact c172_first_was_last_fails hf hl (by rw [List.head?_reverse, hx]) hx

/-- Three layers in a document: 3, 2 and 1. -/
def exTrio : Dom := (Dom.empty.alloc (.tag "canvas" [] [.tag "layer" [("type", .str "circle".toList)] [],
  .tag "layer" [("type", .str "star".toList)] [], .tag "layer" [("type", .str "text".toList)] []])).1

theorem exTrio_forest : Forest exTrio := (alloc_made forest_empty _).forest

theorem exTrio_holder : HolderAt exTrio .animation 0 0 := ⟨by decide +kernel, by decide +kernel, rfl, by decide +kernel⟩

/-- They can be put in another order, but not in the opposite one. -/
example : (∃ h', forList (fun x => Dom.groupAppend .animation 0 x) [2, 1, 3] exTrio = (h', .ok ()) ∧
      h'.children .animation 0 = .ok [2, 1, 3]) ∧
    forList (fun x => Dom.groupAppend .animation 0 x) [1, 2, 3] exTrio = (exTrio, .error .value) :=
  ⟨c172_reorder_partial exTrio_forest exTrio_holder (l := [3, 2, 1]) (by decide +kernel) (by decide) (by simp),
    c172_reverse_fails exTrio_forest (l := [3, 2, 1]) (by decide +kernel) (by simp)⟩

/-- In a loop over the document itself, the second is never come to, and the last is come to twice. -/
example : (forChildren .animation 0 (fun x => Dom.groupAppend .animation 0 x) exTrio).2 = .error .value ∧
    (forChildren .animation 0 (fun x => Dom.groupAppend .animation 0 x) exTrio).1.children .animation 0 = .ok [2, 3, 1] := by
  constructor <;> decide +kernel

end Sang
