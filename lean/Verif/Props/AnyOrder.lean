import Verif.Props.Frame

/-! # Statements in any order: C128, any number of them -/

namespace Sang
open Spec

/-- What each statement of a program raises, if anything, when its turn comes. -/
def raisedBy (F : Fl) : List Step → Node → List (Res Unit)
  | [], _ => []
  | s :: r, n => (s.run F n).2 :: raisedBy F r (s.run F n).1

theorem alike_trans {a b c : Node} (h : Alike a b) (h' : Alike b c) : Alike a c :=
  ⟨h'.1.trans h.1, h'.2.1.trans h.2.1, fun k => (h'.2.2 k).trans (h.2.2 k)⟩

theorem setAttr_isTag {n : Node} (hn : n.isTag = true) (k : String) (a : AttrV) : (n.setAttr k a).isTag = true := by
  cases n with
  | text t => cases hn
  | tag nm b ks => rfl

theorem delAttr_rest (n : Node) (k : String) : (n.delAttr k).name = n.name ∧ (n.delAttr k).kids = n.kids := by
  cases n <;> exact ⟨rfl, rfl⟩

/-- A statement can be about a layer if it can be about one like it. -/
theorem fits_alike {n m : Node} (h : Alike n m) (hm : m.isTag = true) {s : Step} (hs : s.Fits n) : s.Fits m := by
  have hn := fits_isTag hs
  cases n with
  | text t => cases hn
  | tag nm a ks =>
    cases m with
    | text t => cases hm
    | tag nm' b ks' =>
      obtain ⟨h1, h2, -⟩ := h
      simp only [Node.name, Node.kids] at h1 h2
      subst h1 h2
      cases s with
      | subscript f x => exact ⟨own_attrs hs.1, hs.2⟩
      | field k c d x => exact ⟨own_attrs hs.1, hs.2⟩
      | value f g => exact ⟨own_attrs hs.1, hs.2⟩
      | _ => rfl

/-- A statement does the same to layers that are alike. -/
theorem step_alike (F : Fl) {n m : Node} (h : Alike n m) (hm : m.isTag = true) {s : Step} (hs : s.Fits n) :
    Alike (s.run F n).1 (s.run F m).1 ∧ (s.run F m).2 = (s.run F n).2 := by
  have hn := fits_isTag hs
  rcases step_acts F s hs with ⟨f, -, ⟨sl, v, hsl, hv, e⟩, act, hact, hrun⟩ | ⟨k, -, -, -, hact⟩
  · subst e
    cases m with
    | text t => cases hm
    | tag nm b ks =>
      obtain ⟨h1, h2, h3⟩ := h
      have e : Node.tag nm b ks = {sl with attrs := b}.plug v := by
        simp only [Node.name, Node.kids, Slot.plug] at h1 h2
        simp only [Slot.plug, h1, h2]
      rw [e, hrun sl v hsl hv, hrun {sl with attrs := b} v ⟨hsl.named, hsl.wpre, hsl.wpost, hsl.first⟩ hv]
      exact ⟨⟨rfl, rfl, h3⟩, rfl⟩
  · rcases hact with ⟨e, h'⟩ | ⟨c, h'⟩ | h'
    · rw [h', h']; exact ⟨h, rfl⟩
    · rw [h', h']
      refine ⟨⟨?_, ?_, fun j => ?_⟩, rfl⟩
      · simp only [(setAttr_rest _ k c).1, h.1]
      · simp only [(setAttr_rest _ k c).2, h.2.1]
      · simp only [get_setAttr _ hn, get_setAttr _ hm, h.2.2]
    · rw [h', h']
      refine ⟨⟨?_, ?_, fun j => ?_⟩, rfl⟩
      · simp only [(delAttr_rest _ k).1, h.1]
      · simp only [(delAttr_rest _ k).2, h.2.1]
      · simp only [get_delAttr, h.2.2]

theorem runSteps_alike (F : Fl) (l : List Step) {n m : Node} (h : Alike n m) (hn : n.isTag = true) (hm : m.isTag = true)
    (hl : ∀ s ∈ l, s.Fits n) : Alike (runSteps F l n) (runSteps F l m) := by
  induction l generalizing n m with
  | nil => exact h
  | cons s r ih =>
    have hs := hl s (by simp)
    have hs' := fits_alike h hm hs
    exact ih (step_alike F h hm hs).1 (fits_isTag (fits_step F hs hs)) (fits_isTag (fits_step F hs' hs'))
      fun t ht => fits_step F hs (hl t (by simp [ht]))

/-- C128, any number of statements. If the statements of a program are about different things of a layer, then in
whatever order they are run the layer is the same afterwards, but for the order of its attributes; and in every order
each of them raises what it would have raised had it been the only one. -/
theorem c128_any_order_partial (F : Fl) {n : Node} {l l' : List Step} (hperm : l.Perm l') (hfit : ∀ s ∈ l, s.Fits n)
    (hne : l.Pairwise fun s t => s.about ≠ t.about) :
    Alike (runSteps F l n) (runSteps F l' n) ∧ raisedBy F l' n = l'.map fun s => (s.run F n).2 := by
  constructor
  · have key : ∀ {l l' : List Step}, l.Perm l' → ∀ {n : Node}, (∀ s ∈ l, s.Fits n) →
        (l.Pairwise fun s t => s.about ≠ t.about) → Alike (runSteps F l n) (runSteps F l' n) := by
      intro l l' hperm
      induction hperm with
      | nil => exact fun _ _ => alike_refl _
      | cons s _ ih =>
        intro n hfit hne
        exact ih (fun t ht => fits_step F (hfit s (by simp)) (hfit t (by simp [ht]))) (List.pairwise_cons.1 hne).2
      | swap s t r =>
        intro n hfit hne
        have hs := hfit s (by simp)
        have ht := hfit t (by simp)
        have hst := (List.pairwise_cons.1 hne).1 s (by simp)
        refine runSteps_alike F r (n := (s.run F (t.run F n).1).1) (m := (t.run F (s.run F n).1).1)
          (c128_order_is_free_partial F s t hs ht (Ne.symm hst)).1 ?_ ?_ ?_
        · exact fits_isTag (fits_step F (fits_step F ht hs) (fits_step F ht hs))
        · exact fits_isTag (fits_step F (fits_step F hs ht) (fits_step F hs ht))
        · exact fun u hu => fits_step F (fits_step F ht hs) (fits_step F ht (hfit u (by simp [hu])))
      | trans h1 _ ih1 ih2 =>
        intro n hfit hne
        exact alike_trans (ih1 hfit hne) (ih2 (fun s hs => hfit s (h1.mem_iff.2 hs))
          ((h1.pairwise_iff (fun h => Ne.symm h)).1 hne))
    exact key hperm hfit hne
  · have hfit' : ∀ s ∈ l', s.Fits n := fun s hs => hfit s (hperm.mem_iff.2 hs)
    have hne' := (hperm.pairwise_iff (fun h => Ne.symm h)).1 hne
    clear hperm hfit hne l
    induction l' generalizing n with
    | nil => rfl
    | cons s r ih =>
      have hs := hfit' s (by simp)
      rw [raisedBy, List.map_cons, ih (fun t ht => fits_step F hs (hfit' t (by simp [ht]))) (List.pairwise_cons.1 hne').2]
      refine congrArg _ (List.map_congr_left fun t ht => ?_)
      exact (c128_order_is_free_partial F s t hs (hfit' t (by simp [ht])) ((List.pairwise_cons.1 hne').1 t ht)).2.1

/-- Three statements about one layer, one of which raises. -/
example : (∀ s ∈ [Step.subscript "radius".toList (.float 3), .version (.str "x".toList), .desc (.str "moon".toList)],
      s.Fits exCircle) ∧
    [Step.subscript "radius".toList (.float 3), .version (.str "x".toList), .desc (.str "moon".toList)].Pairwise
      (fun s t => s.about ≠ t.about) ∧
    raisedBy double [Step.version (.str "x".toList), .desc (.str "moon".toList), .subscript "radius".toList (.float 3)]
      exCircle = [.error .value, .ok (), .ok ()] := by
  refine ⟨?_, ?_, by decide +kernel⟩
  · intro s hs
    simp only [List.mem_cons, List.not_mem_nil, or_false] at hs
    rcases hs with rfl | rfl | rfl
    · exact ⟨exCircle_own.2, .float _⟩
    · exact rfl
    · exact rfl
  · simp [Step.about]

end Sang
