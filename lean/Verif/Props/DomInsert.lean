import Verif.Props.DomNode

/-!
# C95 for `insert`

What `c95_append_makes_cycle` says of `append`, said of `insert`.
-/

namespace Sang
open Dom Spec Relation

/-- Ways up through what has been made don't change, but for `x`, when `x` moves and new elements are
made. -/
theorem inside_up_made {h h' : Dom} (hf : Forest h) {c x : ℕ} (hin : Within h c x)
    (hp : ∀ z, z < h.size → z ≠ x → h'.parent z = h.parent z) : Within h' c x := by
  induction hin using ReflTransGen.head_induction_on with
  | refl => exact .refl
  | @head a b hab _ ih =>
    by_cases e : a = x
    · subst e; exact .refl
    · exact ReflTransGen.head (by rw [Par, hp a (hf.made _ _ hab).2 e]; exact hab) ih

/-- What `y.insert_after("\n")` does to the shape of anything at all, tree or not. -/
theorem newlineAfter_any {h : Dom} {c y : ℕ} (hy : h.parent y = some c) (hys : y < h.size)
    (hcs : c < h.size) (hn : h.parent h.size = none) :
    ∃ h', h.newlineAfter y = (h', .ok ()) ∧ (∀ z, z < h.size → h'.parent z = h.parent z) ∧
      ∀ q z, z < h.size → z ∈ h'.kids q → z ∈ h.kids q := by
  have e1 : h.size ≠ y := by omega
  have e2 : h.size ≠ c := by omega
  have ex : ∀ g : Dom, g.parent h.size = none → g.extract h.size = g := fun g hg => by rw [extract, hg]
  obtain ⟨h1, k1, p1, e⟩ : ∃ h1 : Dom, h1.kids = h.kids ∧ h1.parent = h.parent ∧
      h.newlineAfter y = h1.insertAfter y h.size :=
    ⟨(h.alloc (.text ['\n'])).1, rfl, rfl, rfl⟩
  have hn1 : h1.parent h.size = none := by rw [p1]; exact hn
  have e : h.newlineAfter y = ((h1.insert c ((h1.kids c).idxOf y + 1) h.size).1, .ok ()) := by
    rw [e, insertAfter, p1, hy]
    simp only [if_neg e1]
    rw [ex _ hn1]
    exact Prod.ext rfl (insert_ok e2)
  refine ⟨_, e, ?_, ?_⟩
  · intro z hz
    rw [insert_parent e2, if_neg (by omega), p1]
  · intro q z hz hm
    simp only [Dom.insert, if_neg e2] at hm
    rw [ex h1 hn1] at hm
    simp only [Function.update_apply, k1] at hm
    split at hm
    · next e =>
      subst e
      rcases List.eq_or_mem_of_mem_insertIdx hm with e | e
      · omega
      · exact e
    · exact hm

/-- C95 fails for `insert` too, whenever it is tried. Inserting, anywhere in a group that has children, the
group itself or something that contains it, succeeds: what was inserted is then inside itself, and isn't
listed anywhere outside itself. -/
theorem c95_insert_makes_cycle {h : Dom} (hf : Forest h) {k : GKind} {g c x y : ℕ} {l : List ℕ} {i : ℤ}
    (hc : h.canvas k g = .ok (some c)) (hl : h.children k g = .ok l) (hi : pyIndex l i = .ok y)
    (hxs : x < h.size) (hin : Within h c x) (hcx : x ≠ c) :
    ∃ h', h.groupInsert k g i x = (h', .ok ()) ∧ TransGen (Par h') x x ∧
      ∀ q, x ∈ h'.kids q → Within h' q x := by
  obtain ⟨hl', hall⟩ := (children_iff hc l).1 hl
  have hyl : y ∈ l := pyIndex_mem hi
  have hyc : y ∈ h.kids c := by
    rw [hl', List.mem_reverse, layersOf_eq, List.mem_filter] at hyl
    exact hyl.1
  have hyp := (hf.child c y).1 hyc
  have hys := (hf.made c y hyp).2
  have hcs := (hf.made c y hyp).1
  have hxy : x ≠ y := by
    rintro rfl
    exact hf.acyclic x (TransGen.head' hyp hin)
  obtain ⟨A, B, hk⟩ := List.append_of_mem hyc
  obtain ⟨h1, h2, e1, f1, x1, t1, s1, k1, p1, m1⟩ := newline_moved hf hyp hk
  have hp2 : ∀ z, z < h.size → h2.parent z = h.parent z := fun z hz => by
    rw [m1.parent, if_neg (by omega), p1]
  have s2 : h2.size = h.size + 1 := by rw [m1.size, s1]
  -- the insertion itself
  have e2 : h2.insertAfter y x =
      (((h2.extract x).insert c (((h2.extract x).kids c).idxOf y + 1) x).1, .ok ()) := by
    rw [insertAfter, hp2 y hys, hyp]
    simp only [if_neg hxy]
    exact Prod.ext rfl (insert_ok hcx)
  obtain ⟨h3, e3⟩ : ∃ h3, h3 = ((h2.extract x).insert c (((h2.extract x).kids c).idxOf y + 1) x).1 := ⟨_, rfl⟩
  rw [← e3] at e2
  have f2x := extract_forest m1.forest x
  have hp3 : ∀ z, h3.parent z = if z = x then some c else h2.parent z := fun z => by
    rw [e3, insert_parent hcx, extract_parent]
    split <;> rfl
  have s3 : h3.size = h2.size := by rw [e3, insert_size, extract_size]
  have hk3 : ∀ q, q ≠ c → x ∉ h3.kids q := fun q hq hm => by
    rw [e3, insert_kids_ne f2x hcx hq] at hm
    simp at hm
  have n3 : h3.parent h3.size = none := by
    rw [hp3, if_neg (by omega), s3]
    exact unmade_parent m1.forest le_rfl
  obtain ⟨h4, e4, p4, k4⟩ := newlineAfter_any (h := h3) (c := c) (y := y)
    (by rw [hp3, if_neg hxy.symm, hp2 y hys, hyp]) (by omega) (by omega) n3
  have hup : Within h4 c x := by
    refine inside_up_made hf hin fun z hz hzx => ?_
    rw [p4 z (by omega), hp3, if_neg hzx, hp2 z hz]
  refine ⟨h4, ?_, ?_, ?_⟩
  · rw [Dom.groupInsert, hl]
    simp only [hi, e1, e2, e4]
  · refine TransGen.head' ?_ hup
    rw [Par, p4 x (by omega), hp3, if_pos rfl]
  · intro q hq
    by_cases e : q = c
    · rw [e]; exact hup
    · exact absurd (k4 q x (by omega) hq) (hk3 q e)

/-- C95 fails on a concrete document: the group is inserted before the circle in it, and is then nowhere in
the document. -/
example : ∃ h', exDom.groupInsert .group 1 0 1 = (h', .ok ()) ∧ TransGen (Par h') 1 1 := by
  obtain ⟨h', h1, h2, _⟩ := c95_insert_makes_cycle exDom_forest (k := .group) (g := 1) (c := 3) (x := 1)
    (y := 4) (l := [4]) (i := 0) (by decide +kernel) (by decide +kernel) (by decide +kernel)
    (by decide +kernel) ((within_iff exDom_forest).2 (by decide +kernel)) (by decide)
  exact ⟨h', h1, h2⟩

end Sang
