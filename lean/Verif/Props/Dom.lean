import Verif.Lemmas.Dom
import Verif.Lemmas.MapRes

/-!
# Documents in memory: C70, C71, C72, C95, C96, C97
-/

namespace Sang

open Relation Spec

namespace Dom

/-! ## Groups in memory -/

theorem layersOf_eq (h : Dom) (l : List ℕ) : layersOf h l = l.filter fun x => isLayer (h.bare x) := by
  rw [layersOf]
  congr 1
  funext x
  cases e : h.lbl x <;> simp [bare, e, isLayer, Node.isTag, Node.name]

theorem canvas_inside {h : Dom} (hf : Forest h) {k : GKind} {g c : ℕ} (hc : h.canvas k g = .ok (some c)) :
    Within h c g := by
  cases k with
  | animation => simp only [canvas, Except.ok.injEq, Option.some.injEq] at hc; subst hc; exact .refl
  | group =>
    simp only [canvas] at hc
    split at hc
    · simp at hc
    · next p hp =>
      simp only [Except.ok.injEq] at hc
      exact (((find_iff hf _ _ _).1 hc).1.trans ((find_iff hf _ _ _).1 hp).1).to_reflTransGen

theorem canvas_tag {h : Dom} (hf : Forest h) {k : GKind} {g c : ℕ} (hc : h.canvas k g = .ok (some c))
    (hg : (h.bare g).isTag = true) (s : Str) : h.lbl c ≠ .text s := by
  intro e
  cases k with
  | animation =>
    simp only [canvas, Except.ok.injEq, Option.some.injEq] at hc; subst hc
    simp [bare, e, Node.isTag] at hg
  | group =>
    simp only [canvas] at hc
    split at hc
    · simp at hc
    · next p hp =>
      simp only [Except.ok.injEq] at hc
      have := ((find_iff hf _ _ _).1 hc).2.1
      simp [bare, e, Node.isTag] at this

/-- Putting something into a group's canvas doesn't make the group lose it. -/
theorem Moved.canvas {h h' : Dom} (hf : Forest h) {x c : ℕ} {l : List ℕ} (m : Moved h x c l h')
    {k : GKind} {g : ℕ} (hc : h.canvas k g = .ok (some c)) (hin : ¬ Within h c x) :
    h'.canvas k g = .ok (some c) := by
  cases k with
  | animation => exact hc
  | group =>
    simp only [Dom.canvas] at hc ⊢
    split at hc
    · simp at hc
    · next p hp =>
      simp only [Except.ok.injEq] at hc
      have hcp := ((find_iff hf _ _ _).1 hc).1.to_reflTransGen
      rw [m.find hf hp hcp fun hpx => hin (hcp.trans hpx)]
      simp only [Except.ok.injEq]
      exact m.find hf hc .refl hin

theorem mapRes_id {α : Type} {f : α → Res α} (hf : ∀ x y, f x = .ok y → y = x) {xs ys : List α} :
    mapRes f xs = .ok ys ↔ ys = xs ∧ ∀ x ∈ xs, f x = .ok x := by
  induction xs generalizing ys with
  | nil => simp [mapRes, eq_comm]
  | cons x r ih =>
    rw [mapRes]
    cases hx : f x with
    | error e => simp [hx]
    | ok y =>
      have := hf x y hx
      subst this
      simp only
      cases hr : mapRes f r with
      | error e =>
        simp only [reduceCtorEq, List.mem_cons, forall_eq_or_imp, hx, true_and, false_iff, not_and]
        intro _ hall
        have := (ih (ys := r)).2 ⟨rfl, hall⟩
        rw [hr] at this; simp at this
      | ok zs =>
        obtain ⟨rfl, hall⟩ := ih.1 hr
        simp only [Except.ok.injEq, List.mem_cons, forall_eq_or_imp, hx, true_and]
        exact ⟨fun e => ⟨e.symm, hall⟩, fun e => e.1.symm⟩

/-- The children of a group in memory: its canvas's layers, last first, all of a type that is known. -/
theorem children_iff {h : Dom} {k : GKind} {g c : ℕ} (hc : h.canvas k g = .ok (some c)) (l : List ℕ) :
    h.children k g = .ok l ↔ l = (layersOf h (h.kids c)).reverse ∧
      ∀ x ∈ l, ∃ cl, layerOf (h.bare x) = .ok cl := by
  rw [children, hc]
  simp only
  rw [mapRes_id, layersOf_eq, List.filter_reverse]
  · constructor
    · rintro ⟨rfl, hall⟩
      refine ⟨rfl, fun x hx => ?_⟩
      have := hall x hx
      cases hl : layerOf (h.bare x) with
      | ok cl => exact ⟨cl, rfl⟩
      | error e => rw [hl] at this; simp [Except.map] at this
    · rintro ⟨rfl, hall⟩
      refine ⟨rfl, fun x hx => ?_⟩
      obtain ⟨cl, hcl⟩ := hall x hx
      rw [hcl]; rfl
  · intro x y hxy
    cases hl : layerOf (h.bare x) with
    | ok cl => rw [hl] at hxy; simpa [Except.map, eq_comm] using hxy
    | error e => rw [hl] at hxy; simp [Except.map] at hxy

end Dom

open Dom

/-! ## C71: appending moves -/

/-- C71, what holds. Appending a layer, wherever it is, to a group it isn't already the last child of:
it becomes the last child; the group's other children keep their order; in every other element the
contents are as they were, without the layer; and the layer itself looks as it did. (The layer must not
be the group itself or something that contains it: see C95.) -/
theorem c71_append_moves_partial {h : Dom} (hf : Forest h) {k : GKind} {g c x : ℕ} {l : List ℕ}
    (hg : g < h.size) (hgt : (h.bare g).isTag = true) (hc : h.canvas k g = .ok (some c))
    (hl : h.children k g = .ok l) (hx : x < h.size) {cl : LClass} (hlay : isLayer (h.bare x) = true)
    (hcl : layerOf (h.bare x) = .ok cl) (hin : ¬ Within h c x) (hlast : l.getLast? ≠ some x) :
    ∃ h', h.groupAppend k g x = (h', .ok ()) ∧
      h'.children k g = .ok (l.filter (· ≠ x) ++ [x]) ∧
      h'.parent x = some c ∧ (∀ q, x ∈ h'.kids q ↔ q = c) ∧
      (∀ q, q ≠ c → h'.kids q = (h.kids q).filter (· ≠ x)) ∧
      h'.node x = h.node x := by
  have hcs : c < h.size := inside_made hf (canvas_inside hf hc) hg
  obtain ⟨rfl, hall⟩ := (children_iff hc l).1 hl
  have fin : ∀ A B : List ℕ, ∀ h', layersOf h A = [] → (h.kids c).filter (· ≠ x) = A ++ B →
      Moved h x c (A ++ x :: B) h' →
      h'.children k g = .ok ((layersOf h (h.kids c)).reverse.filter (· ≠ x) ++ [x]) ∧
      h'.parent x = some c ∧ (∀ q, x ∈ h'.kids q ↔ q = c) ∧
      (∀ q, q ≠ c → h'.kids q = (h.kids q).filter (· ≠ x)) ∧ h'.node x = h.node x := by
    intro A B h' hA hAB m
    have hb : ∀ y, h'.bare y = h.bare y := fun y => bare_congr (by rw [m.lbl])
    have hlo : ∀ l, layersOf h' l = layersOf h l := fun l => by
      rw [layersOf_eq, layersOf_eq]; simp only [hb]
    refine ⟨?_, ?_, fun q => ?_, m.there, ?_⟩
    · have e : layersOf h' (h'.kids c) = x :: (layersOf h (h.kids c)).filter (· ≠ x) := by
        rw [m.here, hlo]
        have h1 : layersOf h (A ++ x :: B) = x :: layersOf h B := by
          rw [layersOf_eq, List.filter_append, ← layersOf_eq, hA, List.filter_cons_of_pos (by exact hlay),
            ← layersOf_eq]; rfl
        have h2 : (layersOf h (h.kids c)).filter (· ≠ x) = layersOf h B := by
          rw [layersOf_eq, List.filter_comm, hAB, List.filter_append, ← layersOf_eq, ← layersOf_eq, hA]
          rfl
        rw [h1, h2]
      refine (children_iff (m.canvas hf hc hin) _).2 ⟨?_, ?_⟩
      · rw [e, List.reverse_cons, List.filter_reverse]
      · intro y hy
        rw [hb]
        rcases List.mem_append.1 hy with hy | hy
        · exact hall y (List.mem_filter.1 hy).1
        · rw [List.mem_singleton.1 hy]; exact ⟨cl, hcl⟩
    · rw [m.parent]; simp
    · rw [m.forest.child, m.par]; simp
    · refine node_congr hf m.forest x fun z hz => ⟨?_, by rw [m.lbl]⟩
      rw [m.there z fun e => hin (e ▸ hz)]
      apply filter_ne_self
      intro hm
      exact hf.acyclic x (TransGen.head' ((hf.child z x).1 hm) hz)
  rw [Dom.groupAppend, hc]
  simp only
  cases hfd : (h.kids c).find? fun y => isLayer (h.bare y) with
  | none =>
    simp only
    obtain ⟨m, e⟩ := append_moved hf hcs hx (canvas_tag hf hc hgt) hin
    refine ⟨(h.append c x).1, Prod.ext rfl e, ?_⟩
    have : layersOf h ((h.kids c).filter (· ≠ x)) = [] := by
      rw [layersOf_eq]
      apply List.filter_eq_nil_iff.2
      intro y hy
      exact List.find?_eq_none.1 hfd y (List.mem_filter.1 hy).1
    exact fin _ [] _ this (by simp) m
  | some y =>
    simp only
    obtain ⟨hy, A, B, e, hA⟩ := List.find?_eq_some_iff_append.1 hfd
    have hyc : Par h y c := (hf.child c y).1 (by rw [e]; simp)
    have hAl : layersOf h A = [] := by
      rw [layersOf_eq]
      apply List.filter_eq_nil_iff.2
      intro w hw
      simpa using hA w hw
    have hxy : x ≠ y := by
      rintro rfl
      apply hlast
      rw [List.getLast?_reverse, e, layersOf_eq, List.filter_append, ← layersOf_eq, hAl,
        List.filter_cons_of_pos (by exact hy)]
      rfl
    obtain ⟨⟨m, e'⟩, _⟩ := beside_moved hf hyc hxy hx hin e
    refine ⟨(h.insertBefore y x).1, Prod.ext rfl e', ?_⟩
    refine fin _ (y :: B.filter (· ≠ x)) _ ?_ (split_filter e hxy.symm) m
    rw [layersOf_eq, List.filter_comm, ← layersOf_eq, hAl]
    rfl

/-- C71 fails: appending a group's last child to the group, always, is a `ValueError`. (Nothing is
changed.) -/
theorem c71_append_last_child_fails {h : Dom} {k : GKind} {g x : ℕ} {l : List ℕ} (hf : Forest h)
    (hl : h.children k g = .ok l) (hlast : l.getLast? = some x) :
    h.groupAppend k g x = (h, .error .value) := by
  cases hc : h.canvas k g with
  | error e => rw [Dom.children, hc] at hl; simp at hl
  | ok o =>
    cases o with
    | none => rw [Dom.children, hc] at hl; simp at hl
    | some c =>
      obtain ⟨rfl, hall⟩ := (children_iff hc l).1 hl
      rw [List.getLast?_reverse, layersOf_eq, List.head?_filter] at hlast
      rw [Dom.groupAppend, hc]
      simp only [hlast]
      have hm := List.mem_of_find?_eq_some hlast
      rw [insertBefore, (hf.child c x).1 hm]
      simp

/-! ## C95: a group in itself -/

/-- Ways up that don't go through `x` don't change when `x` moves. -/
theorem inside_up {h h' : Dom} {c x : ℕ} (hin : Within h c x)
    (hp : ∀ z, z ≠ x → h'.parent z = h.parent z) : Within h' c x := by
  induction hin using ReflTransGen.head_induction_on with
  | refl => exact .refl
  | @head a b hab _ ih =>
    by_cases e : a = x
    · subst e; exact .refl
    · exact ReflTransGen.head (by rw [Par, hp a e]; exact hab) ih

/-- C95 fails, whenever it is tried. Appending, to a group, the group itself or something that contains
it, succeeds: the result isn't a tree any more. What was appended is then inside itself, and isn't listed
anywhere outside itself; so the document has lost it. -/
theorem c95_append_makes_cycle {h : Dom} (hf : Forest h) {k : GKind} {g c x : ℕ}
    (hc : h.canvas k g = .ok (some c)) (hin : Within h c x) (hcx : x ≠ c) :
    ∃ h', h.groupAppend k g x = (h', .ok ()) ∧ TransGen (Par h') x x ∧
      ∀ q, x ∈ h'.kids q → Within h' q x := by
  have key : ∀ h2 : Dom, Forest h2 → (∀ z, z ≠ x → h2.parent z = h.parent z) → ∀ pos,
      ((h2.insert c pos x).2 = .ok () ∧ TransGen (Par (h2.insert c pos x).1) x x ∧
        ∀ q, x ∈ (h2.insert c pos x).1.kids q → Within (h2.insert c pos x).1 q x) := by
    intro h2 hf2 hp pos
    have hup : Within (h2.insert c pos x).1 c x := by
      refine inside_up hin fun z hz => ?_
      rw [insert_parent hcx, if_neg hz, hp z hz]
    refine ⟨insert_ok hcx, ?_, ?_⟩
    · refine TransGen.head' ?_ hup
      rw [Par, insert_parent hcx, if_pos rfl]
    · intro q hq
      by_cases e : q = c
      · rw [e]; exact hup
      · rw [insert_kids_ne hf2 hcx e] at hq
        simp at hq
  rw [Dom.groupAppend, hc]
  simp only
  cases hfd : (h.kids c).find? fun y => isLayer (h.bare y) with
  | none =>
    obtain ⟨h1, h2, h3⟩ := key h hf (fun _ _ => rfl) (h.kids c).length
    exact ⟨_, Prod.ext rfl h1, h2, h3⟩
  | some y =>
    have hyc : Par h y c := (hf.child c y).1 (List.mem_of_find?_eq_some hfd)
    have hxy : x ≠ y := by
      rintro rfl
      exact hf.acyclic x (TransGen.head' hyc hin)
    obtain ⟨h1, h2, h3⟩ := key (h.extract x) (extract_forest hf x)
      (fun z hz => by rw [extract_parent, if_neg hz]) (((h.extract x).kids c).idxOf y)
    refine ⟨((h.extract x).insert c (((h.extract x).kids c).idxOf y) x).1, ?_, h2, h3⟩
    simp only
    rw [insertBefore, hyc]
    simp only [if_neg hxy]
    exact Prod.ext rfl h1

/-- C95, what holds: an animation appended to itself is refused with `ValueError`, and nothing changes.
Missing: groups, where it fails (`c95_append_makes_cycle`). -/
theorem c95_animation_into_itself_partial {h : Dom} (hf : Forest h) {g : ℕ} (hr : h.parent g = none) :
    h.groupAppend .animation g g = (h, .error .value) := by
  rw [Dom.groupAppend]
  simp only [Dom.canvas]
  cases hfd : (h.kids g).find? fun y => isLayer (h.bare y) with
  | none => exact insert_self h g _
  | some y =>
    have hy := (hf.child g y).1 (List.mem_of_find?_eq_some hfd)
    have hgy : g ≠ y := by rintro rfl; rw [Par, hr] at hy; cases hy
    simp only
    rw [insertBefore, hy]
    simp only [if_neg hgy]
    rw [insert_self, extract, hr]

/-! ## C96: inserting -/

namespace Dom

theorem Ext.canvas {h h' : Dom} (e : Ext h h') (hf : Forest h) (hf' : Forest h') {k : GKind} {g : ℕ}
    (hg : g < h.size) : h'.canvas k g = h.canvas k g := by
  cases k with
  | animation => rfl
  | group =>
    simp only [Dom.canvas]
    cases hp : h.find? (isParam "canvas".toList) g with
    | none => rw [e.find_none hf hf' hg hp]
    | some p =>
      rw [e.find hf hf' hg hp]
      have hps : p < h.size := inside_made hf ((find_iff hf _ _ _).1 hp).1.to_reflTransGen hg
      simp only [Except.ok.injEq]
      cases hc : h.find? (fun n => n.isTag && n.name = "canvas") p with
      | none => exact e.find_none hf hf' hps hc
      | some c => exact e.find hf hf' hps hc

theorem Ext.children {h h' : Dom} (e : Ext h h') (hf : Forest h) (hf' : Forest h') {k : GKind} {g : ℕ}
    (hg : g < h.size) : h'.children k g = h.children k g := by
  unfold Dom.children
  rw [e.canvas hf hf' hg]
  cases hc : h.canvas k g with
  | error x => rfl
  | ok o =>
    cases o with
    | none => rfl
    | some c =>
      have hcs : c < h.size := inside_made hf (canvas_inside hf hc) hg
      have hks : ∀ x ∈ h.kids c, h'.bare x = h.bare x := fun x hx =>
        bare_congr (e.lbl x (hf.made c x ((hf.child c x).1 hx)).2)
      simp only
      rw [e.kids c hcs]
      have e1 : ((h.kids c).reverse.filter fun x => isLayer (h'.bare x)) =
          (h.kids c).reverse.filter fun x => isLayer (h.bare x) := by
        apply List.filter_congr
        intro x hx
        rw [hks x (List.mem_reverse.1 hx)]
      rw [e1]
      have : ∀ l : List ℕ, (∀ x ∈ l, h'.bare x = h.bare x) →
          mapRes (fun x => (layerOf (h'.bare x)).map fun _ => x) l =
          mapRes (fun x => (layerOf (h.bare x)).map fun _ => x) l := by
        intro l hl
        induction l with
        | nil => rfl
        | cons x r ih =>
          rw [mapRes, mapRes, ih fun y hy => hl y (by simp [hy]), hl x (by simp)]
      exact this _ fun x hx => hks x (List.mem_reverse.1 (List.mem_filter.1 hx).1)

theorem pyIndex_mem {α : Type} {l : List α} {i : ℤ} {y : α} (hi : pyIndex l i = .ok y) : y ∈ l := by
  unfold pyIndex at hi
  generalize (if i < 0 then i + (l.length : ℤ) else i) = j at hi
  dsimp only at hi
  split at hi
  · simp at hi
  · split at hi
    · simp at hi
    · next z hz => injection hi with hi; subst hi; exact List.mem_of_getElem? hz

/-- A new line after `y`. -/
theorem newline_moved {h : Dom} (hf : Forest h) {c y : ℕ} (hy : Par h y c) {A B : List ℕ}
    (hk : h.kids c = A ++ y :: B) :
    ∃ h1 h2, h.newlineAfter y = (h2, .ok ()) ∧ Forest h1 ∧ Ext h h1 ∧ h1.lbl h.size = .text ['\n'] ∧
      h1.size = h.size + 1 ∧ h1.kids = h.kids ∧ h1.parent = h.parent ∧
      Moved h1 h.size c (A ++ y :: h.size :: B) h2 := by
  have hp := push_forest hf (.text ['\n'])
  have he := push_ext h (.text ['\n'])
  have hys := (hf.made c y hy).2
  have hcs := (hf.made c y hy).1
  have hnk : h.size ∉ h.kids c := fun hm => by
    have := (hf.made c _ ((hf.child c _).1 hm)).2
    omega
  rw [hk] at hnk
  have hA : h.size ∉ A := fun hm => hnk (by simp [hm])
  have hB : h.size ∉ B := fun hm => hnk (by simp [hm])
  obtain ⟨_, m, e⟩ := beside_moved hp (p := c) (x := h.size) (y := y) hy (by omega) (Nat.lt_succ_self _)
    (fun hi => by
      rcases ReflTransGen.cases_tail hi with e | ⟨d, _, hd⟩
      · exact absurd e (by omega)
      · have := (hf.made _ _ hd).1
        omega) hk
  rw [filter_ne_self hA, filter_ne_self hB] at m
  refine ⟨_, _, ?_, hp, he, by simp, rfl, rfl, rfl, m⟩
  rw [newlineAfter]
  simp only [alloc]
  exact Prod.ext rfl e

end Dom

/-- What `insert` does to memory. -/
theorem groupInsert_spec {h : Dom} (hf : Forest h) {k : GKind} {g c x y : ℕ} {l : List ℕ} {i : ℤ}
    (hg : g < h.size) (hc : h.canvas k g = .ok (some c))
    (hl : h.children k g = .ok l) (hi : pyIndex l i = .ok y) (hx : x < h.size)
    (hin : ¬ Within h c x) (hxy : x ≠ y) {A B : List ℕ} (hk : h.kids c = A ++ y :: B) :
    ∃ h' n n', h.groupInsert k g i x = (h', .ok ()) ∧ Forest h' ∧
      h'.kids c = A.filter (· ≠ x) ++ y :: n' :: x :: n :: B.filter (· ≠ x) ∧
      h'.lbl n = .text ['\n'] ∧ h'.lbl n' = .text ['\n'] ∧
      (∀ z, z < h.size → h'.lbl z = h.lbl z) ∧
      (∀ q, q ≠ c → h'.kids q = (h.kids q).filter (· ≠ x)) ∧
      h'.parent x = some c ∧ h'.canvas k g = .ok (some c) := by
  have hcs : c < h.size := inside_made hf (canvas_inside hf hc) hg
  obtain ⟨hl', hall⟩ := (children_iff hc l).1 hl
  have hyl : y ∈ l := pyIndex_mem hi
  have hyc : y ∈ h.kids c ∧ isLayer (h.bare y) = true := by
    rw [hl', List.mem_reverse, layersOf_eq, List.mem_filter] at hyl
    exact hyl
  have hyp := (hf.child c y).1 hyc.1
  have hys := (hf.made c y hyp).2
  -- the first new line
  obtain ⟨h1, h2, e1, f1, x1, t1, s1, k1, p1, m1⟩ := newline_moved hf hyp hk
  have hn : h.size ∉ A ∧ h.size ∉ B := by
    have : h.size ∉ h.kids c := fun hm => by
      have := (hf.made c _ ((hf.child c _).1 hm)).2
      omega
    rw [hk] at this
    exact ⟨fun hm => this (by simp [hm]), fun hm => this (by simp [hm])⟩
  have hin1 : ¬ Within h1 c x := fun hh => hin ((x1.inside hf f1 hx).1 hh)
  have hin2 : ¬ Within h2 c x := by
    intro hh
    rcases inside_back (fun a b hab => ((m1.par a b).1 hab).imp (·.2) id) hh with hh | ⟨hh, _⟩
    · exact hin1 hh
    · rcases ReflTransGen.cases_tail hh with e | ⟨d, _, hd⟩
      · exact absurd e (by omega)
      · have : h.parent d = some h.size := by rw [← p1]; exact hd
        have := (hf.made _ _ this).1
        omega
  have hyp2 : Par h2 y c := by
    rw [m1.par]; left
    exact ⟨by omega, by rw [Par, p1]; exact hyp⟩
  -- the layer
  obtain ⟨_, m2, e2⟩ := beside_moved m1.forest hyp2 hxy (by rw [m1.size, s1]; omega) hin2
    (A := A) (B := h.size :: B) m1.here
  have hxn : h.size ≠ x := by omega
  rw [List.filter_cons_of_pos (by simpa using hxn)] at m2
  have hyp3 : Par (h2.insertAfter y x).1 y c := by
    rw [m2.par]; left; exact ⟨hxy.symm, hyp2⟩
  -- the second new line
  obtain ⟨h3, h4, e3, f3, x3, t3, s3, k3, p3, m3⟩ := newline_moved m2.forest hyp3 m2.here
  have e : h.groupInsert k g i x = (h4, .ok ()) := by
    rw [Dom.groupInsert, hl]
    simp only [hi, e1]
    rw [show h2.insertAfter y x = ((h2.insertAfter y x).1, .ok ()) from Prod.ext rfl e2]
    simp only [e3]
  set g2 := (h2.insertAfter y x).1 with hg2
  have sz2 : g2.size = h.size + 1 := by rw [m2.size, m1.size, s1]
  have lb2 : ∀ z, z < h.size → h4.lbl z = h.lbl z := fun z hz => by
    rw [m3.lbl, x3.lbl z (by omega), m2.lbl, m1.lbl, x1.lbl z hz]
  have tn : h4.lbl h.size = .text ['\n'] := by
    rw [m3.lbl, x3.lbl _ (by omega), m2.lbl, m1.lbl, t1]
  have tn' : h4.lbl (h.size + 1) = .text ['\n'] := by
    rw [m3.lbl, ← sz2, t3]
  have k4 : h4.kids c = A.filter (· ≠ x) ++ y :: (h.size + 1) :: x :: h.size :: B.filter (· ≠ x) := by
    rw [m3.here, sz2]
  have can4 : h4.canvas k g = .ok (some c) := by
    have c1 : h1.canvas k g = .ok (some c) := (x1.canvas hf f1 hg).trans hc
    have c2 := m1.canvas f1 c1 (fun hh => by
      rcases ReflTransGen.cases_tail hh with e | ⟨d, _, hd⟩
      · exact absurd e (by omega)
      · have : h.parent d = some h.size := by rw [← p1]; exact hd
        have := (hf.made _ _ this).1
        omega)
    have c3 := m2.canvas m1.forest c2 hin2
    have c4 : h3.canvas k g = .ok (some c) := (x3.canvas m2.forest f3 (by omega)).trans c3
    refine m3.canvas f3 c4 (fun hh => ?_)
    rcases ReflTransGen.cases_tail hh with e | ⟨d, _, hd⟩
    · rw [sz2] at e; exact absurd e (by omega)
    · have : g2.parent d = some g2.size := by rw [← p3]; exact hd
      have := (m2.forest.made _ _ this).1
      omega
  have hkq : ∀ q, q ≠ c → h4.kids q = (h.kids q).filter (· ≠ x) := by
    intro q hq
    have hnq : ∀ g : Dom, Forest g → ∀ q, g.size ∉ g.kids q := fun g hg q hm => by
      have := (hg.made q _ ((hg.child q _).1 hm)).2
      omega
    have a1 : h2.kids q = h.kids q := by
      rw [m1.there q hq, k1, filter_ne_self (hnq h hf q)]
    have a2 : h4.kids q = g2.kids q := by
      rw [m3.there q hq, k3, filter_ne_self (hnq g2 m2.forest q)]
    rw [a2, m2.there q hq, a1]
  have hpx : h4.parent x = some c := by
    rw [m3.parent, if_neg (by omega), p3, m2.parent, if_pos rfl]
  exact ⟨h4, h.size, h.size + 1, e, m3.forest, k4, tn, tn', lb2, hkq, hpx, can4⟩

/-- C96, what holds. Inserting a layer, wherever it is, before the child at `i`, when it isn't that child
itself: it comes to stand right before that child; the group's other children keep their order; in every
other element the contents are as they were, without the layer; and the layer looks as it did. -/
theorem c96_insert_moves_partial {h : Dom} (hf : Forest h) {k : GKind} {g c x y : ℕ} {l : List ℕ} {i : ℤ}
    (hg : g < h.size) (hc : h.canvas k g = .ok (some c))
    (hl : h.children k g = .ok l) (hi : pyIndex l i = .ok y) (hx : x < h.size) {cl : LClass}
    (hlay : isLayer (h.bare x) = true)
    (hcl : layerOf (h.bare x) = .ok cl) (hin : ¬ Within h c x) (hxy : x ≠ y) :
    ∃ h' l1 l2, h.groupInsert k g i x = (h', .ok ()) ∧ l = l1 ++ y :: l2 ∧
      h'.children k g = .ok (l1.filter (· ≠ x) ++ x :: y :: l2.filter (· ≠ x)) ∧
      h'.parent x = some c ∧ (∀ q, x ∈ h'.kids q ↔ q = c) ∧
      (∀ q, q ≠ c → h'.kids q = (h.kids q).filter (· ≠ x)) ∧
      h'.node x = h.node x := by
  obtain ⟨hl', hall⟩ := (children_iff hc l).1 hl
  have hyl : y ∈ l := pyIndex_mem hi
  have hyc : y ∈ h.kids c ∧ isLayer (h.bare y) = true := by
    rw [hl', List.mem_reverse, layersOf_eq, List.mem_filter] at hyl
    exact hyl
  obtain ⟨A, B, hk⟩ := List.append_of_mem hyc.1
  have hys := (hf.made c y ((hf.child c y).1 hyc.1)).2
  obtain ⟨h4, n, n', e, f4, k4, ln, ln', lb2, hkq, hpx, can4⟩ :=
    groupInsert_spec hf hg hc hl hi hx hin hxy hk
  have hb : ∀ z, z < h.size → h4.bare z = h.bare z := fun z hz => bare_congr (lb2 z hz)
  have tn : isLayer (h4.bare n) = false := by simp [bare, ln, isLayer, Node.isTag]
  have tn' : isLayer (h4.bare n') = false := by simp [bare, ln', isLayer, Node.isTag]
  have flt : ∀ l : List ℕ, (∀ z ∈ l, z < h.size) → layersOf h4 l = layersOf h l := by
    intro l hl
    rw [layersOf_eq, layersOf_eq]
    apply List.filter_congr
    intro z hz
    rw [hb z (hl z hz)]
  have hAs : ∀ z ∈ A, z < h.size := fun z hz =>
    (hf.made c z ((hf.child c z).1 (by rw [hk]; simp [hz]))).2
  have hBs : ∀ z ∈ B, z < h.size := fun z hz =>
    (hf.made c z ((hf.child c z).1 (by rw [hk]; simp [hz]))).2
  have comm : ∀ l : List ℕ, layersOf h (l.filter (· ≠ x)) = (layersOf h l).filter (· ≠ x) := fun l => by
    rw [layersOf_eq, layersOf_eq, List.filter_comm]
  have hl2 : l = (layersOf h B).reverse ++ y :: (layersOf h A).reverse := by
    rw [hl', hk, layersOf_eq, List.filter_append, List.filter_cons_of_pos (by exact hyc.2),
      ← layersOf_eq, ← layersOf_eq]
    simp
  have hl4 : layersOf h4 (h4.kids c) =
      (layersOf h A).filter (· ≠ x) ++ y :: x :: (layersOf h B).filter (· ≠ x) := by
    rw [k4, layersOf_eq, List.filter_append,
      List.filter_cons_of_pos (by rw [hb y hys]; exact hyc.2),
      List.filter_cons_of_neg (by rw [tn']; simp), List.filter_cons_of_pos (by rw [hb x hx]; exact hlay),
      List.filter_cons_of_neg (by rw [tn]; simp), ← layersOf_eq, ← layersOf_eq,
      flt _ fun z hz => hAs z (List.mem_filter.1 hz).1, flt _ fun z hz => hBs z (List.mem_filter.1 hz).1,
      comm, comm]
  refine ⟨h4, (layersOf h B).reverse, (layersOf h A).reverse, e, hl2, ?_, hpx, fun q => ?_, hkq, ?_⟩
  · refine (children_iff can4 _).2 ⟨?_, ?_⟩
    · rw [hl4]
      simp [List.filter_reverse]
    · intro z hz
      have : z ∈ l ∨ z = x := by
        rw [hl2]
        simp only [List.mem_append, List.mem_cons, List.mem_filter, List.mem_reverse] at hz ⊢
        tauto
      rcases this with hz | rfl
      · rw [hb z]
        · exact hall z hz
        · rw [hl', List.mem_reverse, layersOf_eq, List.mem_filter] at hz
          exact (hf.made c z ((hf.child c z).1 hz.1)).2
      · rw [hb z hx]; exact ⟨cl, hcl⟩
  · rw [f4.child, Par, hpx]; simp [eq_comm]
  · refine node_congr hf f4 x fun z hz => ⟨?_, lb2 z (inside_made hf hz hx)⟩
    rw [hkq z fun e => hin (e ▸ hz)]
    apply filter_ne_self
    intro hm
    exact hf.acyclic x (TransGen.head' ((hf.child z x).1 hm) hz)

/-- C96 fails: inserting a child at its own place, always, is a `ValueError`; and a line break has been
added to the file. -/
theorem c96_insert_at_itself_fails {h : Dom} (hf : Forest h) {k : GKind} {g c x : ℕ} {l : List ℕ} {i : ℤ}
    (hc : h.canvas k g = .ok (some c)) (hl : h.children k g = .ok l) (hi : pyIndex l i = .ok x) :
    ∃ h', h.groupInsert k g i x = (h', .error .value) ∧
      ∃ A B n, h.kids c = A ++ x :: B ∧ h'.kids c = A ++ x :: n :: B ∧ h'.lbl n = .text ['\n'] := by
  obtain ⟨hl', hall⟩ := (children_iff hc l).1 hl
  have hyl : x ∈ l := pyIndex_mem hi
  have hyc : x ∈ h.kids c := by
    rw [hl', List.mem_reverse, layersOf_eq, List.mem_filter] at hyl
    exact hyl.1
  obtain ⟨A, B, hk⟩ := List.append_of_mem hyc
  have hyp := (hf.child c x).1 hyc
  have hxs := (hf.made c x hyp).2
  obtain ⟨h1, h2, e1, f1, x1, t1, s1, k1, p1, m1⟩ := newline_moved hf hyp hk
  refine ⟨h2, ?_, A, B, h.size, hk, m1.here, by rw [m1.lbl, t1]⟩
  rw [Dom.groupInsert, hl]
  simp only [hi, e1]
  have : h2.parent x = some c := by
    rw [m1.parent, if_neg (by omega), p1]; exact hyp
  rw [insertAfter, this]
  simp

/-! ## C72: assigning a value object -/

namespace Dom

theorem getItem_iff {h : Dom} {a : ℕ} {f : Str} {c : VCls} {v : ℕ} :
    h.getItem a f = .ok (c, v) ↔ ∃ p, h.find? (isParam f) a = some p ∧
      ((h.kids p).filter fun x => (h.bare x).isTag) = [v] ∧ fromTag (h.node v) = .ok c := by
  rw [getItem]
  cases hp : h.find? (isParam f) a with
  | none => simp
  | some p =>
    simp only [Option.some.injEq, exists_eq_left']
    rcases hk : (h.kids p).filter fun x => (h.bare x).isTag with _ | ⟨w, _ | ⟨w', r⟩⟩
    · simp
    · simp only [List.cons.injEq, and_true]
      cases hc : fromTag (h.node w) with
      | error e =>
        simp only [reduceCtorEq, false_iff, not_and]
        rintro rfl; rw [hc]; simp
      | ok c' =>
        simp only [Except.ok.injEq, Prod.mk.injEq]
        constructor
        · rintro ⟨rfl, rfl⟩; exact ⟨rfl, hc⟩
        · rintro ⟨rfl, hc'⟩; rw [hc] at hc'; exact ⟨Except.ok.inj hc', rfl⟩
    · simp

theorem isParam_tag {h : Dom} {f : Str} {p : ℕ} (hp : isParam f (h.bare p) = true) :
    (h.bare p).name = "param" ∧ (h.bare p).isTag = true := by
  rw [isParam, Bool.and_eq_true] at hp
  refine ⟨by simpa using hp.1, ?_⟩
  cases e : h.lbl p with
  | text s => simp [bare, e, Node.name] at hp
  | tag n a => simp [bare, e, Node.isTag]

theorem isTag_of_kid {h : Dom} (hf : Forest h) {c p : ℕ} (hc : Par h c p) : (h.bare p).isTag = true := by
  cases e : h.lbl p with
  | text s => exact absurd e (tag_of_kid hf hc s)
  | tag n a => simp [bare, e, Node.isTag]

theorem filter_single {l : List ℕ} {P : ℕ → Bool} {v : ℕ} (e : l.filter P = [v]) :
    v ∈ l ∧ P v = true ∧ ∀ w ∈ l, P w = true → w = v := by
  have h1 : v ∈ l.filter P := by rw [e]; simp
  refine ⟨(List.mem_filter.1 h1).1, (List.mem_filter.1 h1).2, fun w hw hP => ?_⟩
  have : w ∈ l.filter P := List.mem_filter.2 ⟨hw, hP⟩
  rw [e] at this
  simpa using this

/-- What is put in place of something else stays as it was. -/
theorem Replaced.node_new {h h' : Dom} {y x p : ℕ} {l : List ℕ} (m : Replaced h y x p l h')
    (hf : Forest h) (hin : ¬ Within h p x) : h'.node x = h.node x := by
  refine node_congr hf m.forest _ fun z hz => ⟨?_, by rw [m.lbl]⟩
  rw [m.there z fun e => hin (e ▸ hz)]
  apply filter_ne_self
  intro hm
  exact hf.acyclic x (TransGen.head' ((hf.child z x).1 hm) hz)

end Dom

/-- C72 fails, always. After `a[f] = b[f']`, where neither value has params in it (they aren't canvases)
and they aren't the same value already: `a[f]` is the very object that `b[f']` was, and `b[f']` raises
`AttributeError`. -/
theorem c72_source_loses_its_value {h : Dom} (hf : Forest h) {a b : ℕ} {f f' : Str} {c : VCls}
    {old v : ℕ} (ha : h.getItem a f = .ok (c, old)) (hb : h.getItem b f' = .ok (c, v)) (hne : v ≠ old)
    (hv : ∀ z, Within h z v → (h.bare z).name ≠ "param")
    (hold : ∀ z, Within h z old → (h.bare z).name ≠ "param") :
    ∃ h', h.setItem a f (c, v) = (h', .ok ()) ∧ h'.getItem a f = .ok (c, v) ∧
      h'.getItem b f' = .error .attr := by
  obtain ⟨p, hp, hkp, hcp⟩ := getItem_iff.1 ha
  obtain ⟨q, hq, hkq, hcq⟩ := getItem_iff.1 hb
  obtain ⟨po1, po2, po3⟩ := filter_single hkp
  obtain ⟨qv1, qv2, qv3⟩ := filter_single hkq
  have pp := (hf.child p old).1 po1
  have pq := (hf.child q v).1 qv1
  have hPp := ((find_iff hf _ _ _).1 hp).2.1
  have hPq := ((find_iff hf _ _ _).1 hq).2.1
  have hpv : ¬ Within h p v := fun hi => hv p hi (isParam_tag hPp).1
  have hqv : ¬ Within h q v := fun hi => hv q hi (isParam_tag hPq).1
  have hpo : ¬ Within h p old := fun hi => hold p hi (isParam_tag hPp).1
  have hqo : ¬ Within h q old := fun hi => hold q hi (isParam_tag hPq).1
  obtain ⟨A, B, hAB⟩ := List.append_of_mem po1
  obtain ⟨m, e⟩ := replaced hf pp hne (hf.made q v pq).2 hpv hAB
  have hbare : ∀ z, (h.replaceWith old v).1.bare z = h.bare z := fun z => bare_congr (by rw [m.lbl])
  have hpq : q ≠ p := by
    rintro rfl
    exact hne (po3 v qv1 qv2)
  refine ⟨(h.replaceWith old v).1, ?_, ?_, ?_⟩
  · rw [Dom.setItem, ha]
    simp only [if_true]
    exact Prod.ext rfl e
  · refine getItem_iff.2 ⟨p, ?_, ?_, by rw [m.node_new hf hpv]; exact hcq⟩
    · refine m.find hf hp hpo hpv (fun k hk hpk => ?_) (.inl .refl)
      exact hf.acyclic p (TransGen.tail' hpk hk)
    · simp only [hbare]
      rw [m.here]
      rw [hAB, List.filter_append] at hkp
      have hA : A.filter (fun x => (h.bare x).isTag) = [] ∧ B.filter (fun x => (h.bare x).isTag) = [] := by
        rw [List.filter_cons_of_pos (by exact po2)] at hkp
        have hlen := congrArg List.length hkp
        simp only [List.length_append, List.length_cons, List.length_nil] at hlen
        exact ⟨List.length_eq_zero_iff.1 (by omega), List.length_eq_zero_iff.1 (by omega)⟩
      rw [List.filter_append, List.filter_cons_of_pos (by exact qv2), List.filter_comm, hA.1,
        List.filter_comm, hA.2]
      rfl
  · have hfq : (h.replaceWith old v).1.find? (isParam f') b = some q := by
      refine m.find hf hq hqo hqv (fun k hk hqk => ?_) (.inr fun u hu => ?_)
      · have hkt : (h.bare k).isTag = true := by
          rcases ReflTransGen.cases_tail hqk with e | ⟨d, _, hd⟩
          · rw [e]; exact (isParam_tag hPq).2
          · exact isTag_of_kid hf hd
        have := po3 k ((hf.child p k).2 hk) hkt
        subst this
        exact hqo hqk
      · have := hv u hu
        cases hc : isParam f' (h.bare u) with
        | false => rfl
        | true => exact absurd (isParam_tag hc).1 this
    rw [Dom.getItem, hfq]
    simp only [hbare]
    rw [m.there q hpq, List.filter_comm, hkq]
    simp

/-! ## C97: two objects for the same value -/

/-- C97 fails for un-animating, always. `layer[f]` gives the same element however often it is fetched, so
that two objects `v₁` and `v₂` for it share it. After un-animating through one of them, the layer has a
new element, which only that object has; the other object is left with an element which is in no
document, is still animated, and has no waypoints any more. -/
theorem c97_unanimating_leaves_others_behind {h : Dom} (hf : Forest h) {a v : ℕ} {f : Str} {c c' : VCls}
    (hv : h.getItem a f = .ok (c, v)) {m : Node} (hm : fromTag m = .ok c') (htag : m.isTag = true) :
    ∃ h' v', h.unanimate v m = ((h', v'), .ok ()) ∧ h'.getItem a f = .ok (c', v') ∧ h'.node v' = m ∧
      v' ≠ v ∧ h'.parent v = none ∧ h'.kids v = [] ∧ h'.lbl v = h.lbl v := by
  obtain ⟨p, hp, hkp, hcp⟩ := getItem_iff.1 hv
  obtain ⟨pv1, pv2, pv3⟩ := filter_single hkp
  have pp := (hf.child p v).1 pv1
  obtain ⟨c1, c2, c3, c4, c5, c6⟩ := clear_spec hf v
  have hvp : v ≠ p := by rintro rfl; exact hf.acyclic v (.single pp)
  have hps := (hf.made p v pp).1
  have hvs := (hf.made p v pp).2
  have mk := alloc_made c1 m
  set r := (h.clear v).alloc m with hr
  have hp1 := clear_find hf hp (ReflTransGen.single pp)
  have has : a < h.size := by
    have := ((find_iff hf _ _ _).1 hp).1
    rcases TransGen.tail'_iff.1 this with ⟨d, _, hd⟩
    exact (hf.made _ _ hd).1
  have hp2 := mk.ext.find c1 mk.forest (by rw [c3]; exact has) hp1
  have pp2 : Par r.1 v p := by
    rw [mk.ext.par c1 mk.forest (by rw [c3]; exact hps), ← c1.child, c5 p hvp.symm]; exact pv1
  have hnv : r.2 ≠ v := by have := mk.new; rw [c3] at this; omega
  have hpr : ¬ Within r.1 p r.2 := by
    intro hi
    have hps' : p < (h.clear v).size := by rw [c3]; exact hps
    -- everything above `p` was there before, and the new element is not
    have : ∀ z, Within r.1 p z → z < (h.clear v).size := by
      intro z hz
      induction hz with
      | refl => exact hps'
      | tail _ hbc ih =>
        have hb := mk.ext.parent _ ih
        rw [Par, hb] at hbc
        exact (c1.made _ _ hbc).1
    have := this _ hi
    have := mk.new
    omega
  obtain ⟨A, B, hAB⟩ := List.append_of_mem pv1
  have hAB' : r.1.kids p = A ++ v :: B := by
    rw [mk.ext.kids p (by rw [c3]; exact hps), c5 p hvp.symm, hAB]
  obtain ⟨mr, e⟩ := replaced mk.forest pp2 hnv mk.size hpr hAB'
  have hbare : ∀ z, z < h.size → (r.1.replaceWith v r.2).1.bare z = h.bare z := fun z hz =>
    bare_congr (by rw [mr.lbl, mk.ext.lbl z (by rw [c3]; exact hz), c2])
  have hnA : ∀ l : List ℕ, (∀ z ∈ l, z < h.size) → r.2 ∉ l := fun l hl hm => by
    have := hl _ hm
    have := mk.new
    rw [c3] at this
    omega
  have hABs : ∀ z, z ∈ A ∨ z ∈ B → z < h.size := fun z hz =>
    (hf.made p z ((hf.child p z).1 (by rw [hAB]; simp; tauto))).2
  have hnode : (r.1.replaceWith v r.2).1.node r.2 = m := by
    rw [← mk.node]
    exact mr.node_new mk.forest hpr
  have hshal := bare_shallow mr.forest r.2
  rw [hnode] at hshal
  refine ⟨_, r.2, ?_, ?_, hnode, hnv, ?_, ?_, ?_⟩
  · rw [Dom.unanimate]
    rw [← hr, show r.1.replaceWith v r.2 = ((r.1.replaceWith v r.2).1, .ok ()) from Prod.ext rfl e]
  · refine getItem_iff.2 ⟨p, ?_, ?_, by rw [hnode]; exact hm⟩
    · have hpv : ¬ Within r.1 p v := fun hi => mk.forest.acyclic p (TransGen.tail' hi pp2)
      exact mr.find mk.forest hp2 hpv hpr
        (fun k hk hpk => mk.forest.acyclic p (TransGen.tail' hpk hk)) (.inl .refl)
    · rw [mr.here, filter_ne_self (hnA A fun z hz => hABs z (.inl hz)),
        filter_ne_self (hnA B fun z hz => hABs z (.inr hz)), List.filter_append,
        List.filter_cons_of_pos (by rw [hshal.1]; exact htag)]
      have hnil : ∀ l : List ℕ, (∀ z ∈ l, z ∈ A ∨ z ∈ B) →
          l.filter (fun x => ((r.1.replaceWith v r.2).1.bare x).isTag) = [] := by
        intro l hl
        apply List.filter_eq_nil_iff.2
        intro z hz ht
        rw [hbare z (hABs z (hl z hz))] at ht
        have hzp : z ∈ h.kids p := by rw [hAB]; have := hl z hz; simp; tauto
        have := pv3 z hzp ht
        subst this
        have hn := hf.nodup p
        rw [hAB] at hn
        rcases hl z hz with hz | hz
        · exact (List.nodup_append.1 hn).2.2 z hz z (by simp) rfl
        · exact (List.nodup_cons.1 (List.nodup_append.1 hn).2.1).1 hz
      rw [hnil A fun z hz => .inl hz, hnil B fun z hz => .inr hz]
      rfl
  · rw [mr.parent, if_neg hnv.symm, if_pos rfl]
  · rw [mr.there v hvp, mk.ext.kids v (by rw [c3]; exact hvs), c4]; rfl
  · rw [mr.lbl, mk.ext.lbl v (by rw [c3]; exact hvs), c2]

/-- C72, what holds: assigning a value object which isn't in any layer's param yet. It succeeds, the
layer then has that object, and every element that doesn't have the param in it looks as before. Missing:
value objects taken from layers, where it fails (`c72_source_loses_its_value`). -/
theorem c72_new_value_partial {h : Dom} (hf : Forest h) {a : ℕ} {f : Str} {c : VCls} {old v p : ℕ}
    (ha : h.getItem a f = .ok (c, old)) (hp : Par h old p) (hv : v < h.size) (hr : h.parent v = none)
    (hc : fromTag (h.node v) = .ok c) (ht : ∀ s, h.lbl v ≠ .text s) (hin : ¬ Within h p v) :
    ∃ h', h.setItem a f (c, v) = (h', .ok ()) ∧ h'.getItem a f = .ok (c, v) ∧
      h'.node v = h.node v ∧ ∀ b, ¬ Within h p b → h'.node b = h.node b := by
  obtain ⟨q, hq, hkq, hcq⟩ := getItem_iff.1 ha
  obtain ⟨po1, po2, po3⟩ := filter_single hkq
  have := par_unique hp ((hf.child q old).1 po1)
  subst this
  have hne : v ≠ old := by rintro rfl; rw [Par, hr] at hp; cases hp
  obtain ⟨A, B, hAB⟩ := List.append_of_mem po1
  obtain ⟨m, e⟩ := replaced hf hp hne hv hin hAB
  have hbare : ∀ z, (h.replaceWith old v).1.bare z = h.bare z := fun z => bare_congr (by rw [m.lbl])
  have hnot : ∀ z, v ∉ h.kids z := fun z hm => by
    have := (hf.child z v).1 hm
    rw [Par, hr] at this; cases this
  refine ⟨(h.replaceWith old v).1, ?_, ?_, m.node_new hf hin, fun b hb => ?_⟩
  · rw [Dom.setItem, ha]
    simp only [if_true]
    exact Prod.ext rfl e
  · refine getItem_iff.2 ⟨p, ?_, ?_, by rw [m.node_new hf hin]; exact hc⟩
    · have hpo : ¬ Within h p old := fun hi => hf.acyclic p (TransGen.tail' hi hp)
      refine m.find hf hq hpo hin (fun k hk hpk => ?_) (.inl .refl)
      exact hf.acyclic p (TransGen.tail' hpk hk)
    · simp only [hbare]
      rw [m.here]
      rw [hAB, List.filter_append] at hkq
      have hA : A.filter (fun x => (h.bare x).isTag) = [] ∧ B.filter (fun x => (h.bare x).isTag) = [] := by
        rw [List.filter_cons_of_pos (by exact po2)] at hkq
        have hlen := congrArg List.length hkq
        simp only [List.length_append, List.length_cons, List.length_nil] at hlen
        exact ⟨List.length_eq_zero_iff.1 (by omega), List.length_eq_zero_iff.1 (by omega)⟩
      have hvt : (h.bare v).isTag = true := by
        cases e : h.lbl v with
        | text s => exact absurd e (ht s)
        | tag n a => simp [bare, e, Node.isTag]
      rw [List.filter_append, List.filter_cons_of_pos (by exact hvt), List.filter_comm, hA.1,
        List.filter_comm, hA.2]
      rfl
  · refine node_congr hf m.forest b fun z hz => ⟨?_, by rw [m.lbl]⟩
    rw [m.there z fun e => hb (e ▸ hz)]
    exact filter_ne_self (hnot z)

/-- C97, what holds: setting, animating, or changing the timeline of a value, through any of the objects
for it. The layer's element is still the one they all have; so they all show what was set. Missing:
un-animating, where it fails (`c97_unanimating_leaves_others_behind`). -/
theorem c97_setting_is_shared_partial {h : Dom} (hf : Forest h) {a v : ℕ} {f : Str} {c c' : VCls}
    (hv : h.getItem a f = .ok (c, v)) {n : String} {at' : Attrs} {ks : List Node}
    (hm : fromTag (.tag n at' ks) = .ok c') :
    (h.rewrite v n at' ks).getItem a f = .ok (c', v) ∧
      (h.rewrite v n at' ks).node v = .tag n at' ks := by
  obtain ⟨p, hp, hkp, hcp⟩ := getItem_iff.1 hv
  obtain ⟨pv1, pv2, pv3⟩ := filter_single hkp
  have pp := (hf.child p v).1 pv1
  have hvs := (hf.made p v pp).2
  have hps := (hf.made p v pp).1
  have hvp : p ≠ v := by rintro rfl; exact hf.acyclic p (.single pp)
  obtain ⟨r1, r2, r3, r4, r5, r6, r7⟩ := rewrite_spec hf hvs n at' ks
  refine ⟨getItem_iff.2 ⟨p, ?_, ?_, by rw [r2]; exact hm⟩, r2⟩
  · refine find_transfer hf r1 hp fun z k hz hk hpk => ?_
    have hkv : k ≠ v := by rintro rfl; exact hf.acyclic p (TransGen.tail' hpk pp)
    have hzv : z ≠ v := by rintro rfl; exact hf.acyclic p (TransGen.tail' hpk (hk.trans rfl) |>.tail pp)
    have hzs := (hf.made z k hk).1
    have hks := (hf.made z k hk).2
    refine ⟨?_, ?_, fun A B e hA => ⟨A, B, ?_, fun w hw u hu => ?_⟩⟩
    · rw [← r1.child, (r5 z hzs hzv).1, hf.child]; exact hk
    · rw [bare_congr (h := h) (r5 k hks hkv).2]
    · rw [(r5 z hzs hzv).1, e]
    · have hwz : Par h w z := (hf.child z w).1 (by rw [e]; simp [hw])
      have hws := (hf.made z w hwz).2
      have hwk : w ≠ k := by
        rintro rfl
        have := hf.nodup z
        rw [e] at this
        exact (List.nodup_append.1 this).2.2 w hw w (by simp) rfl
      have hvw : ¬ Within h v w :=
        inside_siblings hf hk hwz hwk.symm (ReflTransGen.head pp hpk)
      have hiu : Within h u w := by
        induction hu using ReflTransGen.head_induction_on with
        | refl => exact .refl
        | @head a b hab _ ih =>
          have hbv : b ≠ v := by rintro rfl; exact hvw ih
          rw [← r1.child, (r5 b (inside_made hf ih hws) hbv).1, hf.child] at hab
          exact ReflTransGen.head hab ih
      have huv : u ≠ v := by rintro rfl; exact hvw hiu
      rw [bare_congr (h := h) (r5 u (inside_made hf hiu hws) huv).2]
      exact hA w hw u hiu
  · rw [(r5 p hps hvp).1]
    have : ∀ x ∈ h.kids p, ((h.rewrite v n at' ks).bare x).isTag = (h.bare x).isTag := by
      intro x hx
      by_cases hxv : x = v
      · subst hxv
        rw [pv2]
        simp [bare, r3, Node.isTag]
      · rw [bare_congr (h := h) (r5 x (hf.made p x ((hf.child p x).1 hx)).2 hxv).2]
    rw [List.filter_congr this]
    exact hkp

/-! ## C70: documents stay trees -/

theorem step_forest {h : Dom} (hf : Forest h) {o : DOp} (hp : Proper h o) : Forest (run o h) := by
  cases o with
  | make n => exact (alloc_made hf n).forest
  | append k g x =>
    obtain ⟨hg, hx, ht, hin⟩ := hp
    show Forest (h.groupAppend k g x).1
    rw [Dom.groupAppend]
    cases hc : h.canvas k g with
    | error e => exact hf
    | ok o =>
      cases o with
      | none => exact hf
      | some c =>
        simp only
        have hcs : c < h.size := inside_made hf (canvas_inside hf hc) hg
        cases hfd : (h.kids c).find? fun y => isLayer (h.bare y) with
        | none =>
          refine (append_moved hf hcs hx (canvas_tag hf hc ?_) (hin c hc)).1.forest
          cases e : h.lbl g with
          | text s => exact absurd e (ht s)
          | tag n a => simp [bare, e, Node.isTag]
        | some y =>
          refine insertBefore_forest hf hx fun p hp => ?_
          have := par_unique hp ((hf.child c y).1 (List.mem_of_find?_eq_some hfd))
          subst this
          exact hin p hc
  | insert k g i x =>
    obtain ⟨hg, hx, ht, hin⟩ := hp
    show Forest (h.groupInsert k g i x).1
    rw [Dom.groupInsert]
    cases hl : h.children k g with
    | error e => exact hf
    | ok l =>
      simp only
      cases hi : pyIndex l i with
      | error e => exact hf
      | ok y =>
        simp only
        obtain ⟨c, hc⟩ : ∃ c, h.canvas k g = .ok (some c) := by
          cases hc : h.canvas k g with
          | error e => rw [Dom.children, hc] at hl; simp at hl
          | ok o =>
            cases o with
            | none => rw [Dom.children, hc] at hl; simp at hl
            | some c => exact ⟨c, rfl⟩
        obtain ⟨rfl, hall⟩ := (children_iff hc l).1 hl
        have hyl := pyIndex_mem hi
        rw [List.mem_reverse, layersOf_eq, List.mem_filter] at hyl
        obtain ⟨A, B, hk⟩ := List.append_of_mem hyl.1
        have hyp := (hf.child c y).1 hyl.1
        obtain ⟨h1, h2, e1, f1, x1, t1, s1, k1, p1, m1⟩ := newline_moved hf hyp hk
        rw [e1]
        simp only
        have f3 : Forest (h2.insertAfter y x).1 := by
          refine insertAfter_forest m1.forest (by rw [m1.size, s1]; omega) fun p hp hh => ?_
          have hpc : p = c := by
            have hys := (hf.made c y hyp).2
            rcases (m1.par y p).1 hp with ⟨_, hp⟩ | ⟨e, _⟩
            · rw [Par, p1] at hp; exact par_unique hp hyp
            · omega
          subst hpc
          rcases inside_back (fun a b hab => ((m1.par a b).1 hab).imp (·.2) id) hh with hh | ⟨hh, _⟩
          · exact hin p hc ((x1.inside hf f1 hx).1 hh)
          · have hcs : p < h.size := (hf.made p y hyp).1
            rcases ReflTransGen.cases_tail hh with e | ⟨d, _, hd⟩
            · exact absurd e (by omega)
            · have : h.parent d = some h.size := by rw [← p1]; exact hd
              have := (hf.made _ _ this).1
              omega
        cases he : h2.insertAfter y x with
        | mk h3 r =>
          rw [he] at f3
          cases r with
          | error e => exact f3
          | ok u => exact newlineAfter_forest f3 y
  | assign a f v =>
    show Forest (h.setItem a f v).1
    rw [Dom.setItem]
    cases hg : h.getItem a f with
    | error e => exact hf
    | ok r =>
      obtain ⟨c, old⟩ := r
      simp only
      split
      · exact replaceWith_forest hf hp.1 fun p hpp => hp.2 c old p hg hpp
      · exact hf
  | plain F a f x =>
    show Forest (h.setPlain F a f x).1
    rw [setPlain]
    cases hg : h.getItem a f with
    | error e => exact hf
    | ok r =>
      obtain ⟨c, old⟩ := r
      simp only
      cases hn : newValue F c x with
      | error e => exact hf
      | ok m =>
        have mk := alloc_made hf m
        refine replaceWith_forest mk.forest mk.size fun p hpp => ?_
        obtain ⟨q, hq, hkq, _⟩ := getItem_iff.1 hg
        have hpo := (hf.child q old).1 (filter_single hkq).1
        rw [Par, mk.ext.parent old (hf.made q old hpo).2] at hpp
        exact mk.fresh hf (hf.made p old hpp).1
  | set v n a ks => exact (rewrite_spec hf hp n a ks).1
  | unanimate v m =>
    show Forest (h.unanimate v m).1.1
    rw [Dom.unanimate]
    obtain ⟨c1, c2, c3, c4, c5, c6⟩ := clear_spec hf v
    have mk := alloc_made c1 m
    have : Forest (((h.clear v).alloc m).1.replaceWith v ((h.clear v).alloc m).2).1 := by
      refine replaceWith_forest mk.forest mk.size fun p hpp => ?_
      have hvs : v < (h.clear v).size := by rw [c3]; exact hp
      rw [Par, mk.ext.parent v hvs] at hpp
      exact mk.fresh c1 (c1.made p v hpp).1
    cases he : ((h.clear v).alloc m).1.replaceWith v ((h.clear v).alloc m).2 with
    | mk h3 r =>
      rw [he] at this
      cases r <;> exact this

/-- C70. Whatever is made, moved, assigned, set, animated and un-animated, in any order, and whether it
succeeds or raises exceptions: as long as nothing is put inside itself, everything has at most one
parent, is listed exactly once among its parent's contents, and nowhere else; and nothing is inside
itself. -/
theorem c70_documents_stay_trees {h : Dom} (hr : Reached h) :
    (∀ p c, c ∈ h.kids p ↔ Par h c p) ∧ (∀ p, (h.kids p).Nodup) ∧ ∀ x, ¬ TransGen (Par h) x x := by
  have : Forest h := by
    induction hr with
    | start => exact forest_empty
    | step _ hp ih => exact step_forest ih hp
  exact ⟨this.child, this.nodup, this.acyclic⟩

end Sang
