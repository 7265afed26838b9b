import Verif.DomParent
import Verif.Props.FoundLoops

/-!
# C178: the parent and depth of layers that have been moved
-/

namespace Sang

open Spec Relation

namespace Dom

/-- What is around the canvas of a group, and then around the group. -/
theorem up_holder {h : Dom} (hf : Forest h) {g c : ℕ} (hh : HolderAt h .group g c) :
    ∃ p, (h.bare p).name = "param" ∧ (h.bare g).name = "layer" ∧ (h.bare c).name = "canvas" ∧ h.up c = p :: g :: h.up g := by
  obtain ⟨hc, -, hgn, p, A, B, A', B', e1, -, hp, e2, -⟩ := hh
  have q1 : Par h c p := (hf.child p c).1 (by rw [e2]; simp)
  have q2 : Par h p g := (hf.child g p).1 (by rw [e1]; simp)
  refine ⟨p, ?_, hgn, hc, by rw [up_par hf q1, up_par hf q2]⟩
  simp only [isParam, Bool.and_eq_true, decide_eq_true_eq] at hp
  exact hp.1

/-- The same is between the layer and what is in it, before and after. -/
theorem Put.up_inside {h h' : Dom} (hf : Forest h) {x c : ℕ} (m : Put h x c h') {w : ℕ} (hw : Within h w x)
    (hwt : (h.bare w).isTag = true) (hne : w ≠ x) (hx : x < h.size) :
    ∃ A, h.up w = A ++ x :: h.up x ∧ h'.up w = A ++ x :: h'.up x ∧ ∀ y ∈ A, y < h.size := by
  induction hw using ReflTransGen.head_induction_on with
  | refl => exact absurd rfl hne
  | @head a b hab hbx ih =>
    have hab' : Par h' a b := (m.root a (hf.made b a hab).2 hne hwt).trans hab
    by_cases hb : b = x
    · subst hb
      exact ⟨[], by rw [up_par hf hab]; rfl, by rw [up_par m.forest hab']; rfl, by simp⟩
    · obtain ⟨A, e1, e2, e3⟩ := ih (isTag_of_kid hf hab) hb
      refine ⟨b :: A, by rw [up_par hf hab, e1]; rfl, by rw [up_par m.forest hab', e2]; rfl, ?_⟩
      intro y hy
      rcases List.mem_cons.1 hy with rfl | hy
      · exact (hf.made y a hab).1
      · exact e3 y hy

theorem parentAt_find {h : Dom} {x y : ℕ} {cl : LClass} (hf : (h.up x).find? (fun y => (h.bare y).name = "layer") = some y)
    (hcl : layerOf (h.bare y) = .ok cl) : h.parentAt x = .ok (some y) := by
  rw [parentAt, hf]
  simp only [hcl]

section
variable {h h' : Dom} {o : MoveOp} {c : ℕ} {l : List ℕ}

theorem moved_up (hf : Forest h) (hh : HolderAt h o.group.1 o.group.2 c)
    (hl : h.children o.group.1 o.group.2 = .ok l) (hx : o.layer < h.size) (hin : ¬ Within h c o.layer)
    (ho : o.run h = (h', .ok ())) : h'.up o.layer = c :: h.up c := by
  have m := run_put hf hh hl hx hin ho
  have hcs := inside_made hf (canvas_inside hf (holderAt_canvas hf hh)) hh.2.1
  rw [up_par m.forest m.here, m.up_same hf c hcs (isTag_of_canvas hh.1) hin]

/-- C178. A layer that has been appended to or inserted in a group has the group for its parent, and is one deeper than it. -/
theorem c178_in_group (hf : Forest h) (hh : HolderAt h o.group.1 o.group.2 c)
    (hl : h.children o.group.1 o.group.2 = .ok l) (hx : o.layer < h.size) (hin : ¬ Within h c o.layer)
    (ho : o.run h = (h', .ok ())) (hk : o.group.1 = .group) {cl : LClass} (hcl : layerOf (h.bare o.group.2) = .ok cl) :
    h'.parentAt o.layer = .ok (some o.group.2) ∧ h'.depthAt o.layer = h.depthAt o.group.2 + 1 := by
  have m := run_put hf hh hl hx hin ho
  have hu := moved_up hf hh hl hx hin ho
  have hcs := inside_made hf (canvas_inside hf (holderAt_canvas hf hh)) hh.2.1
  have hgs := hh.2.1
  rw [hk] at hh
  obtain ⟨p, n1, n2, n3, e⟩ := up_holder hf hh
  have hps : p < h.size := up_made hf h.size c p (by have : p ∈ h.up c := by rw [e]; simp
                                                     exact this)
  rw [e] at hu
  rw [← m.bare hcs] at n3
  rw [← m.bare hps] at n1
  rw [← m.bare hgs] at n2 hcl
  constructor
  · apply parentAt_find ?_ hcl
    rw [hu, List.find?_cons_of_neg (by simp [n3]), List.find?_cons_of_neg (by simp [n1]), List.find?_cons_of_pos (by simp [n2])]
  · rw [depthAt, hu, List.filter_cons_of_neg (by simp [n3]), List.filter_cons_of_neg (by simp [n1]),
      List.filter_cons_of_pos (by simp [n2]), List.length_cons, depthAt]
    congr 2
    exact List.filter_congr fun y hy => by rw [m.bare (up_made hf h.size _ y hy)]

/-- C178. If it was put in an animation, then it has no parent, and its depth is nought. -/
theorem c178_in_animation (hf : Forest h) (hh : HolderAt h o.group.1 o.group.2 c)
    (hl : h.children o.group.1 o.group.2 = .ok l) (hx : o.layer < h.size) (hin : ¬ Within h c o.layer)
    (ho : o.run h = (h', .ok ())) (hk : o.group.1 = .animation) :
    h'.parentAt o.layer = .ok none ∧ h'.depthAt o.layer = 0 := by
  have m := run_put hf hh hl hx hin ho
  have hu := moved_up hf hh hl hx hin ho
  have hcs := inside_made hf (canvas_inside hf (holderAt_canvas hf hh)) hh.2.1
  rw [hk] at hh
  obtain ⟨n3, -, rfl, hp⟩ := hh
  rw [up_top hf hp] at hu
  rw [← m.bare hcs] at n3
  constructor
  · rw [parentAt, hu, List.find?_cons_of_neg (by simp [n3])]
    rfl
  · rw [depthAt, hu, List.filter_cons_of_neg (by simp [n3])]
    rfl

/-- C178. A layer below it has the parent that it had, and its depth changes by as much as that of the layer that was moved. -/
theorem c178_below (hf : Forest h) (hh : HolderAt h o.group.1 o.group.2 c)
    (hl : h.children o.group.1 o.group.2 = .ok l) (hx : o.layer < h.size) (hxl : isLayer (h.bare o.layer) = true)
    (hin : ¬ Within h c o.layer) (ho : o.run h = (h', .ok ())) {w : ℕ} (hw : w ∈ h.findLayers o.layer) :
    h'.parentAt w = h.parentAt w ∧ h'.depthAt w + h.depthAt o.layer = h.depthAt w + h'.depthAt o.layer := by
  have m := run_put hf hh hl hx hin ho
  obtain ⟨h1, h2⟩ := (mem_findLayers hf).1 hw
  obtain ⟨h3, h4⟩ := (transGen_iff hf).1 h1
  obtain ⟨A, e1, e2, e3⟩ := m.up_inside hf h3 (isTag_of_layer h2) h4 hx
  have hxn : (h.bare o.layer).name = "layer" := by
    rw [isLayer, Bool.and_eq_true, decide_eq_true_eq] at hxl
    exact hxl.2
  have hsame : ∀ y, (y ∈ A ∨ y = o.layer) → h'.bare y = h.bare y := by
    rintro y (hy | rfl)
    · exact m.bare (e3 y hy)
    · exact m.bare hx
  constructor
  · have hA : A.find? (fun y => (h'.bare y).name = "layer") = A.find? (fun y => (h.bare y).name = "layer") := by
      clear e1 e2 e3
      induction A with
      | nil => rfl
      | cons a A ih =>
        rw [List.find?_cons, List.find?_cons, hsame a (.inl (by simp)), ih fun y hy => hsame y ?_]
        rcases hy with hy | hy
        · exact .inl (List.mem_cons_of_mem _ hy)
        · exact .inr hy
    have hfind : ∀ (k : Dom) (U : List ℕ), (k.bare o.layer).name = "layer" →
        (A ++ o.layer :: U).find? (fun y => (k.bare y).name = "layer") =
          some ((A.find? (fun y => (k.bare y).name = "layer")).getD o.layer) := by
      intro k U hk
      rw [List.find?_append, List.find?_cons_of_pos (by simp [hk])]
      cases A.find? (fun y => (k.bare y).name = "layer") <;> rfl
    rw [parentAt, parentAt, e1, e2, hfind h _ hxn, hfind h' _ (by rw [m.bare hx]; exact hxn), hA]
    simp only
    rw [hsame]
    cases hr : A.find? (fun y => decide ((h.bare y).name = "layer")) with
    | none => exact .inr rfl
    | some y => exact .inl (List.mem_of_find?_eq_some hr)
  · have hA : (A.filter fun y => (h'.bare y).name = "layer") = A.filter fun y => (h.bare y).name = "layer" :=
      List.filter_congr fun y hy => by rw [hsame y (.inl hy)]
    have d1 : h.depthAt w = (A.filter fun y => (h.bare y).name = "layer").length + (1 + h.depthAt o.layer) := by
      rw [depthAt, e1, List.filter_append, List.filter_cons_of_pos (by simp [hxn]), List.length_append, List.length_cons, depthAt]
      omega
    have d2 : h'.depthAt w = (A.filter fun y => (h.bare y).name = "layer").length + (1 + h'.depthAt o.layer) := by
      rw [depthAt, e2, List.filter_append, List.filter_cons_of_pos (by simp [m.bare hx, hxn]), List.length_append, List.length_cons,
        hA, depthAt]
      omega
    omega

/-- C178. Every other layer has the parent and the depth that it had. -/
theorem c178_others (hf : Forest h) (hh : HolderAt h o.group.1 o.group.2 c)
    (hl : h.children o.group.1 o.group.2 = .ok l) (hx : o.layer < h.size) (hin : ¬ Within h c o.layer)
    (ho : o.run h = (h', .ok ())) {w : ℕ} (hw : w < h.size) (hwl : isLayer (h.bare w) = true) (hout : ¬ Within h w o.layer) :
    h'.parentAt w = h.parentAt w ∧ h'.depthAt w = h.depthAt w := by
  have m := run_put hf hh hl hx hin ho
  have hu := m.up_same hf w hw (isTag_of_layer hwl) hout
  have hs : ∀ y ∈ h.up w, h'.bare y = h.bare y := fun y hy => m.bare (up_made hf h.size w y hy)
  constructor
  · rw [parentAt, parentAt, hu]
    have : (h.up w).find? (fun y => (h'.bare y).name = "layer") = (h.up w).find? (fun y => (h.bare y).name = "layer") := by
      clear hu
      generalize h.up w = U at hs
      induction U with
      | nil => rfl
      | cons a A ih =>
        rw [List.find?_cons, List.find?_cons, hs a (by simp), ih fun y hy => hs y (List.mem_cons_of_mem _ hy)]
    rw [this]
    cases hr : (h.up w).find? (fun y => decide ((h.bare y).name = "layer")) with
    | none => rfl
    | some y => simp only [hs y (List.mem_of_find?_eq_some hr)]
  · rw [depthAt, depthAt, hu]
    congr 1
    exact List.filter_congr fun y hy => by rw [hs y hy]

end

end Dom

open Dom

/-! ## Examples -/

/-- The star appended to the group: the group is its parent. The circle's parent is the group as before. -/
example : ∃ h', exDom.groupAppend .group 1 9 = (h', .ok ()) ∧ h'.parentAt 9 = .ok (some 1) ∧ h'.depthAt 9 = 1 ∧
    exDom.parentAt 9 = .ok none ∧ h'.parentAt 4 = .ok (some 1) := by
  obtain ⟨h', hr⟩ : ∃ h', exDom.groupAppend .group 1 9 = (h', .ok ()) := ⟨_, Prod.ext rfl (by decide +kernel)⟩
  have out : ∀ z, z ∉ 9 :: exDom.desc 9 → ¬ Within exDom z 9 := fun z => exDom_outside
  obtain ⟨a1, a2⟩ := c178_in_group exDom_forest (o := .append .group 1 9) (c := 3) (l := [4]) (exHolders_ok _ (.inr rfl))
    (exLists_ok _ (.inr rfl)) (by decide +kernel) (out 3 (by decide +kernel)) hr rfl (cl := lcGroup) (by decide +kernel)
  obtain ⟨b1, -⟩ := c178_others exDom_forest (o := .append .group 1 9) (c := 3) (l := [4]) (exHolders_ok _ (.inr rfl))
    (exLists_ok _ (.inr rfl)) (by decide +kernel) (out 3 (by decide +kernel)) hr (w := 4) (by decide +kernel) (by decide +kernel)
    (out 4 (by decide +kernel))
  refine ⟨h', hr, a1, ?_, by decide +kernel, ?_⟩
  · have : exDom.depthAt 1 = 0 := by decide +kernel
    simp only [MoveOp.layer, MoveOp.group] at a2
    rw [this] at a2
    exact a2
  · rw [b1]
    decide +kernel

/-- The group moved to another animation: it has no parent, and the circle in it has the group for its parent, and the same depth. -/
example : ∃ h', exFlat.groupAppend .animation 15 1 = (h', .ok ()) ∧ h'.parentAt 1 = .ok none ∧ h'.depthAt 1 = 0 ∧
    h'.parentAt 4 = exFlat.parentAt 4 ∧ exFlat.parentAt 4 = .ok (some 1) ∧ h'.depthAt 4 = 1 := by
  obtain ⟨h', hr⟩ : ∃ h', exFlat.groupAppend .animation 15 1 = (h', .ok ()) := ⟨_, Prod.ext rfl (by decide +kernel)⟩
  have hin := exFlat_outside (x := 15) (y := 1) (by decide +kernel)
  obtain ⟨a1, a2⟩ := c178_in_animation exFlat_forest (o := .append .animation 15 1) (c := 15) (l := [])
    (exFlatHolders_ok _ (.inr (.inr rfl))) (exFlatLists_ok _ (.inr (.inr rfl))) (by decide +kernel) hin hr rfl
  obtain ⟨b1, b2⟩ := c178_below exFlat_forest (o := .append .animation 15 1) (c := 15) (l := [])
    (exFlatHolders_ok _ (.inr (.inr rfl))) (exFlatLists_ok _ (.inr (.inr rfl))) (by decide +kernel) (by decide +kernel) hin hr
    (w := 4) (by decide +kernel)
  refine ⟨h', hr, a1, a2, b1, by decide +kernel, ?_⟩
  have e1 : exFlat.depthAt 4 = 1 := by decide +kernel
  have e2 : exFlat.depthAt 1 = 0 := by decide +kernel
  simp only [MoveOp.layer] at b2 a2
  rw [e1, e2, a2] at b2
  omega

end Sang
