import Verif.DomFind
import Verif.Props.MovedLayer
import Verif.Props.Loops

/-!
# C174: finding and counting layers after they have been moved
-/

namespace Sang

open Spec Relation

namespace Dom

/-! ## What is in something is listed once -/

theorem desc_nodup {h : Dom} (hf : Forest h) (x : ℕ) : (h.desc x).Nodup := by
  induction x using forest_induct hf with
  | step x ih =>
    rw [desc_eq hf, List.nodup_flatMap]
    refine ⟨fun c hc => List.nodup_cons.2 ⟨fun hm => hf.acyclic c ((mem_desc hf c c).1 hm), ih c hc⟩, ?_⟩
    refine (List.Nodup.pairwise_of_forall_ne (hf.nodup x) fun a ha b hb hab => ?_)
    rw [Function.onFun, List.disjoint_left]
    intro w hwa hwb
    have hi : ∀ c, w ∈ c :: h.desc c → Within h w c := by
      intro c hm
      rcases List.mem_cons.1 hm with rfl | hm
      · exact .refl
      · exact ((mem_desc hf c w).1 hm).to_reflTransGen
    have key : ∀ a b, a ∈ h.kids x → b ∈ h.kids x → a ≠ b → ¬ Within h a b := by
      intro a b ha hb hab hw
      rcases ReflTransGen.cases_head hw with e | ⟨d, hd, hdb⟩
      · exact hab e
      · have hax : Par h a x := (hf.child x a).1 ha
        have : d = x := by rw [Par, hax] at hd; injection hd with hd; exact hd.symm
        subst this
        exact hf.acyclic b (TransGen.tail' .refl ((hf.child d b).1 hb) |>.trans_left hdb)
    rcases inside_total (hi a hwa) (hi b hwb) with hc | hc
    · exact key a b ha hb hab hc
    · exact key b a hb ha (Ne.symm hab) hc

theorem findLayers_nodup {h : Dom} (hf : Forest h) (z : ℕ) : (h.findLayers z).Nodup := (desc_nodup hf z).filter _

theorem mem_findLayers {h : Dom} (hf : Forest h) {z w : ℕ} :
    w ∈ h.findLayers z ↔ TransGen (Par h) w z ∧ isLayer (h.bare w) = true := by
  rw [findLayers, List.mem_filter, mem_desc hf]

/-- What is found in an element is what is found in what it says. -/
theorem findLayers_node {h : Dom} (hf : Forest h) (z : ℕ) : (h.findLayers z).map h.node = layersBelow (h.node z) := by
  rw [layersBelow, ← allLayersIn_eq, ← desc_node hf, List.filter_map, findLayers]
  congr 1
  apply List.filter_congr
  intro w _
  obtain ⟨b1, b2, -⟩ := bare_shallow hf w
  rw [Function.comp, isLayer, b1, b2]
  cases h.node w with
  | text s => rfl
  | tag n a ks => by_cases hn : n = "layer" <;> simp [Node.isTag, Node.name, isLayerElt, hn]

theorem len_eq {h : Dom} (hf : Forest h) (z : ℕ) : layerLen (h.node z) = (h.findLayers z).length := by
  rw [c48_len, ← findLayers_node hf, List.length_map]

theorem transGen_iff {h : Dom} (hf : Forest h) {w z : ℕ} : TransGen (Par h) w z ↔ Within h w z ∧ w ≠ z := by
  constructor
  · intro ht
    exact ⟨ht.to_reflTransGen, by rintro rfl; exact hf.acyclic _ ht⟩
  · rintro ⟨hw, hne⟩
    rcases reflTransGen_iff_eq_or_transGen.1 hw with e | ht
    · exact absurd e.symm hne
    · exact ht

theorem isTag_of_layer {n : Node} (h : isLayer n = true) : n.isTag = true := by
  rw [isLayer, Bool.and_eq_true] at h; exact h.1

theorem isTag_of_canvas {n : Node} (h : n.name = "canvas") : n.isTag = true := by
  cases n with
  | text s => simp [Node.name] at h
  | tag n a ks => rfl

/-! ## After something has been put somewhere -/

section
variable {h h' : Dom} {x c : ℕ}

/-- What was in the layer is in nothing else in it than before. -/
theorem Put.within_inside (hf : Forest h) (m : Put h x c h') (hx : x < h.size) (hct : (h.bare c).isTag = true) (hcs : c < h.size)
    (hin : ¬ Within h c x) {w z : ℕ} (hz : Within h z x) (hw : Within h w x) (hwt : (h.bare w).isTag = true) :
    Within h' w z ↔ Within h w z := by
  constructor
  · intro hwz
    induction hwz using ReflTransGen.head_induction_on with
    | refl => exact .refl
    | @head a b hab hbz ih =>
      by_cases hax : a = x
      · subst hax
        have : b = c := by rw [Par, m.here] at hab; injection hab with hab; exact hab.symm
        subst this
        exact absurd ((m.within_back hf hbz hcs hct hin).trans hz) hin
      · have has := inside_made hf hw hx
        have hab' : Par h a b := (m.root a has hax hwt).symm.trans hab
        have hbx : Within h b x := by
          rcases ReflTransGen.cases_head hw with e | ⟨d, hd, hdx⟩
          · exact absurd e hax
          · have : d = b := by rw [Par, hab'] at hd; injection hd with hd; exact hd.symm
            exact this ▸ hdx
        exact ReflTransGen.head hab' (ih hbx (isTag_of_kid hf hab'))
  · intro hwz
    induction hwz using ReflTransGen.head_induction_on with
    | refl => exact .refl
    | @head a b hab hbz ih =>
      have hbx : Within h b x := ReflTransGen.trans hbz hz
      refine ReflTransGen.head ((m.forest.child b a).1 ?_) (ih hbx (isTag_of_kid hf hab))
      rw [(m.kids_in hf hx hin hbx).1]
      exact (hf.child b a).2 hab

/-- What was in the layer is in what the canvas is in. -/
theorem Put.within_outside (hf : Forest h) (m : Put h x c h') (hx : x < h.size) (hct : (h.bare c).isTag = true) (hcs : c < h.size)
    (hin : ¬ Within h c x) {w z : ℕ} (hzs : z < h.size) (hzt : (h.bare z).isTag = true) (hz : ¬ Within h z x) (hw : Within h w x) :
    Within h' w z ↔ Within h c z := by
  have hwx := m.within_in hf hx hin hw
  constructor
  · intro hwz
    rcases inside_total hwx hwz with h1 | h1
    · rcases ReflTransGen.cases_head h1 with e | ⟨d, hd, hdz⟩
      · exact absurd (e ▸ .refl) hz
      · have : d = c := by rw [Par, m.here] at hd; injection hd with hd; exact hd.symm
        subst this
        exact m.within_back hf hdz hcs hct hin
    · exact absurd (m.within_back hf h1 hzs hzt hz) hz
  · intro hcz
    exact hwx.trans (ReflTransGen.head m.here (m.within_keep hf hcz hcs hct hin))

/-- The new things aren't layers. -/
theorem Put.found_old (m : Put h x c h') {w z : ℕ} (hw : w ∈ h'.findLayers z) : w < h.size := by
  rw [mem_findLayers m.forest] at hw
  by_contra hc
  obtain ⟨d, hd, -⟩ := TransGen.head'_iff.1 hw.1
  exact m.fresh w d (by omega) (isTag_of_layer hw.2) hd

theorem Put.found (hf : Forest h) (m : Put h x c h') (hx : x < h.size) (hxl : isLayer (h.bare x) = true)
    (hct : (h.bare c).isTag = true) (hcs : c < h.size) (hin : ¬ Within h c x) {z : ℕ} (hzs : z < h.size)
    (hzt : (h.bare z).isTag = true) :
    (Within h z x → ∀ w, w ∈ h'.findLayers z ↔ w ∈ h.findLayers z) ∧
    (¬ Within h z x → ∀ w, w ∈ h'.findLayers z ↔ (w ∈ h.findLayers z ∧ ¬ (w = x ∨ w ∈ h.findLayers x)) ∨
      (Within h c z ∧ (w = x ∨ w ∈ h.findLayers x))) := by
  have hX : ∀ w, (w = x ∨ w ∈ h.findLayers x) ↔ Within h w x ∧ isLayer (h.bare w) = true := by
    intro w
    rw [mem_findLayers hf, transGen_iff hf]
    constructor
    · rintro (rfl | ⟨⟨h1, -⟩, h2⟩)
      · exact ⟨.refl, hxl⟩
      · exact ⟨h1, h2⟩
    · rintro ⟨h1, h2⟩
      by_cases e : w = x
      · exact Or.inl e
      · exact Or.inr ⟨⟨h1, e⟩, h2⟩
  have old : ∀ w, w ∈ h.findLayers z → w < h.size := fun w hw => by
    obtain ⟨d, hd, -⟩ := TransGen.head'_iff.1 ((mem_findLayers hf).1 hw).1
    exact (hf.made d w hd).2
  have same : ∀ w, w < h.size → ((Within h' w z ∧ isLayer (h.bare w) = true) ↔ (Within h w z ∧ isLayer (h.bare w) = true)) →
      (w ∈ h'.findLayers z ↔ w ∈ h.findLayers z) := by
    intro w hw hiff
    rw [mem_findLayers hf, mem_findLayers m.forest, transGen_iff hf, transGen_iff m.forest, m.bare hw]
    tauto
  refine ⟨fun hz w => ?_, fun hz w => ?_⟩
  · by_cases hw : w < h.size
    · refine same w hw ?_
      by_cases hl : isLayer (h.bare w) = true
      · have ht := isTag_of_layer hl
        simp only [hl, and_true]
        by_cases hwx : Within h w x
        · exact m.within_inside hf hx hct hcs hin hz hwx ht
        · exact ⟨fun h1 => m.within_back hf h1 hw ht hwx, fun h1 => m.within_keep hf h1 hw ht hwx⟩
      · simp [hl]
    · exact ⟨fun h1 => absurd (m.found_old h1) hw, fun h1 => absurd (old w h1) hw⟩
  · rw [hX]
    by_cases hw : w < h.size
    · by_cases hl : isLayer (h.bare w) = true
      · have ht := isTag_of_layer hl
        by_cases hwx : Within h w x
        · have : w ≠ z := by rintro rfl; exact hz hwx
          rw [mem_findLayers m.forest, transGen_iff m.forest, m.bare hw,
            m.within_outside hf hx hct hcs hin hzs hzt hz hwx]
          simp only [this, ne_eq, not_false_eq_true, and_true, hl, hwx, not_true_eq_false, and_false, false_or]
        · rw [same w hw ?_]
          · simp only [hwx, false_and, not_false_eq_true, and_true, and_false, or_false]
          · simp only [hl, and_true]
            exact ⟨fun h1 => m.within_back hf h1 hw ht hwx, fun h1 => m.within_keep hf h1 hw ht hwx⟩
      · rw [same w hw (by simp [hl])]
        simp only [hl, and_false, not_false_eq_true, and_true, or_false, Bool.false_eq_true]
    · refine ⟨fun h1 => absurd (m.found_old h1) hw, ?_⟩
      rintro (⟨h1, -⟩ | ⟨-, h1, -⟩)
      · exact absurd (old w h1) hw
      · exact absurd (inside_made hf h1 hx) hw

end

/-- C174. When a layer has been appended to or inserted in a group: the layer and the layers below it find the same as before. Every
other layer, and every animation, finds what it found before, but for the layer and those below it; and if it is the group or has
the group in it, it finds these too. -/
theorem c174_found {h h' : Dom} (hf : Forest h) {o : MoveOp} {c : ℕ} {l : List ℕ} (hh : HolderAt h o.group.1 o.group.2 c)
    (hl : h.children o.group.1 o.group.2 = .ok l) (hx : o.layer < h.size) (hxl : isLayer (h.bare o.layer) = true)
    (hin : ¬ Within h c o.layer) (ho : o.run h = (h', .ok ())) {z : ℕ} (hzs : z < h.size) (hzt : (h.bare z).isTag = true) :
    (Within h z o.layer → ∀ w, w ∈ h'.findLayers z ↔ w ∈ h.findLayers z) ∧
    (¬ Within h z o.layer → ∀ w, w ∈ h'.findLayers z ↔
      (w ∈ h.findLayers z ∧ ¬ (w = o.layer ∨ w ∈ h.findLayers o.layer)) ∨
      (Within h c z ∧ (w = o.layer ∨ w ∈ h.findLayers o.layer))) := by
  have m := run_put hf hh hl hx hin ho
  exact m.found hf hx hxl (isTag_of_canvas hh.1) (inside_made hf (canvas_inside hf (holderAt_canvas hf hh)) hh.2.1) hin hzs hzt

open Classical in
/-- C174. So `len` of every other layer and animation goes up by one and `len` of the layer, if the layer is now below it and wasn't
before; it goes down by as much if it was and isn't; and it stays the same otherwise. `len` of the layer and of those below it stays
the same. -/
theorem c174_len {h h' : Dom} (hf : Forest h) {o : MoveOp} {c : ℕ} {l : List ℕ} (hh : HolderAt h o.group.1 o.group.2 c)
    (hl : h.children o.group.1 o.group.2 = .ok l) (hx : o.layer < h.size) (hxl : isLayer (h.bare o.layer) = true)
    (hin : ¬ Within h c o.layer) (ho : o.run h = (h', .ok ())) {z : ℕ} (hzs : z < h.size) (hzt : (h.bare z).isTag = true) :
    (Within h z o.layer → layerLen (h'.node z) = layerLen (h.node z)) ∧
    (¬ Within h z o.layer →
      layerLen (h'.node z) + (if Within h o.layer z then 1 + layerLen (h.node o.layer) else 0) =
      layerLen (h.node z) + (if Within h c z then 1 + layerLen (h.node o.layer) else 0)) := by
  obtain ⟨f1, f2⟩ := c174_found hf hh hl hx hxl hin ho hzs hzt
  have hf' := (run_put hf hh hl hx hin ho).forest
  rw [len_eq hf, len_eq hf', len_eq hf]
  have card : ∀ {h : Dom} (_ : Forest h) (z : ℕ), (h.findLayers z).length = (h.findLayers z).toFinset.card :=
    fun hf z => (List.toFinset_card_of_nodup (findLayers_nodup hf z)).symm
  refine ⟨fun hz => ?_, fun hz => ?_⟩
  · rw [card hf, card hf']
    congr 1
    ext w
    rw [List.mem_toFinset, List.mem_toFinset, f1 hz w]
  · set x := o.layer with hxe
    have hxx : x ∉ (h.findLayers x).toFinset := by
      rw [List.mem_toFinset, mem_findLayers hf]
      exact fun hm => hf.acyclic x hm.1
    set X : Finset ℕ := Insert.insert x (h.findLayers x).toFinset with hX
    have hXc : X.card = 1 + (h.findLayers x).length := by
      rw [hX, Finset.card_insert_of_notMem hxx, card hf, add_comm]
    have hXw : ∀ w ∈ X, Within h w x ∧ isLayer (h.bare w) = true := by
      intro w hw
      rw [hX, Finset.mem_insert, List.mem_toFinset, mem_findLayers hf] at hw
      rcases hw with rfl | ⟨h1, h2⟩
      · exact ⟨.refl, hxl⟩
      · exact ⟨h1.to_reflTransGen, h2⟩
    have hS : (h'.findLayers z).toFinset = ((h.findLayers z).toFinset \ X) ∪ (if Within h c z then X else ∅) := by
      ext w
      rw [List.mem_toFinset, f2 hz w, Finset.mem_union, Finset.mem_sdiff, List.mem_toFinset, hX, Finset.mem_insert,
        List.mem_toFinset]
      split
      · next hc => simp only [hc, true_and, Finset.mem_insert, List.mem_toFinset]
      · next hc => simp only [hc, false_and, Finset.notMem_empty]
    have hd : Disjoint ((h.findLayers z).toFinset \ X) (if Within h c z then X else ∅) := by
      split
      · exact Finset.sdiff_disjoint
      · exact Finset.disjoint_empty_right _
    have hin1 : ((h.findLayers z).toFinset \ X).card + (if Within h x z then X.card else 0) = (h.findLayers z).toFinset.card := by
      split
      · next hxz =>
        refine Finset.card_sdiff_add_card_eq_card fun w hw => ?_
        obtain ⟨h1, h2⟩ := hXw w hw
        rw [List.mem_toFinset, mem_findLayers hf, transGen_iff hf]
        exact ⟨⟨h1.trans hxz, by rintro rfl; exact hz h1⟩, h2⟩
      · next hxz =>
        rw [Finset.sdiff_eq_self_of_disjoint, add_zero]
        rw [Finset.disjoint_left]
        intro w hw hw'
        obtain ⟨h1, -⟩ := hXw w hw'
        rw [List.mem_toFinset, mem_findLayers hf] at hw
        rcases inside_total h1 hw.1.to_reflTransGen with h3 | h3
        · exact hxz h3
        · exact hz h3
    rw [card hf', hS, Finset.card_union_of_disjoint hd, ← hXc, card hf z, ← hin1]
    split <;> split <;> (try simp only [Finset.card_empty]) <;> omega

/-! ## Any number of moves -/

/-- An operation, whether or not it is refused. -/
theorem run_any {h : Dom} (hf : Forest h) {o : MoveOp} {c : ℕ} {l : List ℕ} (hh : HolderAt h o.group.1 o.group.2 c)
    (hl : h.children o.group.1 o.group.2 = .ok l) (hx : o.layer < h.size) (hin : ¬ Within h c o.layer) :
    Put h o.layer c (o.run h).1 ∨ Put h h.size c (o.run h).1 ∨ (o.run h).1 = h := by
  cases o with
  | append k g x =>
    simp only [MoveOp.run, MoveOp.group, MoveOp.layer] at *
    by_cases hlast : l.getLast? = some x
    · rw [c71_append_last_child_fails hf hl hlast]
      exact Or.inr (Or.inr rfl)
    · exact Or.inl (append_put hf hh hl hx hin hlast)
  | insert k g i x =>
    simp only [MoveOp.run, MoveOp.group, MoveOp.layer] at *
    cases hi : pyIndex l i with
    | error e =>
      right; right
      rw [Dom.groupInsert, hl]
      simp only [hi]
    | ok y =>
      by_cases hxy : x = y
      · subst hxy
        exact Or.inr (Or.inl (insert_self_put hf hh hl hi).2.1)
      · exact Or.inl (insert_put hf hh hl hi hx hin hxy)

theorem not_within_new {h : Dom} (hf : Forest h) {z : ℕ} (hz : z < h.size) : ¬ Within h z h.size := by
  intro hw
  rcases ReflTransGen.cases_tail hw with e | ⟨b, -, hb⟩
  · omega
  · exact absurd (hf.made _ b hb).1 (lt_irrefl _)

/-- What is in `d` stays in it, when something is put somewhere in it. -/
theorem Put.stays {h h' : Dom} (hf : Forest h) {x c d w : ℕ} (m : Put h x c h') (hx : x < h.size)
    (hct : (h.bare c).isTag = true) (hcs : c < h.size) (hin : ¬ Within h c x) (hcd : Within h c d) (hw : w < h.size)
    (hwt : (h.bare w).isTag = true) (hwd : Within h w d) : Within h' w d := by
  by_cases hwx : Within h w x
  · exact (m.within_in hf hx hin hwx).trans (ReflTransGen.head m.here (m.within_keep hf hcd hcs hct hin))
  · exact m.within_keep hf hwd hw hwt hwx

/-- What is the same in `d` after something has been done to groups in it: what is in it, which layers there are, and which objects
there were. -/
structure SameIn (h : Dom) (d : ℕ) (h' : Dom) : Prop where
  size : h.size ≤ h'.size
  bare : ∀ w, w < h.size → h'.bare w = h.bare w
  stays : ∀ w, w < h.size → (h.bare w).isTag = true → Within h w d → Within h' w d
  found : ∀ w, w ∈ h'.findLayers d ↔ w ∈ h.findLayers d

theorem SameIn.trans {h h' h'' : Dom} {d : ℕ} (a : SameIn h d h') (b : SameIn h' d h'') : SameIn h d h'' where
  size := a.size.trans b.size
  bare := fun w hw => (b.bare w (by have := a.size; omega)).trans (a.bare w hw)
  stays := fun w hw ht hd => b.stays w (by have := a.size; omega) (by rw [a.bare w hw]; exact ht) (a.stays w hw ht hd)
  found := fun w => (b.found w).trans (a.found w)

theorem run_sameIn {h : Dom} (hf : Forest h) {o : MoveOp} {c d : ℕ} {l : List ℕ} (hh : HolderAt h o.group.1 o.group.2 c)
    (hl : h.children o.group.1 o.group.2 = .ok l) (hx : o.layer < h.size) (hxl : isLayer (h.bare o.layer) = true)
    (hin : ¬ Within h c o.layer) (hcd : Within h c d) (hxd : Within h o.layer d) (hds : d < h.size)
    (hdc : (h.bare d).name = "canvas") (hdp : h.parent d = none) : SameIn h d (o.run h).1 ∧ (o.run h).1.parent d = none := by
  have hct := isTag_of_canvas hh.1
  have hcs := inside_made hf (canvas_inside hf (holderAt_canvas hf hh)) hh.2.1
  have hdt := isTag_of_canvas hdc
  have hdx : d ≠ o.layer := by
    intro e
    rw [← e] at hxl
    exact (layer_other hxl).1 hdc
  rcases run_any hf hh hl hx hin with m | m | e
  · have hdw : ¬ Within h d o.layer := by
      intro hw
      rcases ReflTransGen.cases_head hw with e | ⟨b, hb, -⟩
      · exact hdx e
      · rw [Par, hdp] at hb; simp at hb
    refine ⟨⟨m.size, fun w hw => m.bare hw, fun w hw ht hd => m.stays hf hx hct hcs hin hcd hw ht hd, fun w => ?_⟩,
      by rw [m.root d hds hdx hdt]; exact hdp⟩
    rw [(m.found hf hx hxl hct hcs hin hds hdt).2 hdw w]
    have sub : (w = o.layer ∨ w ∈ h.findLayers o.layer) → w ∈ h.findLayers d := by
      rintro (rfl | hm)
      · rw [mem_findLayers hf, transGen_iff hf]
        exact ⟨⟨hxd, hdx.symm⟩, hxl⟩
      · rw [mem_findLayers hf] at hm ⊢
        exact ⟨hm.1.trans_left hxd, hm.2⟩
    constructor
    · rintro (h1 | h1)
      · exact h1.1
      · exact sub h1.2
    · intro h1
      by_cases h2 : w = o.layer ∨ w ∈ h.findLayers o.layer
      · exact Or.inr ⟨hcd, h2⟩
      · exact Or.inl ⟨h1, h2⟩
  · have out : ∀ w, w < h.size → ¬ Within h w h.size := fun w hw => not_within_new hf hw
    refine ⟨⟨m.size, fun w hw => m.bare hw, fun w hw ht hd => m.within_keep hf hd hw ht (out w hw), fun w => ?_⟩,
      by rw [m.root d hds (by omega) hdt]; exact hdp⟩
    by_cases hw : w < h.size
    · rw [mem_findLayers hf, mem_findLayers m.forest, transGen_iff hf, transGen_iff m.forest, m.bare hw]
      refine and_congr_left fun hlw => and_congr_left fun _ => ?_
      have ht := isTag_of_layer hlw
      exact ⟨fun h1 => m.within_back hf h1 hw ht (out w hw), fun h1 => m.within_keep hf h1 hw ht (out w hw)⟩
    · refine ⟨fun h1 => absurd (m.found_old h1) hw, fun h1 => ?_⟩
      obtain ⟨b, hb, -⟩ := TransGen.head'_iff.1 ((mem_findLayers hf).1 h1).1
      exact absurd (hf.made b w hb).2 hw
  · rw [e]
    exact ⟨⟨le_rfl, fun _ _ => rfl, fun _ _ _ h => h, fun _ => Iff.rfl⟩, hdp⟩

/-- C174. However often layers of an animation are moved about in it, and whether or not some of it is refused, it has the same
layers, and as many. -/
theorem c174_same_layers {h : Dom} (hf : Forest h) {H : Set (GKind × ℕ × ℕ)} (hH : ∀ a ∈ H, HolderAt h a.1 a.2.1 a.2.2)
    {st : ℕ → List ℕ} (hst : ∀ a ∈ H, h.children a.1 a.2.1 = .ok (st a.2.1)) {ops : List MoveOp} (ho : Orderly H h ops) {d : ℕ}
    (hds : d < h.size) (hdc : (h.bare d).name = "canvas") (hdp : h.parent d = none) (hHd : ∀ a ∈ H, Within h a.2.2 d)
    (hops : ∀ o ∈ ops, o.layer ∈ h.findLayers d) :
    ((runMoves ops h).1.findLayers d).Perm (h.findLayers d) ∧
    layerLen ((runMoves ops h).1.node d) = layerLen (h.node d) := by
  suffices hs : Forest (runMoves ops h).1 ∧ ∀ w, w ∈ (runMoves ops h).1.findLayers d ↔ w ∈ h.findLayers d by
    have hp := (List.perm_ext_iff_of_nodup (findLayers_nodup hs.1 d) (findLayers_nodup hf d)).2 hs.2
    exact ⟨hp, by rw [len_eq hs.1, len_eq hf, hp.length_eq]⟩
  induction ho generalizing st with
  | nil => exact ⟨hf, fun _ => Iff.rfl⟩
  | @cons h o os c h1 h2 h3 h4 h5 _ ih =>
    have hxd := (mem_findLayers hf).1 (hops o (by simp))
    obtain ⟨s, hdp'⟩ := run_sameIn hf (hH _ h1) (hst _ h1) h2 h3 h5 (hHd _ h1) hxd.1.to_reflTransGen hds hdc hdp
    obtain ⟨-, f, g1, g2⟩ := move_step hf hH hst h1 h2 h3 h4 h5
    obtain ⟨i1, i2⟩ := ih f g1 g2 (lt_of_lt_of_le hds s.size) (by rw [s.bare d hds]; exact hdc) hdp'
      (fun a ha => by
        have := hH a ha
        exact s.stays _ (inside_made hf (canvas_inside hf (holderAt_canvas hf this)) this.2.1) (isTag_of_canvas this.1) (hHd a ha))
      (fun o' ho' => (s.found _).2 (hops o' (by simp [ho'])))
    exact ⟨i1, fun w => (i2 w).trans (s.found w)⟩

end Dom

open Dom

/-! ## Examples -/

/-- The star, appended to the group: the group has one layer more, and the animation as many as before. -/
example : ∃ h', exDom.groupAppend .group 1 9 = (h', .ok ()) ∧ layerLen (h'.node 1) = layerLen (exDom.node 1) + 1 ∧
    layerLen (h'.node 0) = layerLen (exDom.node 0) ∧ layerLen (exDom.node 0) = 3 := by
  obtain ⟨h', hr⟩ : ∃ h', exDom.groupAppend .group 1 9 = (h', .ok ()) := ⟨_, Prod.ext rfl (by decide +kernel)⟩
  have out : ∀ z, z ∉ 9 :: exDom.desc 9 → ¬ Within exDom z 9 := fun z => exDom_outside
  have key := fun z hz ht => c174_len exDom_forest (o := .append .group 1 9) (c := 3) (l := [4]) (exHolders_ok _ (.inr rfl))
    (exLists_ok _ (.inr rfl)) (by decide +kernel) (by decide +kernel) (out 3 (by decide +kernel)) hr (z := z) hz ht
  have h1 := (key 1 (by decide +kernel) (by decide +kernel)).2 (out 1 (by decide +kernel))
  have h0 := (key 0 (by decide +kernel) (by decide +kernel)).2 (out 0 (by decide +kernel))
  simp only [MoveOp.layer, within_iff exDom_forest, show layerLen (exDom.node 9) = 0 by decide +kernel,
    show ¬ 9 ∈ 1 :: exDom.desc 1 by decide +kernel, show 3 ∈ 1 :: exDom.desc 1 by decide +kernel,
    show 9 ∈ 0 :: exDom.desc 0 by decide +kernel, show 3 ∈ 0 :: exDom.desc 0 by decide +kernel, if_true, if_false] at h1 h0
  exact ⟨h', hr, by omega, by omega, by decide +kernel⟩

/-- The star to the group, twice, the second time refused; then the circle to the animation. -/
example : ((runMoves [.append .group 1 9, .append .group 1 9, .insert .animation 0 0 4] exDom).1.findLayers 0).Perm [1, 4, 9] := by
  have ho : Orderly exHolders exDom [.append .group 1 9, .append .group 1 9, .insert .animation 0 0 4] := by
    refine orderly_step exDom_forest exHolders_ok exLists_ok (c := 3) (cl := lcStar) (.inr rfl) (by decide +kernel)
      (by decide +kernel) (by decide +kernel) (by decide +kernel) fun f1 g1 l1 => ?_
    refine orderly_step f1 g1 l1 (c := 3) (cl := lcStar) (.inr rfl) (by decide +kernel) (by decide +kernel)
      (by decide +kernel) (by decide +kernel) fun f1 g1 l1 => ?_
    exact orderly_step f1 g1 l1 (c := 0) (cl := lcCircle) (.inl rfl) (by decide +kernel) (by decide +kernel)
      (by decide +kernel) (by decide +kernel) fun _ _ _ => .nil
  have hp := (c174_same_layers exDom_forest exHolders_ok exLists_ok ho (d := 0) (by decide +kernel) (by decide +kernel)
    (by decide +kernel) (by
      rintro a (rfl | rfl)
      · exact .refl
      · exact (within_iff exDom_forest).2 (by decide +kernel)) (by decide +kernel)).1
  exact hp.trans (by decide +kernel)

end Sang
