import Verif.Lemmas.DomNode
import Verif.Props.Layers

/-!
# Documents in memory look as the model of documents as values says: C45, C46, C54
-/

namespace Sang

open Relation Spec Dom

namespace Dom

theorem canvas_outside {h : Dom} (hf : Forest h) {k : GKind} {g c x : ℕ}
    (hc : h.canvas k g = .ok (some c)) (hr : h.parent x = none) (hgx : ¬ Within h g x) :
    ¬ Within h c x := by
  intro hi
  rcases inside_total (canvas_inside hf hc) hi with h1 | h1
  · exact hgx h1
  · rcases ReflTransGen.cases_head h1 with e | ⟨d, hd, _⟩
    · exact hgx (e ▸ .refl)
    · rw [Par, hr] at hd; cases hd

theorem isLayer_bare {h : Dom} (hf : Forest h) (x : ℕ) : isLayer (h.bare x) = isLayer (h.node x) := by
  rw [isLayer, isLayer, (bare_shallow hf x).1, (bare_shallow hf x).2.1]

theorem layerOf_bare {h : Dom} (hf : Forest h) (x : ℕ) : layerOf (h.bare x) = layerOf (h.node x) := by
  rw [layerOf, layerOf, (bare_shallow hf x).2.2]

theorem canvasKids_node {h : Dom} (hf : Forest h) {k : GKind} {g c : ℕ}
    (hc : h.canvas k g = .ok (some c)) : canvasKids k (h.node g) = .ok ((h.kids c).map h.node) := by
  rw [canvasKids, canvas_node hf, hc, ← node_kids hf]
  rfl

theorem putFirst_eq {x y : Node} {A B : List Node} (hA : ∀ w ∈ A, isLayer w = false)
    (hy : isLayer y = true) : putFirst x (A ++ y :: B) = A ++ x :: y :: B := by
  rw [putFirst, if_pos (by simp [hy])]
  have h1 : ∀ w ∈ A, (!isLayer w) = true := fun w hw => by simp [hA w hw]
  rw [List.takeWhile_append_of_pos h1, List.dropWhile_append_of_pos h1,
    List.takeWhile_cons_of_neg (by simp [hy]), List.dropWhile_cons_of_neg (by simp [hy])]
  simp

theorem putFirst_none {x : Node} {A : List Node} (hA : ∀ w ∈ A, isLayer w = false) :
    putFirst x A = A ++ [x] := by
  rw [putFirst, if_neg]
  intro h
  obtain ⟨w, hw, hl⟩ := List.any_eq_true.1 h
  rw [hA w hw] at hl; cases hl

end Dom

/-- C45, in memory. Appending a layer which isn't in a document has the same outcome (success, or which
exception), and makes the group look the same, as the model of documents as values says. -/
theorem c45_in_memory {h : Dom} (hf : Forest h) {k : GKind} {g x : ℕ} (hg : g < h.size)
    (hgt : ∀ s, h.lbl g ≠ .text s) (hx : x < h.size) (hr : h.parent x = none) (hgx : ¬ Within h g x) :
    (h.groupAppend k g x).2 = (groupAppend k (.layer (h.node x)) (h.node g)).2 ∧
    (h.groupAppend k g x).1.node g = (groupAppend k (.layer (h.node x)) (h.node g)).1 := by
  cases hc : h.canvas k g with
  | error e =>
    have : canvasKids k (h.node g) = .error e := by rw [canvasKids, canvas_node hf, hc]; rfl
    simp only [Dom.groupAppend, hc, groupAppend, this, and_self]
  | ok o =>
    cases o with
    | none =>
      have : canvasKids k (h.node g) = .error .attr := by rw [canvasKids, canvas_node hf, hc]; rfl
      simp only [Dom.groupAppend, hc, groupAppend, this, and_self]
    | some c =>
      have hin := canvas_outside hf hc hr hgx
      have hcs : c < h.size := inside_made hf (canvas_inside hf hc) hg
      have hnot : ∀ z, x ∉ h.kids z := fun z hm => by
        have := (hf.child z x).1 hm
        rw [Par, hr] at this; cases this
      have hct : ∀ s, h.lbl c ≠ .text s := by
        refine canvas_tag hf hc ?_
        cases e : h.lbl g with
        | text s => exact absurd e (hgt s)
        | tag n a => simp [bare, e, Node.isTag]
      have fin : ∀ (l : List ℕ) (h' : Dom), Moved h x c l h' →
          l.map h.node = putFirst (h.node x) ((h.kids c).map h.node) →
          (∀ w ∈ l, w = x ∨ w ∈ h.kids c) →
          h'.node g = updCanvas k (putFirst (h.node x)) (h.node g) := by
        intro l h' m hl hmem
        refine canvas_upd hf m.forest hc hct ?_ (fun z _ hzc _ => ?_) (fun z _ => by rw [m.lbl])
        · rw [← hl, m.here]
          apply List.map_congr_left
          intro w hw
          refine m.node_other hf hr fun hi => ?_
          rcases hmem w hw with rfl | hw
          · exact hin hi
          · exact hf.acyclic c (TransGen.tail' hi ((hf.child c w).1 hw))
        · rw [m.there z hzc, filter_ne_self (hnot z)]
      rw [groupAppend]
      simp only [canvasKids_node hf hc]
      rw [Dom.groupAppend, hc]
      simp only
      cases hfd : (h.kids c).find? fun y => isLayer (h.bare y) with
      | none =>
        obtain ⟨m, e⟩ := append_moved hf hcs hx hct hin
        refine ⟨e, ?_⟩
        rw [filter_ne_self (hnot c)] at m
        refine fin _ _ m ?_ (fun w hw => ?_)
        · rw [putFirst_none]
          · simp
          · intro w hw
            obtain ⟨z, hz, rfl⟩ := List.mem_map.1 hw
            rw [← isLayer_bare hf]
            simpa using List.find?_eq_none.1 hfd z hz
        · rcases List.mem_append.1 hw with hw | hw
          · exact .inr hw
          · exact .inl (by simpa using hw)
      | some y =>
        obtain ⟨hy, A, B, e, hA⟩ := List.find?_eq_some_iff_append.1 hfd
        have hyc : Par h y c := (hf.child c y).1 (by rw [e]; simp)
        have hxy : x ≠ y := by rintro rfl; exact hnot c (by rw [e]; simp)
        have hxA : x ∉ A := fun hm => hnot c (by rw [e]; simp [hm])
        have hxB : x ∉ B := fun hm => hnot c (by rw [e]; simp [hm])
        obtain ⟨⟨m, e'⟩, _⟩ := beside_moved hf hyc hxy hx hin e
        rw [filter_ne_self hxA, filter_ne_self hxB] at m
        refine ⟨e', fin _ _ m ?_ (fun w hw => ?_)⟩
        · rw [e]
          simp only [List.map_append, List.map_cons]
          rw [putFirst_eq]
          · intro w hw
            obtain ⟨z, hz, rfl⟩ := List.mem_map.1 hw
            rw [← isLayer_bare hf]
            simpa using hA z hz
          · rw [← isLayer_bare hf]; exact hy
        · rw [e]
          simp only [List.mem_append, List.mem_cons] at hw ⊢
          tauto

namespace Dom

theorem mapRes_asLayer_node {h : Dom} (hf : Forest h) (l : List ℕ) :
    match mapRes (fun x => (layerOf (h.bare x)).map fun _ => x) l with
    | .error e => mapRes asLayer (l.map h.node) = .error e
    | .ok _ => ∃ r, mapRes asLayer (l.map h.node) = .ok r ∧ r.length = l.length := by
  induction l with
  | nil => exact ⟨[], rfl, rfl⟩
  | cons x l ih =>
    rw [mapRes, List.map_cons, mapRes, layerOf_bare hf, asLayer]
    cases hx : layerOf (h.node x) with
    | error e => simp [Except.map]
    | ok c =>
      have e1 : (Except.map (fun _ => x) (Except.ok c : Res LClass)) = .ok x := rfl
      simp only [e1]
      cases hr : mapRes (fun x => (layerOf (h.bare x)).map fun _ => x) l with
      | error e => rw [hr] at ih; simp only at ih ⊢; rw [ih]
      | ok l' =>
        rw [hr] at ih
        obtain ⟨r, i1, i2⟩ := ih
        exact ⟨(c, h.node x) :: r, by rw [i1], by simp [i2]⟩

theorem map_filter_reverse {h : Dom} (hf : Forest h) (l : List ℕ) :
    (l.reverse.filter fun x => isLayer (h.bare x)).map h.node = (l.map h.node).reverse.filter isLayer := by
  rw [← List.map_reverse, List.filter_map]
  congr 1
  apply List.filter_congr
  intro x _
  exact isLayer_bare hf x

theorem putAfter_eq {y : Node} (xs : List Node) (A B : List Node) (hy : isLayer y = true) :
    putAfter xs (A.filter isLayer).length (A ++ y :: B) = A ++ y :: (xs ++ B) := by
  induction A with
  | nil => simp [putAfter, hy]
  | cons w A ih =>
    by_cases hw : isLayer w = true
    · rw [List.filter_cons_of_pos hw, List.length_cons, List.cons_append, putAfter, if_pos hw, ih]; rfl
    · rw [List.filter_cons_of_neg hw]
      cases hn : (A.filter isLayer).length with
      | zero => rw [hn] at ih; rw [List.cons_append, putAfter, if_neg hw, ih]; rfl
      | succ n => rw [hn] at ih; rw [List.cons_append, putAfter, if_neg hw, ih]; rfl

theorem pyIndex_ok {α : Type} {l : List α} {i : ℤ} {y : α} (hi : pyIndex l i = .ok y) :
    l[(if i < 0 then i + l.length else i).toNat]? = some y := by
  unfold pyIndex at hi
  dsimp only at hi
  generalize (if i < 0 then i + (l.length : ℤ) else i) = j at hi ⊢
  split at hi
  · simp at hi
  · split at hi
    · simp at hi
    · next z hz => injection hi with hi; subst hi; exact hz

theorem pyIndex_length {α β : Type} {l : List α} {m : List β} (hl : l.length = m.length) (i : ℤ) :
    (∀ e, pyIndex l i = .error e → pyIndex m i = .error e) ∧
    ∀ y, pyIndex l i = .ok y → ∃ z, pyIndex m i = .ok z := by
  unfold pyIndex
  rw [hl]
  dsimp only
  generalize (if i < 0 then i + (m.length : ℤ) else i) = j
  by_cases hj : j < 0
  · simp [hj]
  · simp only [if_neg hj]
    by_cases hm : j.toNat < m.length
    · rw [List.getElem?_eq_getElem hm, List.getElem?_eq_getElem (hl ▸ hm)]
      simp
    · rw [List.getElem?_eq_none (by omega), List.getElem?_eq_none (by omega)]
      simp

end Dom

/-- C46, in memory: the same for inserting. -/
theorem c46_in_memory {h : Dom} (hf : Forest h) {k : GKind} {g x : ℕ} (hg : g < h.size)
    (hgt : ∀ s, h.lbl g ≠ .text s) (hx : x < h.size) (hr : h.parent x = none) (hgx : ¬ Within h g x)
    (i : ℤ) :
    (h.groupInsert k g i x).2 = (groupInsert k i (.layer (h.node x)) (h.node g)).2 ∧
    (h.groupInsert k g i x).1.node g = (groupInsert k i (.layer (h.node x)) (h.node g)).1 := by
  cases hc : h.canvas k g with
  | error e =>
    have h1 : canvasKids k (h.node g) = .error e := by rw [canvasKids, canvas_node hf, hc]; rfl
    simp only [Dom.groupInsert, Dom.children, hc, groupInsert, children, h1, and_self]
  | ok o =>
    cases o with
    | none =>
      have h1 : canvasKids k (h.node g) = .error .attr := by rw [canvasKids, canvas_node hf, hc]; rfl
      simp only [Dom.groupInsert, Dom.children, hc, groupInsert, children, h1, and_self]
    | some c =>
      have hin := canvas_outside hf hc hr hgx
      have hcs : c < h.size := inside_made hf (canvas_inside hf hc) hg
      have hnot : ∀ z, x ∉ h.kids z := fun z hm => by
        have := (hf.child z x).1 hm
        rw [Par, hr] at this; cases this
      have hct : ∀ s, h.lbl c ≠ .text s := by
        refine canvas_tag hf hc ?_
        cases e : h.lbl g with
        | text s => exact absurd e (hgt s)
        | tag n a => simp [bare, e, Node.isTag]
      have hmap := mapRes_asLayer_node hf ((h.kids c).reverse.filter fun x => isLayer (h.bare x))
      rw [map_filter_reverse hf] at hmap
      have hch : Dom.children h k g = mapRes (fun x => (layerOf (h.bare x)).map fun _ => x)
          ((h.kids c).reverse.filter fun x => isLayer (h.bare x)) := by rw [Dom.children, hc]
      have hcv : children k (h.node g) =
          mapRes asLayer (((h.kids c).map h.node).reverse.filter isLayer) := by
        rw [children, canvasKids_node hf hc]
      rw [← hch, ← hcv] at hmap
      rw [groupInsert]
      simp only
      cases hl : h.children k g with
      | error e =>
        rw [hl] at hmap
        simp only at hmap
        rw [hmap, Dom.groupInsert, hl]
        exact ⟨rfl, rfl⟩
      | ok l =>
        rw [hl] at hmap
        obtain ⟨r, hr1, hr2⟩ := hmap
        obtain ⟨hl', hall⟩ := (children_iff hc l).1 hl
        have hlr : l.length = r.length := by
          rw [hr2, hl', layersOf_eq, List.filter_reverse]
        rw [hr1]
        simp only
        cases hi : pyIndex l i with
        | error e =>
          rw [(pyIndex_length hlr i).1 e hi, Dom.groupInsert, hl]
          simp only [hi, and_self]
        | ok y =>
          obtain ⟨w, hw⟩ := (pyIndex_length hlr i).2 y hi
          rw [hw]
          simp only
          have hy := pyIndex_ok hi
          have hyl := pyIndex_mem hi
          rw [hl', List.mem_reverse, layersOf_eq, List.mem_filter] at hyl
          obtain ⟨A, B, hk⟩ := List.append_of_mem hyl.1
          have hxy : x ≠ y := by rintro rfl; exact hnot c hyl.1
          have hxA : x ∉ A := fun hm => hnot c (by rw [hk]; simp [hm])
          have hxB : x ∉ B := fun hm => hnot c (by rw [hk]; simp [hm])
          obtain ⟨h4, n, n', e, f4, k4, ln, ln', lb, hkq, hpx, can4⟩ :=
            groupInsert_spec hf hg hc hl hi hx hin hxy hk
          rw [filter_ne_self hxA, filter_ne_self hxB] at k4
          rw [e]
          refine ⟨rfl, ?_⟩
          have hlAB : l = (layersOf h B).reverse ++ y :: (layersOf h A).reverse := by
            rw [hl', hk, layersOf_eq, List.filter_append, List.filter_cons_of_pos (by exact hyl.2),
              ← layersOf_eq, ← layersOf_eq]
            simp
          have hj : (if i < 0 then i + (r.length : ℤ) else i).toNat = (layersOf h B).length := by
            rw [← hlr]
            have hn : l.Nodup := by
              rw [hl', List.nodup_reverse, layersOf_eq]; exact (hf.nodup c).filter _
            have h2 : l[(layersOf h B).length]? = some y := by
              rw [hlAB, List.getElem?_append_right (by simp)]; simp
            exact (List.getElem?_inj (List.getElem?_eq_some_iff.1 hy).1 hn).1 (hy.trans h2.symm)
          have hnum : r.length - 1 - (layersOf h B).length = ((A.map h.node).filter isLayer).length := by
            rw [← hlr, hlAB, List.filter_map, List.length_map, layersOf_eq, layersOf_eq]
            have : List.filter (isLayer ∘ h.node) A = List.filter (fun x => isLayer (h.bare x)) A :=
              List.filter_congr fun z _ => (isLayer_bare hf z).symm
            rw [this]
            simp only [List.length_append, List.length_reverse, List.length_cons]
            omega
          have other : ∀ w, w < h.size → ¬ Within h c w → h4.node w = h.node w := fun w hws hcw => by
            refine node_congr hf f4 w fun z hz => ⟨?_, lb z (inside_made hf hz hws)⟩
            rw [hkq z fun e => hcw (e ▸ hz), filter_ne_self (hnot z)]
          have hABo : ∀ w, w = x ∨ w ∈ h.kids c → h4.node w = h.node w := by
            rintro w (rfl | hw)
            · exact other w hx hin
            · have hwc := (hf.child c w).1 hw
              exact other w (hf.made c w hwc).2 fun hi => hf.acyclic c (TransGen.tail' hi hwc)
          refine canvas_upd hf f4 hc hct ?_ (fun z hz hzc _ => ?_) (fun z hz => lb z (inside_made hf hz hg))
          · rw [hj, hnum, hk, List.map_append, List.map_cons, putAfter_eq]
            · rw [k4, List.map_append]
              simp only [List.map_cons]
              rw [node_text ln, node_text ln', hABo x (.inl rfl), hABo y (.inr hyl.1),
                List.map_congr_left fun w hw => hABo w (.inr (by rw [hk]; simp [hw])),
                List.map_congr_left (l := B) fun w hw => hABo w (.inr (by rw [hk]; simp [hw]))]
              rfl
            · rw [← isLayer_bare hf]; exact hyl.2
          · rw [hkq z hzc, filter_ne_self (hnot z)]

/-! ## Params -/

namespace Dom

/-- What `_name_and_value_of` sees of a param. -/
theorem nameAndValue_node {h : Dom} (hf : Forest h) {f : Str} {p : ℕ}
    (hp : isParam f (h.bare p) = true) :
    nameAndValue (h.node p) = match (h.kids p).filter fun x => (h.bare x).isTag with
      | [v] => match fromTag (h.node v) with
        | .error e => .error e
        | .ok c => .ok (f, c, h.node v)
      | _ => .error .attr := by
  rw [(shallow_isParam f).bare hf, isParam, Bool.and_eq_true] at hp
  have hn : (h.node p).name = "param" := by simpa using hp.1
  have ha : (h.node p).attrs.get "name" = some (.str f) := by simpa using hp.2
  have ht : (h.node p).tagKids = ((h.kids p).filter fun x => (h.bare x).isTag).map h.node := by
    rw [Node.tagKids, node_kids hf, List.filter_map]
    congr 1
    exact List.filter_congr fun x _ => (bare_shallow hf x).1.symm
  rw [nameAndValue, if_neg (by simp [hn]), ha, ht]
  rcases (h.kids p).filter fun x => (h.bare x).isTag with _ | ⟨v, _ | ⟨w, r⟩⟩
  · rfl
  · simp only [List.map_cons, List.map_nil]
    cases fromTag (h.node v) <;> rfl
  · rfl

/-- Putting something that is nowhere in place of a param's value. -/
theorem replace_node {h : Dom} (hf : Forest h) {f : Str} {a p old v : ℕ}
    (hp : h.find? (isParam f) a = some p)
    (hk : ((h.kids p).filter fun x => (h.bare x).isTag) = [old]) (hv : v < h.size)
    (hr : h.parent v = none) (hin : ¬ Within h p v) :
    (h.replaceWith old v).2 = .ok () ∧
    (h.replaceWith old v).1.node a = updFirst (isParam f) (replaceValue (h.node v)) (h.node a) := by
  obtain ⟨po1, po2, po3⟩ := filter_single hk
  have pp := (hf.child p old).1 po1
  have hne : v ≠ old := by rintro rfl; rw [Par, hr] at pp; cases pp
  obtain ⟨A, B, hAB⟩ := List.append_of_mem po1
  obtain ⟨m, e⟩ := replaced hf pp hne hv hin hAB
  have hnot : ∀ z, v ∉ h.kids z := fun z hm => by
    have := (hf.child z v).1 hm
    rw [Par, hr] at this; cases this
  have hvA : v ∉ A := fun hm => hnot p (by rw [hAB]; simp [hm])
  have hvB : v ∉ B := fun hm => hnot p (by rw [hAB]; simp [hm])
  rw [filter_ne_self hvA, filter_ne_self hvB] at m
  refine ⟨e, ?_⟩
  have hAt : ∀ w, w ∈ A ∨ w ∈ B → (h.bare w).isTag = false := by
    intro w hw
    cases hb : (h.bare w).isTag with
    | false => rfl
    | true =>
      have := po3 w (by rw [hAB]; simp; tauto) hb
      subst this
      have hn := hf.nodup p
      rw [hAB, List.nodup_middle] at hn
      exact absurd (by simpa using hw) (List.nodup_cons.1 hn).1
  have other : ∀ w, w ∈ A ∨ w ∈ B → (h.replaceWith old v).1.node w = h.node w := by
    intro w hw
    cases e : h.lbl w with
    | text s => rw [node_text e, node_text (by rw [m.lbl]; exact e)]
    | tag n a => have := hAt w hw; simp [bare, e, Node.isTag] at this
  have hG : (h.replaceWith old v).1.node p = replaceValue (h.node v) (h.node p) := by
    cases e : h.lbl p with
    | text s => exact absurd e (tag_of_kid hf pp s)
    | tag n a =>
      rw [node_tag m.forest (by rw [m.lbl]; exact e), node_tag hf e, replaceValue]
      simp only [Node.setKids, Node.kids]
      congr 1
      rw [m.here, hAB]
      simp only [List.map_append, List.map_cons, List.map_map]
      have keep : ∀ l : List ℕ, (∀ w ∈ l, w ∈ A ∨ w ∈ B) → l.map (h.replaceWith old v).1.node =
          l.map ((fun x => if x.isTag = true then h.node v else x) ∘ h.node) := by
        intro l hl
        apply List.map_congr_left
        intro w hw
        have := hAt w (hl w hw)
        rw [(bare_shallow hf w).1] at this
        simp [other w (hl w hw), this]
      rw [keep A fun w hw => .inl hw, keep B fun w hw => .inr hw, m.node_new hf hin]
      rw [(bare_shallow hf old).1] at po2
      simp [po2]
  refine upd_node hf m.forest (shallow_isParam f) (tagOnly_isParam f) hG a hp fun z hz hn => ⟨?_, by rw [m.lbl]⟩
  rw [m.there z fun e => hn (e ▸ .refl), filter_ne_self (hnot z)]

end Dom

/-- C54, in memory. `layer[f]` shows what the model of documents as values says. -/
theorem c54_reads_in_memory {h : Dom} (hf : Forest h) (a : ℕ) (f : Str) :
    getParam f (h.node a) = (h.getItem a f).map fun r => (r.1, h.node r.2) := by
  rw [getParam, findParam_node hf, Dom.getItem]
  cases hp : h.find? (isParam f) a with
  | none => rfl
  | some p =>
    simp only [Option.map_some]
    rw [nameAndValue_node hf ((find_iff hf _ _ _).1 hp).2.1]
    rcases (h.kids p).filter fun x => (h.bare x).isTag with _ | ⟨v, _ | ⟨w, r⟩⟩
    · rfl
    · simp only
      cases fromTag (h.node v) <;> rfl
    · rfl

/-- C54, in memory. `layer[f] = x`, for anything but a value object, has the same outcome (success, or
which exception), and makes the layer look the same, as the model of documents as values says. -/
theorem c54_writes_in_memory {h : Dom} (hf : Forest h) (F : Fl) {a : ℕ} (ha : a < h.size) (f : Str)
    (x : PV) (hx : ∀ c r m, x ≠ .val c r m) :
    (h.setPlain F a f x).2 = (setParam F f x (h.node a)).2 ∧
    (h.setPlain F a f x).1.node a = (setParam F f x (h.node a)).1 := by
  have hni : ∀ c, newItem F c x = newValue F c x := by
    intro c
    cases x <;> first | rfl | exact absurd rfl (hx _ _ _)
  rw [setParam, findParam_node hf, setPlain, Dom.getItem]
  cases hp : h.find? (isParam f) a with
  | none => exact ⟨rfl, rfl⟩
  | some p =>
    simp only [Option.map_some]
    rw [nameAndValue_node hf ((find_iff hf _ _ _).1 hp).2.1]
    rcases hk : (h.kids p).filter fun x => (h.bare x).isTag with _ | ⟨v, _ | ⟨w, r⟩⟩
    · exact ⟨rfl, rfl⟩
    · simp only
      cases hc : fromTag (h.node v) with
      | error e => exact ⟨rfl, rfl⟩
      | ok c =>
        simp only [hni]
        cases hm : newValue F c x with
        | error e => exact ⟨rfl, rfl⟩
        | ok m =>
          simp only
          have mk := alloc_made hf m
          have hps : p < h.size := inside_made hf ((find_iff hf _ _ _).1 hp).1.to_reflTransGen ha
          have := replace_node mk.forest (mk.ext.find hf mk.forest ha hp) (old := v) (v := (h.alloc m).2)
            (by
              rw [mk.ext.kids p hps, ← hk]
              apply List.filter_congr
              intro z hz
              rw [bare_congr (h := h) (mk.ext.lbl z (hf.made p z ((hf.child p z).1 hz)).2)])
            mk.size mk.root (mk.fresh hf hps)
          rw [mk.node, mk.ext.node hf mk.forest ha] at this
          exact this
    · exact ⟨rfl, rfl⟩

/-- C54, in memory. The same for a value object whose element isn't in any document. -/
theorem c54_object_in_memory {h : Dom} (hf : Forest h) (F : Fl) {a : ℕ} (f : Str)
    {c' : VCls} {v : ℕ} (hv : v < h.size) (hr : h.parent v = none) (hav : ¬ Within h a v)
    (r : Option Attrs) :
    (h.setItem a f (c', v)).2 = (setParam F f (.val c' r (h.node v)) (h.node a)).2 ∧
    (h.setItem a f (c', v)).1.node a = (setParam F f (.val c' r (h.node v)) (h.node a)).1 := by
  rw [setParam, findParam_node hf, Dom.setItem, Dom.getItem]
  cases hp : h.find? (isParam f) a with
  | none => exact ⟨rfl, rfl⟩
  | some p =>
    simp only [Option.map_some]
    rw [nameAndValue_node hf ((find_iff hf _ _ _).1 hp).2.1]
    rcases hk : (h.kids p).filter fun x => (h.bare x).isTag with _ | ⟨w, _ | ⟨w', l⟩⟩
    · exact ⟨rfl, rfl⟩
    · simp only
      cases hc : fromTag (h.node w) with
      | error e => exact ⟨rfl, rfl⟩
      | ok c =>
        simp only [newItem]
        by_cases he : c' = c
        · simp only [if_pos he]
          refine replace_node hf hp hk hv hr fun hi => ?_
          have hpa := ((find_iff hf _ _ _).1 hp).1.to_reflTransGen
          rcases inside_total hpa hi with h1 | h1
          · exact hav h1
          · rcases ReflTransGen.cases_head h1 with e | ⟨d, hd, _⟩
            · exact hav (e ▸ .refl)
            · rw [Par, hr] at hd; cases hd
        · simp only [if_neg he, and_self]
    · exact ⟨rfl, rfl⟩

/-! ## A document in memory -/

/-- A document: a group with a circle in it, and a star. -/
def exDocNode : Node := .tag "canvas" [] [
  .tag "layer" [("type", .str "group".toList)] [.tag "param" [("name", .str "canvas".toList)]
    [.tag "canvas" [] [.tag "layer" [("type", .str "circle".toList)] [exParam "z_depth" (exRealTag "1.0")]]]],
  .tag "layer" [("type", .str "star".toList)] [exParam "z_depth" (exRealTag "2.0")]]

/-- The same in memory, with a new layer: 0 is the document, 1 the group, 3 its canvas, 4 the circle,
7 the circle's value, 9 the star, 12 the star's value, and 14 the new layer. -/
def exDom : Dom := ((Dom.empty.alloc exDocNode).1.alloc (exLayer "text")).1

theorem exDom_forest : Forest exDom := (alloc_made (alloc_made forest_empty _).forest _).forest

theorem within_iff {h : Dom} (hf : Forest h) {x y : ℕ} : Within h x y ↔ x ∈ y :: h.desc y := by
  rw [List.mem_cons, mem_desc hf, Within, reflTransGen_iff_eq_or_transGen]
  constructor <;> rintro (h | h) <;> simp_all

theorem exDom_outside {x y : ℕ} (h : x ∉ y :: exDom.desc y) : ¬ Within exDom x y :=
  fun hi => h ((within_iff exDom_forest).1 hi)

/-- C71 on a concrete document: the star is appended to the group. -/
example : ∃ h', exDom.groupAppend .group 1 9 = (h', .ok ()) ∧ h'.children .group 1 = .ok [4, 9] ∧
    h'.kids 0 = [1] := by
  obtain ⟨h', h1, h2, h3, h4, h5, h6⟩ := c71_append_moves_partial exDom_forest (k := .group) (g := 1)
    (c := 3) (x := 9) (l := [4]) (cl := lcStar) (by decide +kernel) (by decide +kernel)
    (by decide +kernel) (by decide +kernel) (by decide +kernel) (by decide +kernel) (by decide +kernel)
    (exDom_outside (by decide +kernel)) (by decide +kernel)
  exact ⟨h', h1, h2, (h5 0 (by decide)).trans (by decide +kernel)⟩

/-- C71 fails on a concrete document: the star is appended to the document again. -/
example : exDom.groupAppend .animation 0 1 = (exDom, .error .value) :=
  c71_append_last_child_fails (l := [9, 1]) exDom_forest (by decide +kernel) (by decide +kernel)

/-- C95 fails on a concrete document: the group is appended to itself, and is then nowhere in the
document. -/
example : ∃ h', exDom.groupAppend .group 1 1 = (h', .ok ()) ∧ TransGen (Par h') 1 1 := by
  obtain ⟨h', h1, h2, _⟩ := c95_append_makes_cycle exDom_forest (k := .group) (g := 1) (c := 3) (x := 1)
    (by decide +kernel) ((within_iff exDom_forest).2 (by decide +kernel)) (by decide)
  exact ⟨h', h1, h2⟩

/-- C96 on a concrete document: the circle is put before the group it was in. -/
example : ∃ h', exDom.groupInsert .animation 0 1 4 = (h', .ok ()) ∧
    h'.children .animation 0 = .ok [9, 4, 1] ∧ h'.kids 3 = [] := by
  obtain ⟨h', l1, l2, h1, h2, h3, h4, h5, h6, h7⟩ := c96_insert_moves_partial exDom_forest
    (k := .animation) (g := 0) (c := 0) (x := 4) (y := 1) (l := [9, 1]) (i := 1) (cl := lcCircle)
    (by decide +kernel) (by decide +kernel)
    (by decide +kernel) (by decide +kernel) (by decide +kernel) (by decide +kernel) (by decide +kernel)
    (exDom_outside (by decide +kernel)) (by decide)
  refine ⟨h', h1, ?_, (h6 3 (by decide)).trans (by decide +kernel)⟩
  rcases l1 with _ | ⟨a, _ | ⟨b, l1⟩⟩
  · simp at h2
  · simp only [List.cons_append, List.nil_append, List.cons.injEq] at h2
    obtain ⟨rfl, _, rfl⟩ := h2
    exact h3
  · simp at h2

/-- C96 fails on a concrete document: the group at its own place. -/
example : ∃ h', exDom.groupInsert .animation 0 (-1) 1 = (h', .error .value) := by
  obtain ⟨h', h1, _⟩ := c96_insert_at_itself_fails exDom_forest (k := .animation) (g := 0) (c := 0)
    (x := 1) (l := [9, 1]) (i := -1) (by decide +kernel) (by decide +kernel) (by decide +kernel)
  exact ⟨h', h1⟩

/-- C72 fails on a concrete document: the circle is given the star's depth, and the star loses it. -/
example : ∃ h', exDom.setItem 4 "z_depth".toList (.real, 12) = (h', .ok ()) ∧
    h'.getItem 9 "z_depth".toList = .error .attr := by
  obtain ⟨h', h1, _, h3⟩ := c72_source_loses_its_value exDom_forest (a := 4) (b := 9)
    (f := "z_depth".toList) (f' := "z_depth".toList) (c := .real) (old := 7) (v := 12)
    (by decide +kernel) (by decide +kernel) (by decide)
    (fun z hz => by
      have : z ∈ [12] := (within_iff exDom_forest).1 hz
      simp only [List.mem_singleton] at this; subst this; decide +kernel)
    (fun z hz => by
      have : z ∈ [7] := (within_iff exDom_forest).1 hz
      simp only [List.mem_singleton] at this; subst this; decide +kernel)
  exact ⟨h', h1, h3⟩

/-- C97 fails on a concrete document: un-animating the circle's depth gives it a new element. -/
example : ∃ h' v', exDom.unanimate 7 (exRealTag "5.0") = ((h', v'), .ok ()) ∧
    h'.getItem 4 "z_depth".toList = .ok (.real, v') ∧ v' ≠ 7 ∧ h'.parent 7 = none := by
  obtain ⟨h', v', h1, h2, _, h4, h5, _⟩ := c97_unanimating_leaves_others_behind exDom_forest (a := 4)
    (f := "z_depth".toList) (c := .real) (v := 7) (c' := .real) (m := exRealTag "5.0") (by decide +kernel)
    (by decide +kernel) (by decide +kernel)
  exact ⟨h', v', h1, h2, h4, h5⟩

/-- C97 on a concrete document: the circle's depth is set. -/
example : (exDom.rewrite 7 "real" [("value", .str "5.0".toList)] []).getItem 4 "z_depth".toList =
    .ok (.real, 7) :=
  (c97_setting_is_shared_partial exDom_forest (c := .real) (by decide +kernel) (by decide +kernel)).1

/-- C70 on a concrete sequence: a document is read, and the star is moved into the group. -/
example : Reached (run (.append .group 1 9) (run (.make (exLayer "text")) (run (.make exDocNode) .empty))) := by
  refine .step (.step (.step .start trivial) trivial) ⟨by decide +kernel, by decide +kernel, ?_, ?_⟩
  · intro s hs
    have : exDom.lbl 1 = .tag "layer" [("type", .str "group".toList)] := by decide +kernel
    rw [show exDom.lbl 1 = .text s from hs] at this
    cases this
  · intro c hc
    have : exDom.canvas .group 1 = .ok (some 3) := by decide +kernel
    rw [show exDom.canvas .group 1 = .ok (some c) from hc] at this
    obtain rfl : c = 3 := by simpa using this
    exact exDom_outside (by decide +kernel)

/-- C45, C46 and C54 in memory on a concrete document. -/
example : (exDom.groupAppend .group 1 14).1.node 1 =
      (groupAppend .group (.layer (exDom.node 14)) (exDom.node 1)).1 ∧
    (exDom.groupInsert .group 1 0 14).1.node 1 =
      (groupInsert .group 0 (.layer (exDom.node 14)) (exDom.node 1)).1 ∧
    (exDom.setPlain double 4 "z_depth".toList (.float 3)).1.node 4 =
      (setParam double "z_depth".toList (.float 3) (exDom.node 4)).1 := by
  have ht : ∀ s, exDom.lbl 1 ≠ .text s := fun s hs => by
    have : exDom.lbl 1 = .tag "layer" [("type", .str "group".toList)] := by decide +kernel
    rw [hs] at this
    cases this
  exact ⟨(c45_in_memory exDom_forest (by decide +kernel) ht (by decide +kernel) (by decide +kernel)
      (exDom_outside (by decide +kernel))).2,
    (c46_in_memory exDom_forest (by decide +kernel) ht (by decide +kernel) (by decide +kernel)
      (exDom_outside (by decide +kernel)) 0).2,
    (c54_writes_in_memory exDom_forest double (by decide +kernel) _ _ (by simp)).2⟩

end Sang
