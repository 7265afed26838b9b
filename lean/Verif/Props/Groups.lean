import Verif.Lemmas.Layer
import Verif.Lemmas.Timeline
import Verif.Spec.Groups

/-! # Groups: properties C44 to C50 -/

namespace Sang

open Spec

/-! ## Finding the canvas -/

/-- The kind of object that the model is told about. -/
def Spec.Holder.kind : Holder → GKind
  | .group _ => .group
  | .animation _ _ => .animation

theorem isLayer_eq (n : Node) : isLayer n = isLayerElt n := by
  cases n with
  | text s => rfl
  | tag nm a ks => by_cases h : nm = "layer" <;> simp [isLayer, isLayerElt, Node.isTag, Node.name, h]

theorem filter_isLayer (l : List Node) : l.filter isLayer = layersIn l := by
  unfold layersIn
  exact List.filter_congr fun x _ => isLayer_eq x

theorem noneIn_canvas {f : Frame} (h : f.Ok) : NoneIn (isParam "canvas".toList) f.pre := by
  intro y hy
  have := h.first y hy
  simpa [isParam] using this

theorem isParam_canvas {f : Frame} (h : f.Ok) (ks : List Node) :
    isParam "canvas".toList (.tag "param" f.pattrs ks) = true := by
  simp [isParam, Node.name, Node.attrs, h.named]

theorem canvasKids_plug {h : Holder} (hok : h.Ok) (ks : List Node) :
    canvasKids h.kind (h.plug ks) = .ok ks := by
  cases h with
  | animation n a => rfl
  | group f =>
    simp only [Holder.plug, Frame.plug, Holder.kind, canvasKids, canvasTag]
    rw [findParam_at _ _ _ _ _ _ _ _ (noneIn_canvas hok) (isParam_canvas hok _)]
    simp only
    rw [find_at "canvas" (by decide) _ _ _ _ _ _ hok.canvas]
    rfl

theorem updCanvas_plug {h : Holder} (hok : h.Ok) (g : List Node → List Node) (ks : List Node) :
    updCanvas h.kind g (h.plug ks) = h.plug (g ks) := by
  cases h with
  | animation n a => rfl
  | group f =>
    simp only [Holder.plug, Frame.plug, Holder.kind, updCanvas]
    rw [updFirst_at _ _ _ _ _ _ _ _ _ (noneIn_canvas hok) (isParam_canvas hok _)]
    rw [updFirst_at _ _ _ _ _ _ _ _ _ (fun y hy => by simp [hok.canvas y hy]) (by simp [Node.name])]
    rfl

/-- Layer objects for elements: all of them are layers of known types. -/
theorem mapRes_asLayer {xs : List Node} {l : List LObj} :
    mapRes asLayer xs = .ok l ↔ l.map Prod.snd = xs ∧ ∀ x ∈ l, layerOf x.2 = .ok x.1 := by
  induction xs generalizing l with
  | nil =>
    simp only [mapRes]
    constructor
    · intro h; injection h with h; subst h; simp
    · rintro ⟨h, -⟩; rw [List.map_eq_nil_iff.1 h]
  | cons x xs ih =>
    simp only [mapRes, asLayer]
    cases hc : layerOf x with
    | error e =>
      simp only
      constructor
      · intro h; cases h
      · rintro ⟨h, h2⟩
        cases l with
        | nil => simp at h
        | cons y l =>
          simp only [List.map_cons, List.cons.injEq] at h
          have := h2 y (by simp)
          rw [h.1, hc] at this; cases this
    | ok c =>
      simp only
      cases hl : mapRes asLayer xs with
      | error e =>
        simp only
        constructor
        · intro h; cases h
        · rintro ⟨h, h2⟩
          cases l with
          | nil => simp at h
          | cons y l =>
            simp only [List.map_cons, List.cons.injEq] at h
            have := ih.2 ⟨h.2, fun z hz => h2 z (by simp [hz])⟩
            rw [hl] at this; cases this
      | ok m =>
        have him := ih.1 hl
        simp only [Except.ok.injEq]
        constructor
        · rintro rfl
          refine ⟨by simp [him.1], ?_⟩
          intro z hz
          rcases List.mem_cons.1 hz with rfl | hz
          · exact hc
          · exact him.2 z hz
        · rintro ⟨h, h2⟩
          cases l with
          | nil => simp at h
          | cons y l =>
            simp only [List.map_cons, List.cons.injEq] at h
            have h3 := ih.2 ⟨h.2, fun z hz => h2 z (by simp [hz])⟩
            rw [hl] at h3; injection h3 with h3
            have := h2 y (by simp)
            rw [h.1, hc] at this; injection this with this
            rw [h3, this, ← h.1]

/-! ## C44: children -/

/-- C44. The children of a group (or animation) are exactly the layers directly in its canvas, in the
reverse of file order, each with the class its type says. (If some type is unknown, an exception is
raised instead.) -/
theorem c44_children {h : Holder} (hok : h.Ok) (ks : List Node) (l : List LObj) :
    children h.kind (h.plug ks) = .ok l ↔
      l.map Prod.snd = (layersIn ks).reverse ∧ ∀ x ∈ l, layerOf x.2 = .ok x.1 := by
  simp only [children, canvasKids_plug hok]
  rw [List.filter_reverse, filter_isLayer, mapRes_asLayer]

/-- A group which breaks the rules of the file format has no children at all: an exception is
raised. -/
theorem c44_no_canvas_param {n : Node} (h : ∀ x ∈ Node.nodesIn n.kids, ¬ (x.name = "param" ∧
    x.attrs.get "name" = some (.str "canvas".toList))) : children .group n = .error .value := by
  have : findParam "canvas".toList n = none :=
    findParam_none _ _ fun y hy => by simpa [isParam] using h y hy
  simp only [children, canvasKids, canvasTag, this]

/-- The example used below: a group as Synfig writes it, with a param before the canvas. -/
def exFrame : Frame :=
  ⟨"layer", [("type", .str "group".toList), ("version", .str "0.3".toList)],
   [.text ['\n'], .tag "param" [("name", .str "z_depth".toList)] [.tag "real"
      [("value", .str "0.0".toList)] []], .text ['\n']],
   [.text ['\n']], [("name", .str "canvas".toList)], [.text ['\n']], [.text ['\n']], []⟩

theorem exFrame_ok : exFrame.Ok := ⟨rfl, by decide +kernel, by decide +kernel⟩

/-- A layer of the given type, with nothing in it. -/
def exLayer (ty : String) : Node := .tag "layer" [("type", .str ty.toList)] []

/-- C44 on a concrete group: two layers and some white space, reversed. -/
example : children .group (exFrame.plug [.text ['\n'], exLayer "circle", .text ['\n'],
      .tag "defs" [] [], exLayer "Radial_Blur"]) =
    .ok [(lcRadialBlur, exLayer "Radial_Blur"), (lcCircle, exLayer "circle")] := by decide +kernel

/-! ## C45: append -/

theorem takeWhile_holds {α : Type} (p : α → Bool) (l : List α) {y : α} (hy : y ∈ l.takeWhile p) :
    p y = true := by
  induction l with
  | nil => simp at hy
  | cons x l ih =>
    rw [List.takeWhile_cons] at hy
    split at hy
    · next h =>
      rcases List.mem_cons.1 hy with rfl | hy
      · exact h
      · exact ih hy
    · simp at hy

theorem putFirst_split (x : Node) (ks : List Node) :
    ∃ a b, ks = a ++ b ∧ putFirst x ks = a ++ x :: b ∧ layersIn a = [] := by
  unfold putFirst
  split
  · refine ⟨_, _, (List.takeWhile_append_dropWhile (p := fun y => !isLayer y) (l := ks)).symm, rfl, ?_⟩
    rw [← filter_isLayer, List.filter_eq_nil_iff]
    intro y hy
    simpa using takeWhile_holds _ _ hy
  · next hn =>
    refine ⟨ks, [], by simp, rfl, ?_⟩
    rw [← filter_isLayer, List.filter_eq_nil_iff]
    intro y hy hl
    exact hn (List.any_eq_true.2 ⟨y, hy, hl⟩)

/-- C45. Appending a new layer succeeds; afterwards the children are the old ones followed by the new
one; and the group's element is the same as before with the new layer's element put in. -/
theorem c45_append_puts_last {h : Holder} (hok : h.Ok) (ks : List Node) (l : List LObj)
    (hl : children h.kind (h.plug ks) = .ok l) (x : Node) (hx : isLayerElt x = true) (c : LClass)
    (hc : layerOf x = .ok c) :
    ∃ a b, ks = a ++ b ∧
      groupAppend h.kind (.layer x) (h.plug ks) = (h.plug (a ++ x :: b), .ok ()) ∧
      children h.kind (h.plug (a ++ x :: b)) = .ok (l ++ [(c, x)]) := by
  obtain ⟨a, b, h1, h2, h3⟩ := putFirst_split x ks
  refine ⟨a, b, h1, ?_, ?_⟩
  · simp only [groupAppend, canvasKids_plug hok, updCanvas_plug hok, h2]
  · rw [c44_children hok] at hl ⊢
    have hb : layersIn ks = layersIn b := by rw [h1, layersIn, List.filter_append]; simp [layersIn] at h3 ⊢; exact h3
    refine ⟨?_, ?_⟩
    · have : layersIn (a ++ x :: b) = x :: layersIn b := by
        rw [layersIn, List.filter_append, List.filter_cons_of_pos hx]
        have : List.filter isLayerElt a = [] := h3
        rw [this]; rfl
      rw [this, List.map_append, hl.1, hb]; simp
    · intro y hy
      rcases List.mem_append.1 hy with hy | hy
      · exact hl.2 y hy
      · simp only [List.mem_singleton] at hy; subst hy; exact hc

/-- Anything but a layer is refused with `TypeError`, and nothing changes. -/
theorem c45_append_other_refused (k : GKind) (n : Node) :
    groupAppend k .other n = (n, .error .type) := rfl

/-- Appending to a layer that isn't a group is refused, and nothing changes. -/
theorem c45_append_to_plain_layer (x : LArg) (n : Node) :
    layerAppend x n = (n, .error .notImpl) := rfl

/-- C45 on a concrete group. -/
example : groupAppend .group (.layer (exLayer "star")) (exFrame.plug [.text ['\n'], exLayer "circle"]) =
    (exFrame.plug [.text ['\n'], exLayer "star", exLayer "circle"], .ok ()) := by decide +kernel

/-! ## C47: indexing -/

/-- C47. `group[i]` is `list(group)[i]`, where negative indices count from the end, and `IndexError`
outside. -/
theorem c47_index {h : Holder} (ks : List Node) (l : List LObj)
    (hl : children h.kind (h.plug ks) = .ok l) (i : ℤ) :
    (∀ (j : ℕ) (hj : j < l.length), position l.length i = j →
      groupIndex h.kind i (h.plug ks) = .ok l[j]) ∧
    (position l.length i < 0 ∨ l.length ≤ position l.length i →
      groupIndex h.kind i (h.plug ks) = .error .index) := by
  have hpos : position l.length i = if i < 0 then i + l.length else i := by
    unfold position; split <;> ring
  simp only [groupIndex, hl, pyIndex]
  rw [← hpos]
  constructor
  · intro j hj e
    rw [e, if_neg (by omega)]
    simp [hj]
  · intro h
    split
    · rfl
    · next hn =>
      have : l[(position l.length i).toNat]? = none := by
        rw [List.getElem?_eq_none_iff]; omega
      rw [this]

/-- C47 on a concrete animation: the last child is the first layer in the file. -/
example : groupIndex .animation (-1) (.tag "canvas" [] [exLayer "circle", exLayer "star"]) =
    .ok (lcCircle, exLayer "circle") := by decide +kernel

/-! ## C46: insert -/

theorem putAfter_split (xs : List Node) (ks : List Node) (j : ℕ) (hj : j < (layersIn ks).length) :
    ∃ a b, ks = a ++ b ∧ putAfter xs j ks = a ++ xs ++ b ∧ (layersIn a).length = j + 1 := by
  induction ks generalizing j with
  | nil => simp [layersIn] at hj
  | cons y r ih =>
    cases hy' : isLayerElt y with
    | true =>
      have hy : isLayer y = true := by rw [isLayer_eq]; exact hy'
      cases j with
      | zero => exact ⟨[y], r, rfl, by rw [putAfter, if_pos hy]; simp, by simp [layersIn, hy']⟩
      | succ j =>
        rw [putAfter, if_pos hy]
        obtain ⟨a, b, h1, h2, h3⟩ := ih j (by
          simp only [layersIn, List.filter_cons_of_pos hy', List.length_cons] at hj ⊢; omega)
        refine ⟨y :: a, b, by simp [h1], by simp [h2], ?_⟩
        rw [layersIn, List.filter_cons_of_pos hy', List.length_cons]
        rw [layersIn] at h3; omega
    | false =>
      have hy : ¬ isLayer y = true := by rw [isLayer_eq, hy']; simp
      have hy' : ¬ isLayerElt y = true := by simp [hy']
      have hp : putAfter xs j (y :: r) = y :: putAfter xs j r := by
        cases j <;> rw [putAfter, if_neg hy]
      rw [hp]
      obtain ⟨a, b, h1, h2, h3⟩ := ih j (by
        simp only [layersIn, List.filter_cons_of_neg hy'] at hj ⊢; omega)
      refine ⟨y :: a, b, by simp [h1], by simp [h2], ?_⟩
      rw [layersIn, List.filter_cons_of_neg hy']
      exact h3

/-- C46. Inserting a new layer at index `i`, from `-len` to `len - 1`, succeeds; afterwards the
children are what `list.insert(i, x)` makes of them; and the group's element is the same as before
with the new layer's element (between newlines) put in. -/
theorem c46_insert {h : Holder} (hok : h.Ok) (ks : List Node) (l : List LObj)
    (hl : children h.kind (h.plug ks) = .ok l) (x : Node) (hx : isLayerElt x = true) (c : LClass)
    (hc : layerOf x = .ok c) (i : ℤ) (j : ℕ) (hj : j < l.length) (hi : position l.length i = j) :
    ∃ a b, ks = a ++ b ∧
      groupInsert h.kind i (.layer x) (h.plug ks) =
        (h.plug (a ++ [.text ['\n'], x, .text ['\n']] ++ b), .ok ()) ∧
      children h.kind (h.plug (a ++ [.text ['\n'], x, .text ['\n']] ++ b)) =
        .ok (l.take j ++ (c, x) :: l.drop j) := by
  have hlk := (c44_children hok ks l).1 hl
  have hlen : (layersIn ks).length = l.length := by
    have := congrArg List.length hlk.1
    simpa using this.symm
  have hpos : (if i < 0 then i + (l.length:ℤ) else i) = j := by
    rw [← hi]; unfold position; split <;> ring
  obtain ⟨a, b, h1, h2, h3⟩ := putAfter_split [.text ['\n'], x, .text ['\n']] ks (l.length - 1 - j)
    (by omega)
  refine ⟨a, b, h1, ?_, ?_⟩
  · have hp : pyIndex l i = .ok l[j] := by
      simp only [pyIndex, hpos]
      rw [if_neg (by omega)]
      simp [hj]
    simp only [groupInsert, hl, hp, hpos, Int.toNat_natCast, updCanvas_plug hok, h2]
  · rw [c44_children hok]
    have hfil : layersIn (a ++ [.text ['\n'], x, .text ['\n']] ++ b) =
        layersIn a ++ x :: layersIn b := by
      simp only [layersIn, List.filter_append]
      rw [List.filter_cons_of_neg (by simp [isLayerElt]), List.filter_cons_of_pos hx,
        List.filter_cons_of_neg (by simp [isLayerElt])]
      simp
    have hks : layersIn ks = layersIn a ++ layersIn b := by
      rw [h1]; simp [layersIn]
    refine ⟨?_, ?_⟩
    · rw [hfil, List.map_append, List.map_cons, List.map_take, List.map_drop, hlk.1, hks]
      have hb : (layersIn b).length = j := by
        have := congrArg List.length hks
        rw [List.length_append] at this; omega
      rw [List.reverse_append, List.take_left' (by simpa using hb), List.drop_left' (by simpa using hb)]
      simp
    · intro y hy
      rcases List.mem_append.1 hy with hy | hy
      · exact hlk.2 y (List.mem_of_mem_take hy)
      · rcases List.mem_cons.1 hy with rfl | hy
        · exact hc
        · exact hlk.2 y (List.mem_of_mem_drop hy)

/-- Other indices raise `IndexError` and change nothing. In particular a layer can't be inserted in an
empty group, or at index `len`. -/
theorem c46_insert_outside {h : Holder} (ks : List Node) (l : List LObj)
    (hl : children h.kind (h.plug ks) = .ok l) (x : Node) (i : ℤ)
    (hi : position l.length i < 0 ∨ l.length ≤ position l.length i) :
    groupInsert h.kind i (.layer x) (h.plug ks) = (h.plug ks, .error .index) := by
  have h1 := (c47_index ks l hl i).2 hi
  simp only [groupIndex, hl] at h1
  simp only [groupInsert, hl, h1]

/-- Anything but a layer is refused with `TypeError`, and nothing changes. -/
theorem c46_insert_other_refused (k : GKind) (i : ℤ) (n : Node) :
    groupInsert k i .other n = (n, .error .type) := rfl

/-- C46 on a concrete group: at index 1 of two. -/
example : groupInsert .group 1 (.layer (exLayer "star")) (exFrame.plug [exLayer "circle", exLayer "text"]) =
    (exFrame.plug [exLayer "circle", .text ['\n'], exLayer "star", .text ['\n'], exLayer "text"],
      .ok ()) := by decide +kernel

/-! ## C48: len -/

theorem allLayersIn_append (l m : List Node) :
    allLayersIn (l ++ m) = allLayersIn l ++ allLayersIn m := by
  induction l with
  | nil => simp [allLayersIn]
  | cons x l ih => simp [allLayersIn, ih]

mutual
theorem allLayers_eq (n : Node) : n.subtree.filter isLayerElt = allLayers n := by
  match n with
  | .text s => simp [Node.subtree, allLayers, isLayerElt]
  | .tag nm a ks =>
    rw [subtree_tag, List.filter_cons, allLayers, allLayersIn_eq ks]
    by_cases h : nm = "layer" <;> simp [isLayerElt, h]

theorem allLayersIn_eq (l : List Node) : (Node.nodesIn l).filter isLayerElt = allLayersIn l := by
  match l with
  | [] => simp [Node.nodesIn, allLayersIn]
  | x :: r => rw [nodesIn_cons, List.filter_append, allLayers_eq x, allLayersIn_eq r, allLayersIn]
end

theorem tagOnly_isLayerElt : TagOnly isLayerElt := fun _ => rfl

theorem findAll_layer (n : Node) : n.findAll "layer" = layersBelow n := by
  rw [layersBelow, ← allLayersIn_eq, Node.findAll, Node.descTags]
  rw [← filter_isTag tagOnly_isLayerElt]
  apply List.filter_congr
  intro x hx
  have := (List.mem_filter.1 hx).2
  cases x with
  | text s => simp [Node.isTag] at this
  | tag nm a ks => by_cases h : nm = "layer" <;> simp [Node.name, isLayerElt, h]

/-- C48. `len(group)` is the number of layers anywhere below the group. -/
theorem c48_len (n : Node) : layerLen n = (layersBelow n).length := by
  rw [layerLen, findAll_layer]

theorem layersBelow_plug {h : Holder} (hno : h.NoLayersOutside) (ks : List Node) :
    layersBelow (h.plug ks) = allLayersIn ks := by
  cases h with
  | animation n a => rfl
  | group f =>
    obtain ⟨h1, h2, h3, h4⟩ := hno
    simp [layersBelow, Holder.plug, Frame.plug, Node.kids, allLayersIn_append, allLayersIn, allLayers,
      h1, h2, h3, h4]

theorem allLayers_layer {x : Node} (h : isLayerElt x = true) : allLayers x = x :: layersBelow x := by
  cases x with
  | text s => simp [isLayerElt] at h
  | tag n a ks =>
    have : n = "layer" := by simpa [isLayerElt] using h
    simp [allLayers, this, layersBelow, Node.kids]

/-- The layers in a canvas in which only layers contain layers. -/
theorem allLayersIn_flat {ks : List Node}
    (hno : ∀ x ∈ ks, isLayerElt x = false → allLayers x = []) :
    allLayersIn ks = (layersIn ks).flatMap allLayers := by
  induction ks with
  | nil => rfl
  | cons x r ih =>
    have ih := ih fun y hy => hno y (by simp [hy])
    rw [allLayersIn, ih]
    unfold layersIn
    cases hx : isLayerElt x with
    | true => rw [List.filter_cons_of_pos hx]; rfl
    | false => rw [List.filter_cons_of_neg (by simp [hx]), hno x (by simp) hx]; rfl

/-- C48. It equals the number of children exactly when no child contains a layer (in a group where
layers are only where they should be). -/
theorem c48_len_children_iff {h : Holder} (hok : h.Ok) (hno : h.NoLayersOutside) (ks : List Node)
    (hks : ∀ x ∈ ks, isLayerElt x = false → allLayers x = []) (l : List LObj)
    (hl : children h.kind (h.plug ks) = .ok l) :
    layerLen (h.plug ks) = l.length ↔ ∀ x ∈ l, layersBelow x.2 = [] := by
  have hlk := ((c44_children hok ks l).1 hl).1
  rw [c48_len, layersBelow_plug hno, allLayersIn_flat hks]
  have hlen : l.length = (layersIn ks).length := by
    have := congrArg List.length hlk; simpa using this
  have hmem : (∀ x ∈ l, layersBelow x.2 = []) ↔ ∀ x ∈ layersIn ks, layersBelow x = [] := by
    constructor
    · intro h x hx
      have : x ∈ l.map Prod.snd := by rw [hlk]; simpa using hx
      obtain ⟨y, hy, rfl⟩ := List.mem_map.1 this
      exact h y hy
    · intro h x hx
      apply h
      have : x.2 ∈ l.map Prod.snd := List.mem_map_of_mem hx
      rw [hlk] at this; simpa using this
  rw [hmem, hlen]
  have hall : ∀ x ∈ layersIn ks, isLayerElt x = true := fun x hx => (List.mem_filter.1 hx).2
  generalize layersIn ks = m at hall
  clear hlk hlen hmem hks hl
  induction m with
  | nil => simp
  | cons x m ih =>
    have ihm := ih fun y hy => hall y (by simp [hy])
    have hge : m.length ≤ (m.flatMap allLayers).length := by
      clear ih ihm
      induction m with
      | nil => simp
      | cons y m ih2 =>
        have := ih2 (fun z hz => hall z (by
          rcases List.mem_cons.1 hz with rfl | hz
          · simp
          · simp [hz]))
        have hy := allLayers_layer (hall y (by simp))
        simp only [List.flatMap_cons, List.length_append, List.length_cons, hy]; omega
    have hx := allLayers_layer (hall x (by simp))
    simp only [List.flatMap_cons, List.length_append, List.length_cons, hx, List.mem_cons,
      forall_eq_or_imp]
    constructor
    · intro e
      have h0 : (layersBelow x).length = 0 := by omega
      exact ⟨List.length_eq_zero_iff.1 h0, ihm.1 (by omega)⟩
    · rintro ⟨e1, e2⟩
      have := ihm.2 e2
      rw [e1, List.length_nil]; omega

/-- C48 on a concrete animation: one child, containing another layer; the length is two. -/
example : layerLen (.tag "canvas" [] [exFrame.plug [exLayer "star"]]) = 2 ∧
    (children .animation (.tag "canvas" [] [exFrame.plug [exLayer "star"]])).map List.length = .ok 1 := by
  decide +kernel

/-! ## C49: descendants -/

theorem mapRes_withChildren {xs : List Node} {l : List (List LObj)}
    (h : mapRes withChildren xs = .ok l) :
    ∃ cs : List LObj, cs.map Prod.snd = xs ∧ (∀ x ∈ cs, layerOf x.2 = .ok x.1) ∧
      ∃ ds : List (List LObj), cs.length = ds.length ∧
        (∀ p ∈ cs.zip ds, layerChildren p.1 = .ok p.2) ∧
        l = List.zipWith (fun x d => x :: d) cs ds := by
  induction xs generalizing l with
  | nil => simp only [mapRes] at h; injection h with h; subst h; exact ⟨[], rfl, by simp, [], rfl, by simp, rfl⟩
  | cons x xs ih =>
    simp only [mapRes, withChildren, asLayer] at h
    cases hc : layerOf x with
    | error e => simp [hc] at h
    | ok c =>
      simp only [hc] at h
      cases hd : layerChildren (c, x) with
      | error e => simp [hd] at h
      | ok d =>
        simp only [hd] at h
        cases hm : mapRes withChildren xs with
        | error e => simp [hm] at h
        | ok m =>
          simp only [hm] at h
          injection h with h; subst h
          obtain ⟨cs, h1, h2, ds, h3, h4, h5⟩ := ih hm
          refine ⟨(c, x) :: cs, by simp [h1], ?_, d :: ds, by simp [h3], ?_, by simp [h5]⟩
          · intro y hy
            rcases List.mem_cons.1 hy with rfl | hy
            · exact hc
            · exact h2 y hy
          · intro p hp
            rcases List.mem_cons.1 (by simpa using hp) with rfl | hp
            · exact hd
            · exact h4 p hp

/-- What `descendants` yields: for each child, the child and then its own children; no more. -/
theorem c49_descendants_are_two_levels {h : Holder} (hok : h.Ok) (ks : List Node) (l : List LObj)
    (hl : descendants h.kind (h.plug ks) = .ok l) :
    ∃ cs ds, children h.kind (h.plug ks) = .ok cs ∧ cs.length = ds.length ∧
      (∀ p ∈ cs.zip ds, layerChildren p.1 = .ok p.2) ∧
      l = (List.zipWith (fun x d => x :: d) cs ds).flatten := by
  simp only [descendants, canvasKids_plug hok] at hl
  split at hl
  · simp at hl
  · next m hm =>
    injection hl with hl; subst hl
    obtain ⟨cs, h1, h2, ds, h3, h4, h5⟩ := mapRes_withChildren hm
    refine ⟨cs, ds, ?_, h3, h4, by rw [h5]⟩
    rw [c44_children hok]
    exact ⟨by rw [h1, List.filter_reverse, filter_isLayer], h2⟩

/-- C49, the part that holds. If every layer below a child is a child of that child (none of them
contains layers, and only groups have any), then `descendants` yields exactly the layers below the
group. Missing: groups nested more deeply, for which the property fails. -/
theorem c49_descendants_partial {h : Holder} (hok : h.Ok) (hno : h.NoLayersOutside) (ks : List Node)
    (hks : ∀ x ∈ ks, isLayerElt x = false → allLayers x = []) (l : List LObj)
    (hl : descendants h.kind (h.plug ks) = .ok l)
    (hflat : ∀ x ∈ layersIn ks, ∀ c, layerOf x = .ok c → ∀ d, layerChildren (c, x) = .ok d →
      (d.map Prod.snd).Perm (layersBelow x)) :
    (l.map Prod.snd).Perm (layersBelow (h.plug ks)) := by
  obtain ⟨cs, ds, h1, h2, h3, rfl⟩ := c49_descendants_are_two_levels hok ks l hl
  obtain ⟨h4, h5⟩ := (c44_children hok ks cs).1 h1
  rw [layersBelow_plug hno, allLayersIn_flat hks]
  have hmem : ∀ x ∈ cs, x.2 ∈ layersIn ks := by
    intro x hx
    have : x.2 ∈ cs.map Prod.snd := List.mem_map_of_mem hx
    rw [h4] at this; simpa using this
  have key : ((List.zipWith (fun x d => x :: d) cs ds).flatten.map Prod.snd).Perm
      ((cs.map Prod.snd).flatMap allLayers) := by
    clear h4 h1 hl
    induction cs generalizing ds with
    | nil => simp
    | cons x cs ih =>
      cases ds with
      | nil => simp at h2
      | cons d ds =>
        simp only [List.zipWith_cons_cons, List.flatten_cons, List.map_append, List.map_cons,
          List.flatMap_cons]
        apply List.Perm.append
        · rw [allLayers_layer (List.mem_filter.1 (hmem x (by simp))).2]
          exact (hflat x.2 (hmem x (by simp)) x.1 (h5 x (by simp)) d
            (h3 (x, d) (by simp))).cons _
        · exact ih ds (by simpa using h2) (fun p hp => h3 p (by simp [hp]))
            (fun y hy => h5 y (by simp [hy])) (fun y hy => hmem y (by simp [hy]))
  refine key.trans ?_
  rw [h4]
  exact (List.reverse_perm _).flatMap_right _

/-- C49 fails: a layer three levels down isn't yielded. -/
theorem c49_descendants_fails :
    (descendants .animation (.tag "canvas" []
      [exFrame.plug [exFrame.plug [exLayer "star"]]])).map List.length = .ok 2 ∧
    (layersBelow (.tag "canvas" [] [exFrame.plug [exFrame.plug [exLayer "star"]]])).length = 3 := by
  decide +kernel

/-- C49's hypotheses are met by an animation of a circle and a group of two layers. -/
example : let ks := [exLayer "circle", exFrame.plug [exLayer "star", .text ['\n'], exLayer "text"]]
    descendants .animation (.tag "canvas" [] ks) =
      .ok [(lcGroup, exFrame.plug [exLayer "star", .text ['\n'], exLayer "text"]),
        (lcText, exLayer "text"), (lcStar, exLayer "star"), (lcCircle, exLayer "circle")] ∧
    (∀ x ∈ ks, isLayerElt x = false → allLayers x = []) ∧
    ∀ x ∈ layersIn ks, ∀ c, layerOf x = .ok c → ∀ d, layerChildren (c, x) = .ok d →
      (d.map Prod.snd).Perm (layersBelow x) := by
  refine ⟨by decide +kernel, by decide +kernel, ?_⟩
  intro x hx c hc d hd
  have : x = exLayer "circle" ∨ x = exFrame.plug [exLayer "star", .text ['\n'], exLayer "text"] := by
    simpa using (List.mem_filter.1 hx).1
  rcases this with rfl | rfl
  · have e : layerOf (exLayer "circle") = .ok lcCircle := by decide +kernel
    rw [e] at hc; injection hc with hc; subst hc
    have e2 : layerChildren (lcCircle, exLayer "circle") = .ok [] := by decide +kernel
    rw [e2] at hd; injection hd with hd; subst hd
    decide +kernel
  · have e : layerOf (exFrame.plug [exLayer "star", .text ['\n'], exLayer "text"]) = .ok lcGroup := by
      decide +kernel
    rw [e] at hc; injection hc with hc; subst hc
    have e2 : layerChildren (lcGroup, exFrame.plug [exLayer "star", .text ['\n'], exLayer "text"]) =
        .ok [(lcText, exLayer "text"), (lcStar, exLayer "star")] := by decide +kernel
    rw [e2] at hd; injection hd with hd; subst hd
    decide +kernel

end Sang
