import Verif.Lemmas.Shown
import Verif.Props.Groups
import Verif.Props.Registry

/-! # Searching for layers: properties C50 to C52 -/

namespace Sang

open Spec

theorem attrEq_string {F : Fl} {n : Node} {t : Str} :
    attrEq F (.val .string n) (.str t) = .ok (decide (getString n = t)) := rfl

/-- Text which denotes no whole number is different from every integer. -/
theorem attrEq_integer_text {F : Fl} {n : Node} {t : Str} (h : pyInt t = .error .value) :
    attrEq F (.val .integer n) (.str t) = match getInt n with
      | .error e => .error e
      | .ok _ => .ok false := by
  show integerEq F n (.str t) = _
  simp only [integerEq, PV.toInt, h, catchValue]
  cases getInt n <;> simp

/-! ## General facts about searching -/

theorem filterRes_ok {α : Type} {f : α → Res Bool} {xs l : List α} :
    filterRes f xs = .ok l ↔
      (∀ x ∈ xs, ∃ b, f x = .ok b) ∧ l = xs.filter fun x => match f x with
        | .ok b => b
        | .error _ => false := by
  induction xs generalizing l with
  | nil => simp [filterRes, eq_comm]
  | cons x xs ih =>
    rw [filterRes]
    cases hf : f x with
    | error e => simp [hf]
    | ok b =>
      simp only
      cases hr : filterRes f xs with
      | error e =>
        simp only [reduceCtorEq, false_iff, not_and]
        intro h
        exfalso
        have := ih.2 ⟨fun y hy => h y (by simp [hy]), rfl⟩
        rw [hr] at this; cases this
      | ok m =>
        obtain ⟨h1, h2⟩ := ih.1 hr
        simp only [Except.ok.injEq, List.mem_cons, forall_eq_or_imp, hf, List.filter_cons]
        constructor
        · rintro rfl
          refine ⟨⟨⟨b, rfl⟩, h1⟩, ?_⟩
          cases b <;> simp [h2]
        · rintro ⟨-, rfl⟩
          cases b <;> simp [h2]

/-- The elements a search looks at that aren't layers are passed over. -/
theorem filterRes_matcher {F : Fl} {d : Defaults} {sp : Special} {ts : List (String × PV)}
    {xs l : List Node} :
    filterRes (matcher F d sp ts) xs = .ok l ↔
      filterRes (matcher F d sp ts) (xs.filter fun x => decide (x.name = "layer")) = .ok l := by
  have hoff : ∀ x : Node, x.name ≠ "layer" → matcher F d sp ts x = .ok false :=
    fun x h => by rw [matcher, if_pos h]
  rw [filterRes_ok, filterRes_ok, List.filter_filter]
  have e : (xs.filter fun x => match matcher F d sp ts x with
        | .ok b => b
        | .error _ => false) =
      xs.filter fun x => (match matcher F d sp ts x with
        | .ok b => b
        | .error _ => false) && decide (x.name = "layer") := by
    apply List.filter_congr
    intro x _
    by_cases h : x.name = "layer"
    · simp [h]
    · rw [hoff x h]; simp
  rw [← e]
  refine and_congr_left fun _ => ⟨fun h x hx => h x (List.mem_filter.1 hx).1, fun h x hx => ?_⟩
  by_cases hn : x.name = "layer"
  · exact h x (List.mem_filter.2 ⟨hx, by simpa using hn⟩)
  · exact ⟨false, hoff x hn⟩

theorem layersBelow_isLayer {n x : Node} (h : x ∈ layersBelow n) : isLayerElt x = true := by
  rw [layersBelow, ← allLayersIn_eq] at h
  exact (List.mem_filter.1 h).2

theorem name_of_isLayerElt {x : Node} (h : isLayerElt x = true) : x.name = "layer" := by
  cases x with
  | text s => simp [isLayerElt] at h
  | tag nm a ks => simpa [isLayerElt, Node.name] using h

/-- What a search comes to: the layers below, each asked whether it is wanted. -/
theorem search_ok {F : Fl} {d : Defaults} {a : FindArgs} {n : Node} {l : List LObj} {sp : Special}
    {kw : List (String × Want)} {ts : List (String × PV)} (h1 : posArg a = .ok (sp, kw))
    (h2 : criteria a kw = .ok ts) :
    findAllLayers F d a true n = .ok l ↔
      (∀ x ∈ layersBelow n, ∃ b, matcher F d sp ts x = .ok b) ∧
      l.map Prod.snd = (layersBelow n).filter (fun x => match matcher F d sp ts x with
        | .ok b => b
        | .error _ => false) ∧
      ∀ x ∈ l, layerOf x.2 = .ok x.1 := by
  simp only [findAllLayers, h1, h2, if_true]
  have hl : (n.descTags.filter fun x => decide (x.name = "layer")) = layersBelow n :=
    findAll_layer n
  cases hf : filterRes (matcher F d sp ts) n.descTags with
  | error e =>
    simp only [reduceCtorEq, false_iff, not_and]
    intro h
    exfalso
    have := filterRes_matcher.2 (filterRes_ok.2 ⟨hl ▸ h, rfl⟩)
    rw [hf] at this; cases this
  | ok m =>
    have hm := filterRes_matcher.1 hf
    rw [filterRes_ok, hl] at hm
    simp only
    rw [mapRes_asLayer, hm.2]
    exact ⟨fun h => ⟨hm.1, h⟩, fun h => h.2⟩

theorem matcher_layer {F : Fl} {d : Defaults} {sp : Special} {ts : List (String × PV)} {x : Node}
    (h : isLayerElt x = true) :
    matcher F d sp ts x = match layerOf x with
      | .error e => .error e
      | .ok c => match sp with
        | .none => meetsAny F d (c, x) ts
        | .bool b => .ok b
        | .fn f => f x := by
  rw [matcher, if_neg (by simp [name_of_isLayerElt h])]
  simp only [asLayer]
  cases layerOf x <;> rfl

/-! ## C50 -/

/-- C50. `find_all(True)` returns every layer below, in document order, each with the class its type
says. (If some type is unknown, an exception is raised instead.) -/
theorem c50_find_all_true (F : Fl) (d : Defaults) (n : Node) (l : List LObj) :
    findAllLayers F d { pos := [.bool true] } true n = .ok l ↔
      l.map Prod.snd = layersBelow n ∧ ∀ x ∈ l, layerOf x.2 = .ok x.1 := by
  rw [search_ok (sp := .bool true) (kw := []) (ts := []) rfl rfl]
  constructor
  · rintro ⟨h1, h2, h3⟩
    refine ⟨?_, h3⟩
    rw [h2, List.filter_eq_self]
    intro x hx
    obtain ⟨b, hb⟩ := h1 x hx
    rw [hb]
    rw [matcher_layer (layersBelow_isLayer hx)] at hb
    cases hc : layerOf x with
    | error e => rw [hc] at hb; cases hb
    | ok c => rw [hc] at hb; injection hb with hb; exact hb.symm
  · rintro ⟨h1, h2⟩
    have hall : ∀ x ∈ layersBelow n, matcher F d (.bool true) [] x = .ok true := by
      intro x hx
      rw [matcher_layer (layersBelow_isLayer hx)]
      rw [← h1] at hx
      obtain ⟨y, hy, rfl⟩ := List.mem_map.1 hx
      rw [h2 y hy]
    refine ⟨fun x hx => ⟨_, hall x hx⟩, ?_, h2⟩
    rw [h1, eq_comm, List.filter_eq_self]
    intro x hx
    rw [hall x hx]

/-- C50. `find_all(False)` returns nothing. -/
theorem c50_find_all_false (F : Fl) (d : Defaults) (n : Node) (l : List LObj)
    (h : findAllLayers F d { pos := [.bool false] } true n = .ok l) : l = [] := by
  rw [search_ok (sp := .bool false) (kw := []) (ts := []) rfl rfl] at h
  obtain ⟨h1, h2, h3⟩ := h
  have : (layersBelow n).filter (fun x => match matcher F d (.bool false) [] x with
        | .ok b => b
        | .error _ => false) = [] := by
    rw [List.filter_eq_nil_iff]
    intro x hx
    obtain ⟨b, hb⟩ := h1 x hx
    rw [hb]
    rw [matcher_layer (layersBelow_isLayer hx)] at hb
    cases hc : layerOf x with
    | error e => rw [hc] at hb; cases hb
    | ok c => rw [hc] at hb; injection hb with hb; simp [← hb]
  rw [this] at h2
  exact List.map_eq_nil_iff.1 h2

/-- C50. `find` is the first of `find_all`, or `None`; and raises when it does. -/
theorem c50_find_is_head (F : Fl) (d : Defaults) (a : FindArgs) (r : Bool) (n : Node) :
    (∀ x l, findAllLayers F d a r n = .ok (x :: l) → findLayer F d a r n = .ok (some x)) ∧
    (findAllLayers F d a r n = .ok [] → findLayer F d a r n = .ok none) ∧
    (∀ e, findAllLayers F d a r n = .error e → findLayer F d a r n = .error e) := by
  exact ⟨fun x l h => by simp [findLayer, h], fun h => by simp [findLayer, h],
    fun e h => by simp [findLayer, h]⟩

/-- A function is asked about every layer below, and decides alone. It is given the element, not the
layer object that the documentation promises. -/
theorem c50_find_all_function (F : Fl) (d : Defaults) (f : Node → Res Bool) (n : Node) (l : List LObj)
    (h : findAllLayers F d { pos := [.fn f] } true n = .ok l) :
    ∃ p : Node → Bool, (∀ x ∈ layersBelow n, f x = .ok (p x)) ∧
      l.map Prod.snd = (layersBelow n).filter p := by
  rw [search_ok (sp := .fn f) (kw := []) (ts := []) rfl rfl] at h
  obtain ⟨h1, h2, h3⟩ := h
  refine ⟨_, fun x hx => ?_, h2⟩
  obtain ⟨b, hb⟩ := h1 x hx
  rw [hb]
  rw [matcher_layer (layersBelow_isLayer hx)] at hb
  cases hc : layerOf x with
  | error e => rw [hc] at hb; cases hb
  | ok c => rw [hc] at hb; exact hb

/-- An example: two levels of groups. -/
def exDeep : Node := .tag "canvas" []
  [exLayer "circle", exFrame.plug [exLayer "star", exFrame.plug [exLayer "Radial_Blur"]], .text ['\n']]

/-- C50 on a concrete document. -/
example : (findAllLayers double .initial { pos := [.bool true] } true exDeep).map
    (List.map fun x => x.1.name) =
    .ok ["Circle", "Group", "Star", "Group", "Radial_Blur"] := by decide +kernel

/-! ## C84: searching without recursion -/

/-- What a search without recursion comes to: the layers directly in the element. -/
theorem c84_find_all_direct (F : Fl) (d : Defaults) (n : Node) (l : List LObj) :
    findAllLayers F d { pos := [.bool true] } false n = .ok l ↔
      l.map Prod.snd = layersIn n.kids ∧ ∀ x ∈ l, layerOf x.2 = .ok x.1 := by
  have hp : posArg { pos := [.bool true] } = .ok (.bool true, []) := rfl
  have ht : criteria { pos := [.bool true] } [] = .ok [] := rfl
  simp only [findAllLayers, hp, ht, Bool.false_eq_true, if_false]
  have hl : (n.tagKids.filter fun x => decide (x.name = "layer")) = layersIn n.kids := by
    rw [Node.tagKids, List.filter_filter, layersIn]
    apply List.filter_congr
    intro x _
    cases x with
    | text s => rfl
    | tag nm a ks => by_cases h : nm = "layer" <;> simp [Node.name, Node.isTag, isLayerElt, h]
  have hmat : ∀ x ∈ layersIn n.kids, matcher F d (.bool true) [] x = match layerOf x with
      | .error e => .error e
      | .ok _ => .ok true := by
    intro x hx
    rw [matcher_layer (List.mem_filter.1 hx).2]
  cases hf : filterRes (matcher F d (.bool true) []) n.tagKids with
  | error e =>
    simp only [reduceCtorEq, false_iff, not_and]
    intro h1 h2
    have : filterRes (matcher F d (.bool true) []) n.tagKids = .ok _ :=
      filterRes_matcher.2 (filterRes_ok.2 ⟨fun x hx => by
        rw [hl] at hx
        have hx' := hx
        rw [← h1] at hx
        obtain ⟨y, hy, rfl⟩ := List.mem_map.1 hx
        exact ⟨true, by rw [hmat _ hx', h2 y hy]⟩, rfl⟩)
    rw [hf] at this; cases this
  | ok m =>
    have hm := filterRes_matcher.1 hf
    rw [filterRes_ok, hl] at hm
    simp only
    rw [mapRes_asLayer]
    have : m = layersIn n.kids := by
      rw [hm.2, List.filter_eq_self]
      intro x hx
      obtain ⟨b, hb⟩ := hm.1 x hx
      rw [hmat x hx] at hb
      rw [hmat x hx]
      cases hc : layerOf x with
      | error e => rw [hc] at hb; cases hb
      | ok c => rfl
    rw [this]

/-- C84, what holds: in an animation, a search for everything without recursion finds the children, in
file order. Missing: groups, in which it finds nothing (`c84_find_all_direct_fails`). -/
theorem c84_animation_partial (F : Fl) (d : Defaults) (nm : String) (a : Attrs) (ks : List Node)
    (l : List LObj) (hl : children .animation (.tag nm a ks) = .ok l) :
    findAllLayers F d { pos := [.bool true] } false (.tag nm a ks) = .ok l.reverse := by
  have h := (c44_children (h := .animation nm a) trivial ks l).1 hl
  rw [c84_find_all_direct]
  refine ⟨?_, fun x hx => h.2 x (List.mem_reverse.1 hx)⟩
  rw [List.map_reverse, h.1, List.reverse_reverse]
  rfl

/-- C84 fails: in a group (whose layers are in its canvas, not directly in its element) a search
without recursion finds nothing, whatever its children are and whatever is searched for. -/
theorem c84_find_all_direct_fails (F : Fl) (d : Defaults) (f : Frame) (ks : List Node)
    (hpre : layersIn f.pre = []) (hpost : layersIn f.post = []) :
    findAllLayers F d { pos := [.bool true] } false (f.plug ks) = .ok [] := by
  rw [c84_find_all_direct]
  refine ⟨?_, by simp⟩
  have : layersIn (f.plug ks).kids = [] := by
    simp only [Frame.plug, Node.kids, layersIn, List.filter_append]
    rw [List.filter_cons_of_neg (by simp [isLayerElt])]
    rw [layersIn] at hpre hpost
    rw [hpre, hpost]; rfl
  rw [this]; rfl

/-- C84's hypotheses are met by the example group, which has a child. -/
example : layersIn exFrame.pre = [] ∧ layersIn exFrame.post = [] ∧
    children .group (exFrame.plug [exLayer "circle"]) = .ok [(lcCircle, exLayer "circle")] ∧
    findAllLayers double .initial { pos := [.bool true] } false
      (.tag "canvas" [] [exLayer "circle", exLayer "star"]) =
      .ok [(lcCircle, exLayer "circle"), (lcStar, exLayer "star")] := by decide +kernel

/-! ## C52: several criteria -/

theorem tryAttr_ok {F : Fl} {d : Defaults} {k : String} {w : PV} {x : LObj} {a : LAttr} :
    tryAttr F d k w x = .ok a ↔
      layerAttr F d k x = .ok a ∧ attrShown F a = .ok () ∧ wantShown F w = .ok () := by
  rw [tryAttr]
  cases layerAttr F d k x with
  | error e => simp
  | ok a' =>
    simp only [Except.ok.injEq]
    cases hs : attrShown F a' with
    | error e => constructor <;> intro h <;> [cases h; (obtain ⟨rfl, h, -⟩ := h; rw [hs] at h; cases h)]
    | ok u =>
      cases hw : wantShown F w with
      | error e => constructor <;> intro h <;> [cases h; cases h.2.2]
      | ok u' =>
        simp only [Except.ok.injEq]
        constructor
        · rintro rfl; exact ⟨rfl, hs, trivial⟩
        · exact fun h => h.1

theorem meetsAny_true {F : Fl} {d : Defaults} {x : LObj} {ts : List (String × PV)} {b : Bool}
    (h : meetsAny F d x ts = .ok b) :
    b = true ↔ ∃ k w a, (k, w) ∈ ts ∧ layerAttr F d k x = .ok a ∧ attrEq F a w = .ok true ∧
      wantShown F w = .ok () := by
  induction ts with
  | nil => simp only [meetsAny] at h; injection h with h; simp [← h]
  | cons t ts ih =>
    obtain ⟨k, w⟩ := t
    rw [meetsAny] at h
    cases hk : tryAttr F d k w x with
    | error e =>
      have key : e = .attr ∧ meetsAny F d x ts = .ok b := by
        rw [hk] at h
        cases e
        all_goals simp only [reduceCtorEq] at h
        all_goals exact ⟨rfl, h⟩
      obtain ⟨rfl, key⟩ := key
      rw [ih key]
      constructor
      · rintro ⟨k', w', a, h1, h2⟩
        exact ⟨k', w', a, List.mem_cons_of_mem _ h1, h2⟩
      · rintro ⟨k', w', a, h1, h2, h3, h4⟩
        rcases List.mem_cons.1 h1 with h1 | h1
        · injection h1 with e1 e2; subst e1 e2
          simp only [tryAttr, h2, h4] at hk
          cases hs : attrShown F a with
          | ok u => rw [hs] at hk; cases hk
          | error e => rw [hs] at hk; cases hk; exact absurd hs (shown_of_eq h3)
        · exact ⟨k', w', a, h1, h2, h3, h4⟩
    | ok a =>
      rw [hk] at h
      rw [tryAttr_ok] at hk
      obtain ⟨hk, -, hw⟩ := hk
      simp only at h
      cases hq : attrEq F a w with
      | error e => rw [hq] at h; cases h
      | ok c =>
        rw [hq] at h
        cases c with
        | true =>
          simp only at h; injection h with h
          simp only [← h, true_iff]
          exact ⟨k, w, a, by simp, hk, hq, hw⟩
        | false =>
          simp only at h
          rw [ih h]
          constructor
          · rintro ⟨k', w', a, h1, h2⟩
            exact ⟨k', w', a, List.mem_cons_of_mem _ h1, h2⟩
          · rintro ⟨k', w', a', h1, h2, h3⟩
            rcases List.mem_cons.1 h1 with h1 | h1
            · injection h1 with e1 e2; subst e1 e2
              rw [hk] at h2; injection h2 with h2; subst h2
              rw [hq] at h3; cases h3.1
            · exact ⟨k', w', a', h1, h2, h3⟩

theorem mapRes_target_pv {kw : List (String × PV)} (h : ∀ p ∈ kw, p.1 ≠ "type") :
    mapRes criterion (kw.map fun p => (p.1, Want.pv p.2)) = .ok kw := by
  induction kw with
  | nil => rfl
  | cons p kw ih =>
    have h1 : criterion (p.1, Want.pv p.2) = .ok p := by
      rw [criterion, if_neg (h p (by simp))]
    simp only [List.map_cons, mapRes, h1, ih fun q hq => h q (by simp [hq])]

/-- C52. `find_all(k1=v1, k2=v2, ...)` returns exactly the layers below (in document order) that have,
for at least one of the criteria, an attribute of that name equal to the value. (A value object that is looked for has to
have a text; anything else has.) -/
theorem c52_criteria_are_alternatives (F : Fl) (d : Defaults) (kw : List (String × PV))
    (hkw : ∀ p ∈ kw, p.1 ≠ "type") (n : Node) (l : List LObj)
    (h : findAllLayers F d { kw := kw.map fun p => (p.1, Want.pv p.2) } true n = .ok l) :
    ∃ wanted : Node → Bool, l.map Prod.snd = (layersBelow n).filter wanted ∧
      ∀ x ∈ layersBelow n, ∃ c, layerOf x = .ok c ∧ (wanted x = true ↔
        ∃ k v a, (k, v) ∈ kw ∧ layerAttr F d k (c, x) = .ok a ∧ attrEq F a v = .ok true ∧
          wantShown F v = .ok ()) := by
  have ht : criteria { kw := kw.map fun p => (p.1, Want.pv p.2) }
      (kw.map fun p => (p.1, Want.pv p.2)) = .ok kw := mapRes_target_pv hkw
  rw [search_ok (sp := .none) rfl ht] at h
  obtain ⟨h1, h2, h3⟩ := h
  refine ⟨_, h2, fun x hx => ?_⟩
  obtain ⟨b, hb⟩ := h1 x hx
  rw [hb]
  rw [matcher_layer (layersBelow_isLayer hx)] at hb
  cases hc : layerOf x with
  | error e => rw [hc] at hb; cases hb
  | ok c =>
    rw [hc] at hb
    exact ⟨c, rfl, meetsAny_true hb⟩

/-- A layer for examples, with a description and a flag. -/
def exNamed (desc active : String) : Node :=
  .tag "layer" [("type", .str "circle".toList), ("desc", .str desc.toList),
    ("active", .str active.toList)] []

/-- C52 on a concrete document: each of the first two meets one criterion only. -/
example : findAllLayers double .initial
    { kw := [("desc", .pv (.str "head".toList)), ("active", .pv (.bool false))] } true
    (.tag "canvas" [] [exNamed "head" "true", exNamed "tail" "false", exNamed "body" "true"]) =
    .ok [(lcCircle, exNamed "head" "true"), (lcCircle, exNamed "tail" "false")] := by decide +kernel

/-! ## C51: searching by type -/

/-- A class has an attribute `type_` of its own, which hides the type of the layer. -/
def hidesType (c : LClass) : Bool := (c.fields.lookup "type_").isSome

/-- The classes that hide it. -/
theorem c51_classes_hiding_type :
    (layerClasses.filter hidesType).map (·.name) =
      ["Blur", "Shade", "Bevel", "Halftone3", "Halftone2", "Spherize"] := by decide +kernel

theorem find_type_targets (s : Str) :
    posArg { kw := [("type", .pv (.str s))] } = .ok (.none, [("type", .pv (.str s))]) ∧
    criteria { kw := [("type", .pv (.str s))] } [("type", .pv (.str s))] =
      .ok [("type_", .str (normaliseName s))] := ⟨rfl, rfl⟩

/-- Whether a layer's type, as it is written in the file, is what is looked for. -/
theorem meets_type {F : Fl} {d : Defaults} {c : LClass} {x : Node} {s t : Str}
    (hc : hidesType c = false) (ht : x.attrs.get "type" = some (.str t)) :
    meetsAny F d (c, x) [("type_", .str s)] = .ok (decide (t = s)) := by
  have hn : c.fields.lookup "type_" = none := by
    simpa [hidesType] using hc
  have hg : getType d x = .ok t := by
    simp only [getType, ht]
  simp only [meetsAny, tryAttr, layerAttr, hn, if_true, hg, attrShown, wantShown, attrEq]
  cases decide (t = s) <;> rfl

/-- C51, what holds. Among layers of classes that don't hide their type, `find_all(type=n)` returns
exactly those whose type as written in the file equals `n` in lower case and without underscores.
Missing: types written with capitals or underscores (never found, `c51_underscore_types_never_found`),
and the classes that hide their type (`c51_hidden_types_never_found`). -/
theorem c51_find_all_type_partial (F : Fl) (d : Defaults) (s : Str) (n : Node) (l : List LObj)
    (hfound : findAllLayers F d { kw := [("type", .pv (.str s))] } true n = .ok l)
    (hshow : ∀ x ∈ layersBelow n, ∀ c, layerOf x = .ok c → hidesType c = false)
    (htext : ∀ x ∈ layersBelow n, ∃ t, x.attrs.get "type" = some (.str t)) :
    l.map Prod.snd =
      (layersBelow n).filter fun x => x.attrs.get "type" = some (.str (bareName s)) := by
  rw [← normaliseName_bare]
  rw [search_ok (find_type_targets s).1 (find_type_targets s).2] at hfound
  obtain ⟨h1, h2, h3⟩ := hfound
  rw [h2]
  apply List.filter_congr
  intro x hx
  obtain ⟨b, hb⟩ := h1 x hx
  obtain ⟨t, ht⟩ := htext x hx
  rw [hb]
  rw [matcher_layer (layersBelow_isLayer hx)] at hb
  cases hc : layerOf x with
  | error e => rw [hc] at hb; cases hb
  | ok c =>
    rw [hc] at hb
    simp only at hb
    rw [meets_type (hshow x hx c hc) ht] at hb
    injection hb with hb
    rw [← hb, ht]
    simp

/-- C51, in its own words, for documents whose types are in lower case without underscores: the layers
found are those whose type is the one asked for, ignoring case and underscores. -/
theorem c51_find_all_type_plain_partial (F : Fl) (d : Defaults) (s : Str) (n : Node) (l : List LObj)
    (hfound : findAllLayers F d { kw := [("type", .pv (.str s))] } true n = .ok l)
    (hshow : ∀ x ∈ layersBelow n, ∀ c, layerOf x = .ok c → hidesType c = false)
    (hplain : ∀ x ∈ layersBelow n, ∃ t, x.attrs.get "type" = some (.str t) ∧ bareName t = t) :
    ∃ wanted : Node → Bool, l.map Prod.snd = (layersBelow n).filter wanted ∧
      ∀ x ∈ layersBelow n, (wanted x = true ↔
        ∃ t, x.attrs.get "type" = some (.str t) ∧ SameName t s) := by
  refine ⟨_, c51_find_all_type_partial F d s n l hfound hshow
    (fun x hx => let ⟨t, ht, _⟩ := hplain x hx; ⟨t, ht⟩), fun x hx => ?_⟩
  obtain ⟨t, ht, hp⟩ := hplain x hx
  simp only [ht, decide_eq_true_eq, Option.some.injEq, AttrV.str.injEq]
  constructor
  · intro e
    exact ⟨t, rfl, (sameName_iff _ _).2 (by rw [normaliseName_bare, normaliseName_bare, ← e, hp])⟩
  · rintro ⟨t', e, h⟩
    rw [sameName_iff, normaliseName_bare, normaliseName_bare] at h
    rw [← h, ← e, hp]

theorem normaliseName_no_underscore (s : Str) : '_' ∉ normaliseName s := by
  intro h
  have := (List.mem_filter.1 h).2
  simp at this

/-- C51 fails: a layer whose type is written with an underscore is never found by type, whatever is
asked for. -/
theorem c51_underscore_types_never_found (F : Fl) (d : Defaults) (s t : Str) (n : Node)
    (l : List LObj) (hfound : findAllLayers F d { kw := [("type", .pv (.str s))] } true n = .ok l)
    (x : LObj) (ht : x.2.attrs.get "type" = some (.str t)) (hu : '_' ∈ t)
    (hc : hidesType x.1 = false) : x ∉ l := by
  rw [search_ok (find_type_targets s).1 (find_type_targets s).2] at hfound
  obtain ⟨h1, h2, h3⟩ := hfound
  intro hx
  have hm : x.2 ∈ l.map Prod.snd := List.mem_map_of_mem hx
  rw [h2, List.mem_filter] at hm
  obtain ⟨hm, hb⟩ := hm
  rw [matcher_layer (layersBelow_isLayer hm), h3 x hx] at hb
  simp only at hb
  rw [meets_type hc ht] at hb
  have : t = normaliseName s := by simpa using hb
  exact normaliseName_no_underscore s (this ▸ hu)

/-- C51 fails for this document: the layer is there, its type is what is asked for, and the search
finds nothing. -/
theorem c51_find_all_type_fails :
    findAllLayers double .initial { kw := [("type", .pv (.str "Radial_Blur".toList))] } true
      (.tag "canvas" [] [exLayer "radial_blur"]) = .ok [] ∧
    findAllLayers double .initial { kw := [("type", .pv (.str "blur".toList))] } true
      (.tag "canvas" [] [.tag "layer" [("type", .str "blur".toList)]
        [.tag "param" [("name", .str "type".toList)] [.tag "integer" [("value", .str "1".toList)] []]]])
      = .ok [] := by decide +kernel

/-- C51 fails for the classes that hide their type: such a layer is never found by type, unless the
type asked for is a number. -/
theorem c51_hidden_types_never_found (F : Fl) (d : Defaults) (s : Str)
    (hs : pyInt (bareName s) = .error .value) (n : Node)
    (l : List LObj) (hfound : findAllLayers F d { kw := [("type", .pv (.str s))] } true n = .ok l)
    (x : LObj) (hx : x ∈ l) (hc : x.1 ∈ layerClasses) : hidesType x.1 = false := by
  rw [← normaliseName_bare] at hs
  rw [search_ok (find_type_targets s).1 (find_type_targets s).2] at hfound
  obtain ⟨h1, h2, h3⟩ := hfound
  by_contra hh
  have hfield : ∀ c ∈ layerClasses, hidesType c = true →
      ∃ dv, c.fields.lookup "type_" = some (.param .integer dv) := by
    have : layerClasses.all (fun c => !hidesType c || match c.fields.lookup "type_" with
        | some (.param .integer _) => true
        | _ => false) = true := by decide +kernel
    intro c hc hd
    have h := List.all_eq_true.1 this c hc
    rw [hd] at h
    simp only [Bool.not_true, Bool.false_or] at h
    split at h
    · next v hv => exact ⟨_, hv⟩
    · cases h
  obtain ⟨dv, hdv⟩ := hfield x.1 hc (by simpa using hh)
  have hm : x.2 ∈ l.map Prod.snd := List.mem_map_of_mem hx
  rw [h2, List.mem_filter] at hm
  obtain ⟨hm, hb⟩ := hm
  obtain ⟨b, hbb⟩ := h1 _ hm
  rw [hbb] at hb
  simp only at hb
  subst hb
  rw [matcher_layer (layersBelow_isLayer hm), h3 x hx] at hbb
  simp only [meetsAny, tryAttr, layerAttr, hdv] at hbb
  cases hg : getField "type_" (.param .integer dv) x.2 with
  | error e => rw [hg] at hbb; cases e <;> simp at hbb
  | ok p =>
    obtain ⟨c, v⟩ := p
    have hcl : c = .integer := by
      simp only [getField] at hg
      split at hg
      · cases hg
      · split at hg
        · next e => injection hg with hg; injection hg with hg _; rw [← hg, e]
        · cases hg
    subst hcl
    rw [hg] at hbb
    simp only at hbb
    cases hsh : attrShown F (.val .integer v) with
    | error e => rw [hsh] at hbb; cases e <;> simp at hbb
    | ok u =>
      rw [hsh] at hbb
      cases hi : getInt v <;> simp [wantShown, attrEq_integer_text hs, hi] at hbb

/-- C51's hypotheses are met by a document with three layers, two of them circles. -/
example : let n : Node := .tag "canvas" [] [exLayer "circle", exFrame.plug [exLayer "circle"]]
    findAllLayers double .initial { kw := [("type", .pv (.str "Cir_CLE".toList))] } true n =
      .ok [(lcCircle, exLayer "circle"), (lcCircle, exLayer "circle")] ∧
    (∀ x ∈ layersBelow n, ∃ t, x.attrs.get "type" = some (.str t) ∧ bareName t = t) ∧
    ∀ x ∈ layersBelow n, ∀ c, layerOf x = .ok c → hidesType c = false := by
  refine ⟨by decide +kernel, ?_, ?_⟩
  · intro x hx
    have : x = exLayer "circle" ∨ x = exFrame.plug [exLayer "circle"] := by
      have h : layersBelow (.tag "canvas" [] [exLayer "circle", exFrame.plug [exLayer "circle"]]) =
        [exLayer "circle", exFrame.plug [exLayer "circle"], exLayer "circle"] := by decide +kernel
      rw [h] at hx
      simp only [List.mem_cons, List.not_mem_nil, or_false] at hx
      tauto
    rcases this with rfl | rfl
    · exact ⟨"circle".toList, rfl, by decide +kernel⟩
    · exact ⟨"group".toList, rfl, by decide +kernel⟩
  · have : ∀ x ∈ layersBelow (.tag "canvas" [] [exLayer "circle", exFrame.plug [exLayer "circle"]]),
        (match layerOf x with
          | .ok c => hidesType c
          | .error _ => false) = false := by decide +kernel
    intro x hx c hc
    have h := this x hx
    rw [hc] at h
    exact h

end Sang
