import Verif.Props.Groups
import Verif.Lemmas.MapRes
import Verif.Props.Registry
import Verif.Props.Composites
import Verif.Spec.Layers

/-! # Layers: properties C29, C53 to C59 and C83 -/

namespace Sang

open Spec

/-! ## C53: items -/

theorem nameAndValue_ok {p : Node} {s : Str} {c : VCls} {v : Node} :
    nameAndValue p = .ok (s, c, v) ↔ Holds p s v ∧ fromTag v = .ok c := by
  simp only [nameAndValue, Holds]
  constructor
  · intro h
    split at h
    · cases h
    · next hn =>
      split at h
      · cases h
      · next s' hs =>
        split at h
        · next v' hv =>
          split at h
          · cases h
          · next c' hc =>
            injection h with h; injection h with h1 h2; injection h2 with h2 h3
            subst h1 h2 h3
            exact ⟨⟨by simpa using hn, hs, hv⟩, hc⟩
        · cases h
      · cases h
  · rintro ⟨⟨h1, h2, h3⟩, h4⟩
    rw [if_neg (by simp [h1]), h2, h3]
    simp only [h4]

theorem foldl_dictSet_lookup {κ α : Type} [DecidableEq κ] [BEq κ] [LawfulBEq κ] (l d : List (κ × α)) (k : κ) (v : α) :
    (l.foldl (fun d p => dictSet p.1 p.2 d) d).lookup k = some v ↔
      (∃ a b, l = a ++ (k, v) :: b ∧ ∀ p ∈ b, p.1 ≠ k) ∨
      ((∀ p ∈ l, p.1 ≠ k) ∧ d.lookup k = some v) := by
  induction l generalizing d with
  | nil => simp
  | cons p l ih =>
    rw [List.foldl_cons, ih, lookup_dictSet]
    constructor
    · rintro (⟨a, b, rfl, h⟩ | ⟨h1, h2⟩)
      · exact .inl ⟨p :: a, b, rfl, h⟩
      · by_cases hk : k = p.1
        · rw [if_pos hk] at h2
          injection h2 with h2
          subst hk h2
          exact .inl ⟨[], l, rfl, h1⟩
        · rw [if_neg hk] at h2
          exact .inr ⟨by
            intro q hq
            rcases List.mem_cons.1 hq with rfl | hq
            · exact fun e => hk e.symm
            · exact h1 q hq, h2⟩
    · rintro (⟨a, b, h1, h2⟩ | ⟨h1, h2⟩)
      · cases a with
        | nil =>
          injection h1 with h1 h3
          subst h1 h3
          exact .inr ⟨h2, by simp⟩
        | cons q a =>
          injection h1 with h1 h3
          exact .inl ⟨a, b, h3, h2⟩
      · refine .inr ⟨fun q hq => h1 q (by simp [hq]), ?_⟩
        rw [if_neg (fun e => h1 p (by simp) e.symm)]
        exact h2

theorem ownParams_eq (n : Node) :
    n.tagKids.filter (fun x => x.name = "param") =
      n.kids.filter (fun x => x.isTag && x.name = "param") := by
  rw [Node.tagKids, List.filter_filter]
  apply List.filter_congr
  intro x _
  rw [Bool.and_comm]

/-- C53. `items()` has each name once; and the value it gives for a name is that of the last param of
that name which is directly in the layer. Params of nested layers have no effect. -/
theorem c53_items_are_own_params {n : Node} {l : List (Str × VCls × Node)} (h : layerItems n = .ok l) :
    (l.map Prod.fst).Nodup ∧
    ∀ s c v, l.lookup s = some (c, v) ↔
      ∃ pre p post, n.kids = pre ++ p :: post ∧ p.isTag = true ∧ Holds p s v ∧ fromTag v = .ok c ∧
        ∀ q ∈ post, ¬ (q.name = "param" ∧ q.attrs.get "name" = some (.str s)) := by
  simp only [layerItems, ownParams_eq] at h
  split at h
  · cases h
  · next m hm =>
    injection h with h
    subst h
    refine ⟨(foldl_dictSet_keys m [] (by simp)).1, fun s c v => ?_⟩
    rw [foldl_dictSet_lookup]
    constructor
    · rintro (⟨a, b, e, hb⟩ | ⟨-, h⟩)
      · obtain ⟨xa, p, xb, e1, e2, e3, e4⟩ := mapRes_split hm e
        obtain ⟨la, lb, f1, f2, f3, f4⟩ := filter_split _ _ _ _ _ e1
        obtain ⟨g1, g2⟩ := nameAndValue_ok.1 e3
        refine ⟨la, p, lb, f1, ?_, g1, g2, ?_⟩
        · simp only [Bool.and_eq_true] at f4; exact f4.1
        · rintro q hq ⟨q1, q2⟩
          cases q with
          | text t => simp [Node.name] at q1
          | tag qn qa qk =>
            have hmem : Node.tag qn qa qk ∈ xb := by
              rw [← f3, List.mem_filter]
              exact ⟨hq, by simp [Node.isTag, q1]⟩
            obtain ⟨y, hy, hy2⟩ := mapRes_image e4 hmem
            obtain ⟨s', c', v'⟩ := y
            have h5 := (nameAndValue_ok.1 hy2).1.2.1
            rw [q2] at h5
            injection h5 with h5; injection h5 with h5
            exact hb _ hy h5.symm
      · simp at h
    · rintro ⟨pre, p, post, e1, e2, e3, e4, e5⟩
      left
      have hfil : n.kids.filter (fun x => x.isTag && x.name = "param") =
          pre.filter (fun x => x.isTag && x.name = "param") ++
            p :: post.filter (fun x => x.isTag && x.name = "param") := by
        rw [e1, List.filter_append, List.filter_cons_of_pos (by simp [e2, e3.1])]
      rw [hfil] at hm
      obtain ⟨ma, mx, mb, g1, g2, g3, g4⟩ := mapRes_split' hm
      rw [nameAndValue_ok.2 ⟨e3, e4⟩] at g3
      injection g3 with g3
      subst g3
      refine ⟨ma, mb, g1, ?_⟩
      rintro ⟨s', c', v'⟩ hy e
      simp only at e
      subst e
      obtain ⟨q, hq, hq2⟩ := mapRes_mem g4 hy
      have hh := (nameAndValue_ok.1 hq2).1
      exact e5 q (List.mem_filter.1 hq).1 ⟨hh.1, hh.2.1⟩

/-- An element for a real. -/
def exRealTag (s : String) : Node := .tag "real" [("value", .str s.toList)] []

/-- A param for examples. -/
def exParam (k : String) (v : Node) : Node :=
  .tag "param" [("name", .str k.toList)] [.text ['\n'], v, .text ['\n']]

/-- A group whose canvas comes before its `z_depth`, with a layer that has a `z_depth` of its own. -/
def exNested : Node := .tag "layer" [("type", .str "group".toList)]
  [exParam "canvas" (.tag "canvas" [] [.tag "layer" [("type", .str "circle".toList)]
      [exParam "z_depth" (exRealTag "7.0")]]),
   exParam "z_depth" (exRealTag "1.0")]

/-- C53 on a concrete group: two items, and the nested layer's param isn't one. -/
example : layerItems exNested =
    .ok [("canvas".toList, .canvas, .tag "canvas" [] [.tag "layer" [("type", .str "circle".toList)]
      [exParam "z_depth" (exRealTag "7.0")]]), ("z_depth".toList, .real, exRealTag "1.0")] := by
  decide +kernel

/-! ## C54: subscripts and fields -/

theorem slot_noneIn {s : Slot} {f : Str} (h : s.Ok f) : NoneIn (isParam f) s.pre := by
  intro y hy
  have := h.first y hy
  simpa [isParam] using this

theorem slot_isParam {s : Slot} {f : Str} (h : s.Ok f) (ks : List Node) :
    isParam f (.tag "param" s.pattrs ks) = true := by
  simp [isParam, Node.name, Node.attrs, h.named]

theorem slot_findParam {s : Slot} {f : Str} (h : s.Ok f) (v : Node) :
    findParam f (s.plug v) = some (.tag "param" s.pattrs (s.wpre ++ v :: s.wpost)) :=
  findParam_at _ _ _ _ _ _ _ _ (slot_noneIn h) (slot_isParam h _)

theorem slot_tagKids {s : Slot} {f : Str} (h : s.Ok f) {v : Node} (hv : v.isTag = true) (b : Attrs) :
    (Node.tag "param" b (s.wpre ++ v :: s.wpost)).tagKids = [v] := by
  rw [Node.tagKids, Node.kids, List.filter_append, List.filter_cons_of_pos hv,
    List.filter_eq_nil_iff.2 (fun x hx => by simp [h.wpre x hx]),
    List.filter_eq_nil_iff.2 (fun x hx => by simp [h.wpost x hx])]
  rfl

theorem slot_holds {s : Slot} {f : Str} (h : s.Ok f) {v : Node} (hv : v.isTag = true) :
    Holds (.tag "param" s.pattrs (s.wpre ++ v :: s.wpost)) f v :=
  ⟨rfl, h.named, slot_tagKids h hv _⟩

theorem slot_replace {s : Slot} {f : Str} (h : s.Ok f) {v : Node} (hv : v.isTag = true) (m : Node) :
    updFirst (isParam f) (replaceValue m) (s.plug v) = s.plug m := by
  rw [Slot.plug, updFirst_at _ _ _ _ _ _ _ _ _ (slot_noneIn h) (slot_isParam h _)]
  have : replaceValue m (.tag "param" s.pattrs (s.wpre ++ v :: s.wpost)) =
      .tag "param" s.pattrs (s.wpre ++ m :: s.wpost) := by
    simp only [replaceValue, Node.kids, Node.setKids, List.map_append, List.map_cons, hv, if_true]
    congr 1
    have e : ∀ l : List Node, (∀ x ∈ l, x.isTag = false) →
        l.map (fun x => if x.isTag = true then m else x) = l := by
      intro l hl
      conv_rhs => rw [← List.map_id l]
      apply List.map_congr_left
      intro x hx
      simp [hl x hx]
    rw [e _ h.wpre, e _ h.wpost]
  rw [this]
  rfl

/-- C54, what holds. If no param of the same name comes before the layer's own, then `layer[f]` is the
value of the layer's own param. Missing: layers in which a nested layer's param of the same name comes
first; there it fails (`c54_subscripts_fail`). -/
theorem c54_subscript_reads_own_partial {s : Slot} {f : Str} (h : s.Ok f) {v : Node}
    (hv : v.isTag = true) : getParam f (s.plug v) = (fromTag v).map fun c => (c, v) := by
  rw [getParam, slot_findParam h]
  cases hc : fromTag v with
  | ok c => simp only [nameAndValue_ok.2 ⟨slot_holds h hv, hc⟩]; rfl
  | error e =>
    have : nameAndValue (.tag "param" s.pattrs (s.wpre ++ v :: s.wpost)) = .error e := by
      have hh := slot_holds h hv
      rw [nameAndValue, if_neg (by simp [Node.name]), hh.2.1, hh.2.2]
      simp only [hc]
    simp only [this]
    rfl

/-- C54, what holds, for writing: then `layer[f] = x` (`x` being a plain Python value acceptable to the
value's class, or a value object of that class) puts the new value into the layer's own param, and
changes nothing else in the layer. -/
theorem c54_subscript_writes_own_partial {F : Fl} {s : Slot} {f : Str} (h : s.Ok f) {v m : Node}
    (hv : v.isTag = true) {c : VCls} (hc : fromTag v = .ok c) {x : PV} (hm : newItem F c x = .ok m) :
    setParam F f x (s.plug v) = (s.plug m, .ok ()) := by
  rw [setParam, slot_findParam h]
  simp only [nameAndValue_ok.2 ⟨slot_holds h hv, hc⟩, hm, slot_replace h hv]

/-- C54, writing something that the value's class refuses: an exception, and nothing changes. -/
theorem c54_subscript_refuses {F : Fl} {s : Slot} {f : Str} (h : s.Ok f) {v : Node}
    (hv : v.isTag = true) {c : VCls} (hc : fromTag v = .ok c) {x : PV} {e : Err}
    (hm : newItem F c x = .error e) : setParam F f x (s.plug v) = (s.plug v, .error e) := by
  rw [setParam, slot_findParam h]
  simp only [nameAndValue_ok.2 ⟨slot_holds h hv, hc⟩, hm]

/-- C54, writing a value object of another class than the value's: `TypeError`, and nothing changes. -/
theorem c54_wrong_class_refused {F : Fl} {s : Slot} {f : Str} (h : s.Ok f) {v : Node}
    (hv : v.isTag = true) {c c' : VCls} (hc : fromTag v = .ok c) (hne : c' ≠ c) (r : Option Attrs) (m : Node) :
    setParam F f (.val c' r m) (s.plug v) = (s.plug v, .error .type) :=
  c54_subscript_refuses h hv hc (by simp only [newItem, if_neg hne])

/-- C54, writing a value object of the value's class: its element takes the place of the old one. -/
theorem c54_value_object_partial {F : Fl} {s : Slot} {f : Str} (h : s.Ok f) {v m : Node}
    (hv : v.isTag = true) {c : VCls} (hc : fromTag v = .ok c) (r : Option Attrs) :
    setParam F f (.val c r m) (s.plug v) = (s.plug m, .ok ()) :=
  c54_subscript_writes_own_partial h hv hc (by simp only [newItem, if_pos])

/-- C54, what holds, for fields: `layer.k` is the value of the layer's own param, if its class is the
field's. -/
theorem c54_field_reads_own_partial {s : Slot} {k : String} (h : s.Ok k.toList) {v : Node}
    (hv : v.isTag = true) {c : VCls} (hc : fromTag v = .ok c) (d : Lit) :
    getField k (.param c d) (s.plug v) = .ok (c, v) := by
  simp only [getField, fieldValue, slot_findParam h, slot_tagKids h hv, hc, if_true]

/-- C54, for fields: if the value of the layer's own param is of another class than the field's, `layer.k` is
`AssertionError`, or what is raised by making the text of the value, which the message has in it. Missing: times. -/
theorem c54_field_wrong_class_partial {s : Slot} {k : String} (h : s.Ok k.toList) {v : Node}
    (hv : v.isTag = true) {c c' : VCls} (hc : fromTag v = .ok c') (hne : c' ≠ c) (ht : c' ≠ .time) (d : Lit) :
    (∀ t, valueStr ⟨id⟩ (fun _ => true) none c' v = .ok t →
      getField k (.param c d) (s.plug v) = .error .assertion) ∧
    ∀ e, valueStr ⟨id⟩ (fun _ => true) none c' v = .error e → getField k (.param c d) (s.plug v) = .error e := by
  simp only [getField, fieldValue, slot_findParam h, slot_tagKids h hv, hc, if_neg hne, misfit, if_neg ht]
  exact ⟨fun t e => by rw [e], fun e he => by rw [he]⟩

/-- C54. An integer in place of a real, and one without a number in it. -/
example : let n := fun v => Node.tag "layer" [("type", .str "circle".toList)] [exParam "radius" v]
    getField "radius" (.param .real (.float 1)) (n (.tag "integer" [("value", .str ['3'])] [])) = .error .assertion ∧
    getField "radius" (.param .real (.float 1)) (n (.tag "integer" [("value", .str ['x'])] [])) = .error .value := by
  decide +kernel

/-- C54, what holds, for fields: `layer.k = x` does to the value of the layer's own param what setting
that value to `x` does, and changes nothing else in the layer. -/
theorem c54_field_writes_own_partial {F : Fl} {s : Slot} {k : String} (h : s.Ok k.toList) {v : Node}
    (hv : v.isTag = true) {c : VCls} (hc : fromTag v = .ok c) (d : Lit) (x : PV) :
    setField F k (.param c d) x (s.plug v) =
      (s.plug (setValue F c x v).1, (setValue F c x v).2) := by
  simp only [setField, fieldValue, slot_findParam h, slot_tagKids h hv, hc, slot_replace h hv]

/-- With no param of that name at all, `layer[f]` is `KeyError` and `layer.f` is `AttributeError`. -/
theorem c54_missing {n : Node} {k : String} (h : ∀ x ∈ Node.nodesIn n.kids,
    ¬ (x.name = "param" ∧ x.attrs.get "name" = some (.str k.toList))) (F : Fl) (x : PV) (c : VCls)
    (d : Lit) :
    getParam k.toList n = .error .key ∧ setParam F k.toList x n = (n, .error .key) ∧
    getField k (.param c d) n = .error .attr ∧ setField F k (.param c d) x n = (n, .error .attr) := by
  have : findParam k.toList n = none :=
    findParam_none _ _ fun y hy => by simpa [isParam] using h y hy
  simp only [getParam, setParam, getField, setField, fieldValue, this, and_self]

/-- C54. `name in layer` says whether there is a param of that name in the layer, however deep. -/
theorem c54_contains (n : Node) (k : String) : containsParam k.toList n = true ↔
    ∃ x ∈ Node.nodesIn n.kids, x.name = "param" ∧ x.attrs.get "name" = some (.str k.toList) := by
  rw [containsParam, findParam, List.isSome_head?, ← List.length_pos_iff, List.length_pos_iff_exists_mem]
  constructor
  · rintro ⟨x, hx⟩
    obtain ⟨h1, h2⟩ := List.mem_filter.1 hx
    exact ⟨x, (List.mem_filter.1 h1).1, by simpa [isParam] using h2⟩
  · rintro ⟨x, hx, h1, h2⟩
    refine ⟨x, List.mem_filter.2 ⟨List.mem_filter.2 ⟨hx, ?_⟩, by simp [isParam, h1, h2]⟩⟩
    cases x with
    | text s => simp [Node.name] at h1
    | tag => rfl

/-- C54 fails for `in`: the group has no `radius` of its own, but the layer in it has. -/
theorem c54_contains_fails : ∃ n : Node,
    (∀ x ∈ n.tagKids, x.attrs.get "name" ≠ some (.str "radius".toList)) ∧ containsParam "radius".toList n = true :=
  ⟨.tag "layer" [("type", .str "group".toList)] [exParam "z_depth" (exRealTag "1.0"),
    exParam "canvas" (.tag "canvas" [] [.tag "layer" [("type", .str "circle".toList)]
      [exParam "radius" (exRealTag "7.0")]])], by decide +kernel⟩

/-- C54 fails: this group's own `z_depth` is 1.0, but both ways of reading it give the nested layer's,
and writing changes the nested layer's. -/
theorem c54_subscripts_fail :
    getParam "z_depth".toList exNested = .ok (.real, exRealTag "7.0") ∧
    getField "z_depth" (.param .real (.float 0)) exNested = .ok (.real, exRealTag "7.0") ∧
    setParam double "z_depth".toList (.float 2) exNested = (.tag "layer" [("type", .str "group".toList)]
      [exParam "canvas" (.tag "canvas" [] [.tag "layer" [("type", .str "circle".toList)]
          [exParam "z_depth" (exRealTag "2.0000000000")]]),
       exParam "z_depth" (exRealTag "1.0")], .ok ()) := by
  decide +kernel

/-- An integer can't be put in place of a real. -/
example : setParam double "z_depth".toList (.val .integer none (.tag "integer" [("value", .str ['3'])] []))
    exNested = (exNested, .error .type) := by decide +kernel

/-- C54's hypotheses are met by the usual layout, where the canvas comes last. -/
example : ∃ s : Slot, s.Ok "z_depth".toList ∧
    s.plug (exRealTag "1.0") = .tag "layer" [("type", .str "group".toList)]
      [exParam "amount" (exRealTag "0.5"), exParam "z_depth" (exRealTag "1.0"),
       exParam "canvas" (.tag "canvas" [] [.tag "layer" [("type", .str "circle".toList)]
      [exParam "z_depth" (exRealTag "7.0")]])] :=
  ⟨⟨"layer", [("type", .str "group".toList)], [exParam "amount" (exRealTag "0.5")],
    [exParam "canvas" (.tag "canvas" [] [.tag "layer" [("type", .str "circle".toList)]
      [exParam "z_depth" (exRealTag "7.0")]])], [("name", .str "z_depth".toList)], [.text ['\n']],
    [.text ['\n']]⟩, ⟨rfl, by decide +kernel, by decide +kernel, by decide +kernel⟩, rfl⟩

/-! ## C29: the shortcuts of a group -/

theorem setComposite_one {F : Fl} {key : String} {c : VCls} (hk : requiredKeys.lookup key = some c)
    {v : PV} {t : Node} (ht : constructPart F c v = .ok t) (nm : String) (a : Attrs) (ks : List Node) :
    setComposite F (.dict [(key, v)]) (.tag nm a ks) =
      (.tag nm a [.tag key [] [t, .text ['\n']]], .ok ()) := by
  simp [setComposite, compositeArg, hk, appendParts, ht, Node.setKids, Node.append]

/-- Setting one part of a transformation erases the others. -/
theorem shortcut_erases {F : Fl} {s : Slot} (h : s.Ok "transformation".toList)
    {a : Attrs} {ks : List Node} (ha : a.get "type" = some (.str "transformation".toList))
    {key : String} {c : VCls} (hk : requiredKeys.lookup key = some c) {v : PV} {t : Node}
    (ht : constructPart F c v = .ok t) :
    ∃ n, setShortcut F key v (s.plug (.tag "composite" a ks)) = (n, .ok ()) ∧
      ∀ key' ≠ key, getShortcut key' n = .error .key := by
  have hft : ∀ ks, fromTag (.tag "composite" a ks) = .ok .composite := by
    intro ks
    have h1 : valueRegistry.fromName "composite".toList = .ok .composite := by decide +kernel
    have h2 : lower "transformation".toList = "transformation".toList := by decide +kernel
    have h3 : compositeCheck (.tag "composite" a ks) = .ok () := by
      simp only [compositeCheck, strAttr, Node.attrs, ha]
      rw [if_pos h2]
    have hne : (Node.tag "composite" a ks).name ≠ "animated" := by
      show "composite" ≠ "animated"
      decide
    rw [fromTag, if_neg hne]
    have hn : (Node.tag "composite" a ks).name.toList = "composite".toList := rfl
    rw [hn]
    simp only [h1, h3]
  refine ⟨s.plug (.tag "composite" a [.tag key [] [t, .text ['\n']]]), ?_, ?_⟩
  · rw [setShortcut, c54_field_writes_own_partial h rfl (hft ks)]
    simp only [setValue, setComposite_one hk ht]
  · intro key' hne
    rw [getShortcut, c54_field_reads_own_partial h rfl (hft _)]
    simp only [compositeGet, Node.tagKids, Node.kids]
    rw [List.filter_cons_of_pos rfl, List.filter_nil, List.filter_cons_of_neg (by
      rw [decide_eq_true_eq]; exact hne.symm)]
    rfl

/-- C29 fails, always. Whatever group it is, if `group.key = v` succeeds (the group having a
transformation of its own, not animated), then afterwards the other three shortcuts raise `KeyError`:
all of the transformation but `key` has been erased. -/
theorem c29_shortcut_erases_others {F : Fl} {s : Slot} (h : s.Ok "transformation".toList)
    {a : Attrs} {ks : List Node} (ha : a.get "type" = some (.str "transformation".toList))
    {key : String} {v : PV} {n : Node}
    (hset : setShortcut F key v (s.plug (.tag "composite" a ks)) = (n, .ok ())) :
    ∀ key' ≠ key, getShortcut key' n = .error .key := by
  have hft : fromTag (.tag "composite" a ks) = .ok .composite := by
    have h1 : valueRegistry.fromName "composite".toList = .ok .composite := by decide +kernel
    have h2 : lower "transformation".toList = "transformation".toList := by decide +kernel
    have h3 : compositeCheck (.tag "composite" a ks) = .ok () := by
      simp only [compositeCheck, strAttr, Node.attrs, ha]
      rw [if_pos h2]
    have hne : (Node.tag "composite" a ks).name ≠ "animated" := by
      show "composite" ≠ "animated"
      decide
    rw [fromTag, if_neg hne]
    have hn : (Node.tag "composite" a ks).name.toList = "composite".toList := rfl
    rw [hn]
    simp only [h1, h3]
  have hs := hset
  rw [setShortcut, c54_field_writes_own_partial h rfl hft] at hs
  simp only [setValue, setComposite, compositeArg] at hs
  cases hk : requiredKeys.lookup key with
  | none => simp [hk] at hs
  | some c =>
    cases ht : constructPart F c v with
    | error e => simp [hk, ht, appendParts] at hs
    | ok t =>
      obtain ⟨m, hm, hall⟩ := shortcut_erases (ks := ks) h ha hk ht
      rw [hm] at hset
      injection hset with hset _
      subst hset
      exact hall

/-- C29, on a concrete group: before, the scale can be read; after setting the angle, it can't. -/
example :
    let s : Slot := ⟨"layer", [("type", .str "group".toList)], [], [],
      [("name", .str "transformation".toList)], [], []⟩
    let old : Node := .tag "composite" [("type", .str "transformation".toList)]
      [.tag "angle" [] [angleNode double 0], .tag "scale" [] [vecNode 1 1]]
    s.Ok "transformation".toList ∧
    getShortcut "scale" (s.plug old) = .ok (.vector, vecNode 1 1) ∧
    (setShortcut double "angle" (.float 90) (s.plug old)).2 = .ok () ∧
    getShortcut "scale" (setShortcut double "angle" (.float 90) (s.plug old)).1 = .error .key := by
  refine ⟨⟨rfl, by simp, by simp, by simp [Node.nodesIn]⟩, ?_⟩
  decide +kernel

/-! ## C57: attributes -/

theorem get_setAttr (n : Node) (hn : n.isTag = true) (k k' : String) (v : AttrV) :
    (n.setAttr k v).attrs.get k' = if k' = k then some v else n.attrs.get k' := by
  cases n with
  | text s => simp [Node.isTag] at hn
  | tag nm a ks => exact lookup_dictSet k k' v a

theorem setAttr_rest (n : Node) (k : String) (v : AttrV) :
    (n.setAttr k v).name = n.name ∧ (n.setAttr k v).kids = n.kids := by
  cases n <;> exact ⟨rfl, rfl⟩

/-- Only the attribute `k` of an element may differ. -/
def OnlyAttr (k : String) (n m : Node) : Prop :=
  m.name = n.name ∧ m.kids = n.kids ∧ ∀ k' ≠ k, m.attrs.get k' = n.attrs.get k'

theorem setAttr_only (n : Node) (hn : n.isTag = true) (k : String) (v : AttrV) :
    OnlyAttr k n (n.setAttr k v) :=
  ⟨(setAttr_rest n k v).1, (setAttr_rest n k v).2, fun k' h => by rw [get_setAttr n hn, if_neg h]⟩

theorem lower_boolStr (b : Bool) : (lower (boolStr b) = "true".toList) = (b = true) := by
  cases b <;> simp <;> decide +kernel

/-- C57. After `layer.active = x`, `layer.active` is `bool(x)`; no other attribute and nothing inside
the layer changes. -/
theorem c57_active (F : Fl) (n : Node) (hn : n.isTag = true) (x : PV) (b : Bool)
    (hx : x.toBool F = .ok b) :
    (setActive F x n).2 = .ok () ∧ getActive F (setActive F x n).1 = b ∧
      OnlyAttr "active" n (setActive F x n).1 := by
  simp only [setActive, setBoolAttr, hx, true_and]
  refine ⟨?_, setAttr_only n hn _ _⟩
  simp only [getActive, getBoolAttr, get_setAttr n hn, if_true, AttrV.str', lower_boolStr]
  simp

/-- C57. The same for `layer.exclude_from_rendering`. -/
theorem c57_exclude_from_rendering (F : Fl) (n : Node) (hn : n.isTag = true) (x : PV) (b : Bool)
    (hx : x.toBool F = .ok b) :
    (setExclude F x n).2 = .ok () ∧ getExclude F (setExclude F x n).1 = b ∧
      OnlyAttr "exclude_from_rendering" n (setExclude F x n).1 := by
  simp only [setExclude, setBoolAttr, hx, true_and]
  refine ⟨?_, setAttr_only n hn _ _⟩
  simp only [getExclude, getBoolAttr, get_setAttr n hn, if_true, AttrV.str', lower_boolStr]
  simp

/-- C57. After `layer.desc = s`, for any string including `''`, `layer.desc` is `s`. -/
theorem c57_desc_string (F : Fl) (n : Node) (hn : n.isTag = true) (s : Str) :
    (setDesc F (.str s) n).2 = .ok () ∧ getDesc F (setDesc F (.str s) n).1 = some s ∧
      OnlyAttr "desc" n (setDesc F (.str s) n).1 := by
  have e : setDesc F (.str s) n = (n.setAttr "desc" (.str s), .ok ()) := rfl
  rw [e]
  refine ⟨rfl, ?_, setAttr_only n hn _ _⟩
  simp only [getDesc, get_setAttr n hn, if_true, AttrV.str']

theorem get_delAttr (n : Node) (k k' : String) :
    (n.delAttr k).attrs.get k' = if k' = k then none else n.attrs.get k' := by
  cases n with
  | text s => simp [Node.delAttr, Node.attrs, Attrs.get]
  | tag nm a ks =>
    simp only [Node.delAttr, Node.attrs, Attrs.get]
    induction a with
    | nil => simp
    | cons p a ih =>
      obtain ⟨q, v⟩ := p
      by_cases hq : q = k
      · subst hq
        rw [List.filter_cons_of_neg (by simp), ih, List.lookup_cons]
        by_cases h : k' = q
        · simp [h]
        · rw [if_neg h, if_neg h, beq_false_of_ne h]
      · rw [List.filter_cons_of_pos (by simpa using hq), List.lookup_cons, List.lookup_cons, ih]
        by_cases h : k' = q
        · subst h
          simp [hq]
        · rw [beq_false_of_ne h]

/-- C57. After `layer.desc = None`, `layer.desc` is `None` and the attribute is gone. -/
theorem c57_desc_none (F : Fl) (n : Node) :
    (setDesc F .none n).2 = .ok () ∧ getDesc F (setDesc F .none n).1 = none ∧
      (setDesc F .none n).1.attrs.get "desc" = none ∧ OnlyAttr "desc" n (setDesc F .none n).1 := by
  have e : setDesc F .none n = (n.delAttr "desc", .ok ()) := rfl
  rw [e]
  have h : (n.delAttr "desc").attrs.get "desc" = none := by rw [get_delAttr]; simp
  refine ⟨rfl, by simp only [getDesc, h], h, ?_, ?_, fun k' hk => by rw [get_delAttr, if_neg hk]⟩
  · cases n <;> rfl
  · cases n <;> rfl

/-- C57. After `layer.version = x`, `layer.version` is `float(x)` (which is a float, `F.rep q`); if there is no such number nothing changes. -/
theorem c57_version (F : Fl) (d : Defaults) (n : Node) (hn : n.isTag = true) (x : PV) :
    (∀ q, x.toFloat F = .ok q → F.rep q → (setVersion F x n).2 = .ok () ∧
      getVersion F d (setVersion F x n).1 = .ok (.num q) ∧ OnlyAttr "version" n (setVersion F x n).1) ∧
    ∀ e, x.toFloat F = .error e → setVersion F x n = (n, .error e) := by
  refine ⟨fun q hq hr => ?_, fun e he => by simp only [setVersion, he]⟩
  simp only [setVersion, hq, true_and]
  refine ⟨?_, setAttr_only n hn _ _⟩
  simp only [getVersion, get_setAttr n hn, if_true, AttrV.toFloat]
  rw [hr]

/-- C57 on a concrete layer. -/
example : let n : Node := .tag "layer" [("type", .str "circle".toList), ("desc", .str "head".toList)] []
    getActive double n = true ∧ getVersion double .initial (setVersion double (.str "0.5".toList) n).1 = .ok (.num (1 / 2)) ∧
    getActive double (setActive double (.int 0) n).1 = false ∧
    getDesc double (setDesc double .none n).1 = none ∧
    getDesc double (setDesc double (.str []) n).1 = some [] := by decide +kernel

/-! ## C58: what can't be set -/

/-- C58. Reading or writing a field that isn't implemented raises `NotImplementedError` and changes
nothing. -/
theorem c58_not_implemented (F : Fl) (k : String) (x : PV) (n : Node) :
    getField k .notImpl n = .error .notImpl ∧ setField F k .notImpl x n = (n, .error .notImpl) :=
  ⟨rfl, rfl⟩

/-- C58. `type_` can't be set (on a layer whose class doesn't redefine it). -/
theorem c58_type_is_fixed (x : PV) (n : Node) : setType n x = (n, .error .value) := rfl

/-- C58 isn't vacuous: fourteen classes have fields that aren't implemented. -/
example : (layerClasses.filter fun c => c.fields.any fun f => f.2 = .notImpl).length ≠ 0 := by
  decide +kernel

/-! ## C59: parent and depth -/

/-- C59. `layer.parent` is the nearest enclosing layer, or `None`; an exception if its type is
unknown. `layer.tag_depth` is the number of enclosing layers. -/
theorem c59_parent_and_depth (anc : List Node) :
    ((∀ x ∈ anc, isLayerElt x = false) → layerParent anc = .ok none) ∧
    (∀ a p b c, anc = a ++ p :: b → (∀ x ∈ a, isLayerElt x = false) → isLayerElt p = true →
      layerOf p = .ok c → layerParent anc = .ok (some (c, p))) ∧
    tagDepth anc = (layersIn anc).length := by
  have hname : ∀ x : Node, (decide (x.name = "layer")) = isLayerElt x := by
    intro x
    cases x with
    | text s => rfl
    | tag nm a ks => by_cases h : nm = "layer" <;> simp [Node.name, isLayerElt, h]
  simp only [layerParent, tagDepth, hname]
  refine ⟨fun h => ?_, fun a p b c e h1 h2 h3 => ?_, rfl⟩
  · rw [List.find?_eq_none.2 (fun x hx => by simp [h x hx])]
  · have : anc.find? isLayerElt = some p := by
      rw [e, List.find?_append, List.find?_eq_none.2 (fun x hx => by simp [h1 x hx])]
      simp [h2]
    rw [this]
    simp only [h3]

/-- C59. A child of a group has the group as its parent, and one more depth than the group. -/
theorem c59_child {root : Node} {anc : List Node} {f : Frame} (hf : f.Ok) {ks : List Node} {c : LClass}
    (hin : Inside root anc (f.plug ks)) (hname : f.name = "layer")
    (hc : layerOf (f.plug ks) = .ok c) {l : List LObj} (hl : children .group (f.plug ks) = .ok l)
    {x : LObj} (hx : x ∈ l) :
    ∃ anc', Inside root anc' x.2 ∧ layerParent anc' = .ok (some (c, f.plug ks)) ∧
      tagDepth anc' = tagDepth anc + 1 := by
  have hl' := (c44_children (h := .group f) hf ks l).1 hl
  have hmem : x.2 ∈ ks := by
    have : x.2 ∈ l.map Prod.snd := List.mem_map_of_mem hx
    rw [hl'.1, List.mem_reverse] at this
    exact (List.mem_filter.1 this).1
  have hg : isLayerElt (f.plug ks) = true := by simp [Frame.plug, isLayerElt, hname]
  refine ⟨.tag "canvas" f.cattrs ks ::
    .tag "param" f.pattrs (f.ppre ++ .tag "canvas" f.cattrs ks :: f.ppost) :: f.plug ks :: anc, ?_, ?_, ?_⟩
  · exact .kid (.kid (.kid hin (by simp [Frame.plug, Node.kids])) (by simp [Node.kids])) hmem
  · refine (c59_parent_and_depth _).2.1 [_, _] _ anc c rfl ?_ hg hc
    intro y hy
    simp only [List.mem_cons, List.not_mem_nil, or_false] at hy
    rcases hy with rfl | rfl <;> rfl
  · rw [(c59_parent_and_depth _).2.2, (c59_parent_and_depth _).2.2]
    rw [layersIn, List.filter_cons_of_neg (by simp [isLayerElt]),
      List.filter_cons_of_neg (by simp [isLayerElt]), List.filter_cons_of_pos hg, List.length_cons]
    rfl

/-- C59 on a concrete document: a circle in a group in an animation. -/
example : let g := exFrame.plug [exLayer "circle"]
    let root : Node := .tag "canvas" [] [g]
    Inside root [root] g ∧ layerParent [root] = .ok none ∧ tagDepth [root] = 0 ∧
    children .group g = .ok [(lcCircle, exLayer "circle")] ∧ layerOf g = .ok lcGroup := by
  refine ⟨.kid .root (by simp [Node.kids]), ?_⟩
  decide +kernel

/-! ## C55: new layers have their defaults -/

/-- The value in an element of class `c`, read by way of the library, is the default `d` of the
source. Real numbers are the nearest floats. -/
def showsSimple (F : Fl) (c : VCls) (v : Node) (d : Lit) : Bool :=
  match c, d with
  | .real, .float q => getFloat F v = .ok (F.rnd q)
  | .angle, .float q => getFloat F v = .ok (F.rnd q)
  | .integer, .int i => getInt v = .ok i
  | .bool, .bool b => getBool v = .ok b
  | .string, .str s => getString v = s.toList
  | .color, .tuple l => colorTuple F v = .ok (l.map F.rnd)
  | .vector, .tuple [x, y] =>
    vectorAttr F v "x" = .ok (F.rnd x) ∧ vectorAttr F v "y" = .ok (F.rnd y)
  | .canvas, .layers => canvasLayers v = .ok []
  | _, _ => false

/-- The same, for gradients and transformations as well. -/
def shows (F : Fl) (c : VCls) (v : Node) (d : Lit) : Bool :=
  match c, d with
  | .gradient, .stops l => match gradientStops F v with
    | .error _ => false
    | .ok m => m.length = l.length ∧ (m.zip l).all fun p =>
        p.1.1 = F.rnd p.2.1 ∧ colorTuple F p.1.2 = .ok (p.2.2.map F.rnd)
  | .composite, .parts l => l.length = 4 ∧ requiredKeys.all fun k => match compositeGet v k.1 with
    | .error _ => false
    | .ok (c', w) => decide (c' = k.2) && match l.lookup k.1 with
      | some [q] => showsSimple F c' w (.float q)
      | some ps => showsSimple F c' w (.tuple ps)
      | none => false
  | c, d => showsSimple F c v d

/-- A new layer of class `c`: can it be made, and do its params other than times read back? -/
def defaultsShow (F : Fl) (c : LClass) : Bool :=
  match newLayer F c with
  | .error _ => false
  | .ok n => c.fields.all fun f => match f.2 with
    | .param .time _ => true
    | .param cls d => match getField f.1 f.2 n with
      | .error _ => false
      | .ok (c', v) => decide (c' = cls) && shows F cls v d
    | _ => true

theorem defaultsShow_all :
    (layerClasses.filter fun c => c ≠ lcHalftone3).all (defaultsShow double) = true := by
  decide +kernel

/-- C55, what holds. Every layer class but one can be made without arguments; the new layer's type is
the class's name in lower case, its version is the class's, and every field reads back the default
declared for it, except for blend methods (`c55_blend_method_unreadable`) and times
(`c55_zero_times_unreadable`, `c55_one_second_times`). -/
theorem c55_new_layer_defaults_partial (c : LClass) (hc : c ∈ layerClasses) (hne : c ≠ lcHalftone3) :
    ∃ n, newLayer double c = .ok n ∧
      n.attrs.get "type" = some (.str (c.name.toList.map Char.toLower)) ∧
      n.attrs.get "version" = some (.str (c.version.getD "0.0").toList) ∧
      getActive double n = true ∧ getExclude double n = false ∧ getDesc double n = none ∧
      ∀ k cls d, (k, LField.param cls d) ∈ c.fields → cls ≠ .time →
        ∃ v, getField k (.param cls d) n = .ok (cls, v) ∧ shows double cls v d = true := by
  have h := List.all_eq_true.1 defaultsShow_all c (List.mem_filter.2 ⟨hc, by simpa using hne⟩)
  unfold defaultsShow at h
  cases hn : newLayer double c with
  | error e => rw [hn] at h; cases h
  | ok n =>
    rw [hn] at h
    have hattrs : n.attrs = layerAttrs c := by
      simp only [newLayer] at hn
      split at hn
      · cases hn
      · injection hn with hn; rw [← hn]; rfl
    refine ⟨n, rfl, by rw [hattrs, ← lower_eq]; rfl, by rw [hattrs]; rfl, ?_, ?_, ?_, ?_⟩
    · have : n.attrs.get "active" = some (.str "true".toList) := by rw [hattrs]; rfl
      rw [getActive, getBoolAttr, this]; decide +kernel
    · have : n.attrs.get "exclude_from_rendering" = some (.str "false".toList) := by rw [hattrs]; rfl
      rw [getExclude, getBoolAttr, this]; decide +kernel
    · have : n.attrs.get "desc" = none := by rw [hattrs]; rfl
      rw [getDesc, this]
    · intro k cls d hk hcls
      have hf := List.all_eq_true.1 h _ hk
      simp only at hf
      split at hf
      · cases hf
      · next c' v hv =>
        simp only [Bool.and_eq_true, decide_eq_true_eq] at hf
        obtain ⟨rfl, hs⟩ := hf
        exact ⟨v, hv, hs⟩

/-- C55 fails for one class: `Halftone3()` raises an exception. -/
theorem c55_halftone3_cannot_be_made : newLayer double lcHalftone3 = .error .attr := by
  decide +kernel

/-- C55 fails for blend methods: a field of that kind can never be read, in any document. -/
theorem c55_blend_method_unreadable (k : String) (i : ℤ) (n : Node) :
    ∃ e, getField k (.blend i) n = .error e := by
  simp only [getField]
  cases fieldValue k n with
  | error e => exact ⟨e, rfl⟩
  | ok p => exact ⟨_, rfl⟩

/-- In a new layer, for every class with a blend method, it is `AssertionError`. -/
theorem c55_blend_method_fails : ∀ c ∈ layerClasses, c ≠ lcHalftone3 → ∀ k i,
    (k, LField.blend i) ∈ c.fields →
    ∃ n, newLayer double c = .ok n ∧ getField k (.blend i) n = .error .assertion := by
  have h : (layerClasses.filter fun c => c ≠ lcHalftone3).all (fun c => match newLayer double c with
      | .error _ => false
      | .ok n => c.fields.all fun f => match f.2 with
        | .blend i => match getField f.1 (.blend i) n with
          | .error .assertion => true
          | _ => false
        | _ => true) = true := by decide +kernel
  intro c hc hne k i hk
  have h1 := List.all_eq_true.1 h c (List.mem_filter.2 ⟨hc, by simpa using hne⟩)
  cases hn : newLayer double c with
  | error e => rw [hn] at h1; cases h1
  | ok n =>
    rw [hn] at h1
    have h2 := List.all_eq_true.1 h1 _ hk
    simp only at h2
    refine ⟨n, rfl, ?_⟩
    split at h2
    · next e => exact e
    · cases h2

/-- C55, what holds for blend methods: the number of the declared default is in the new layer's element, and
`layer[k]` gives it. -/
theorem c55_blend_method_stored : ∀ c ∈ layerClasses, c ≠ lcHalftone3 → ∀ k i,
    (k, LField.blend i) ∈ c.fields →
    ∃ n v, newLayer double c = .ok n ∧ getParam k.toList n = .ok (.integer, v) ∧ getInt v = .ok i := by
  have h : (layerClasses.filter fun c => c ≠ lcHalftone3).all (fun c => match newLayer double c with
      | .error _ => false
      | .ok n => c.fields.all fun f => match f.2 with
        | .blend i => match getParam f.1.toList n with
          | .ok (.integer, v) => decide (getInt v = .ok i)
          | _ => false
        | _ => true) = true := by decide +kernel
  intro c hc hne k i hk
  have h1 := List.all_eq_true.1 h c (List.mem_filter.2 ⟨hc, by simpa using hne⟩)
  cases hn : newLayer double c with
  | error e => rw [hn] at h1; cases h1
  | ok n =>
    rw [hn] at h1
    have h2 := List.all_eq_true.1 h1 _ hk
    simp only at h2
    split at h2
    · next v e => exact ⟨n, v, rfl, e, of_decide_eq_true h2⟩
    · cases h2

/-- C55 fails for the times whose default is 0: they are written as `0`, which can't be read, in any
animation. -/
theorem c55_zero_times_unreadable : ∀ c ∈ layerClasses, ∀ k,
    (k, LField.param .time (.int 0)) ∈ c.fields →
    ∃ n v, newLayer double c = .ok n ∧ getField k (.param .time (.int 0)) n = .ok (.time, v) ∧
      ∀ root, ∃ e, getTime double root v = .error e := by
  have h : layerClasses.all (fun c => match newLayer double c with
      | .error _ => decide (c = lcHalftone3)
      | .ok n => c.fields.all fun f => match f.2 with
        | .param .time (.int 0) => decide (getField f.1 (.param .time (.int 0)) n =
            .ok (.time, .tag "time" [("value", .str ['0'])] []))
        | _ => true) = true := by decide +kernel
  intro c hc k hk
  have h1 := List.all_eq_true.1 h c hc
  cases hn : newLayer double c with
  | error e =>
    rw [hn] at h1
    have : c = lcHalftone3 := by simpa using h1
    subst this
    have : ∀ f ∈ lcHalftone3.fields, f.2 ≠ .param .time (.int 0) := by decide +kernel
    exact absurd rfl (this _ hk)
  | ok n =>
    rw [hn] at h1
    have h2 := List.all_eq_true.1 h1 _ hk
    simp only [decide_eq_true_eq] at h2
    refine ⟨n, _, rfl, h2, fun root => ?_⟩
    have hp : ∀ fps, parseSpec double fps ['0'] = .error .value := by
      intro fps
      have : collectParts double [] (specSplit 0 [] (strip ['0'])) = .error .value := by decide +kernel
      rw [parseSpec, this]
    have ht : simpleText (.tag "time" [("value", .str ['0'])] []) = .ok ['0'] := rfl
    simp only [getTime, ht, T.new]
    cases readFps double root with
    | error e => exact ⟨e, rfl⟩
    | ok fps => exact ⟨.value, by simp only [hp]⟩

/-- C55: the times whose default is one second are as far as the API allows: they read as `T('1s')` in
the animation, which needs a frame rate. -/
theorem c55_one_second_times : ∀ c ∈ layerClasses, ∀ k,
    (k, LField.param .time (.str "1s")) ∈ c.fields →
    ∃ n v, newLayer double c = .ok n ∧ getField k (.param .time (.str "1s")) n = .ok (.time, v) ∧
      ∀ root, getTime double root v = T.new double root (.str "1s".toList) := by
  have h : layerClasses.all (fun c => match newLayer double c with
      | .error _ => decide (c = lcHalftone3)
      | .ok n => c.fields.all fun f => match f.2 with
        | .param .time (.str "1s") => decide (getField f.1 (.param .time (.str "1s")) n =
            .ok (.time, .tag "time" [("value", .str "1s".toList)] []))
        | _ => true) = true := by decide +kernel
  intro c hc k hk
  have h1 := List.all_eq_true.1 h c hc
  cases hn : newLayer double c with
  | error e =>
    rw [hn] at h1
    have : c = lcHalftone3 := by simpa using h1
    subst this
    have : ∀ f ∈ lcHalftone3.fields, f.2 ≠ .param .time (.str "1s") := by decide +kernel
    exact absurd rfl (this _ hk)
  | ok n =>
    rw [hn] at h1
    have h2 := List.all_eq_true.1 h1 _ hk
    simp only [decide_eq_true_eq] at h2
    exact ⟨n, _, rfl, h2, fun root => rfl⟩

/-- All the time fields are of one of the two kinds. -/
theorem c55_time_fields : ∀ c ∈ layerClasses, ∀ f ∈ c.fields, ∀ d, f.2 = .param .time d →
    d = .int 0 ∨ d = .str "1s" := by
  have h : layerClasses.all (fun c => c.fields.all fun f => match f.2 with
      | .param .time d => decide (d = .int 0 ∨ d = .str "1s")
      | _ => true) = true := by decide +kernel
  intro c hc f hf d hd
  have := List.all_eq_true.1 (List.all_eq_true.1 h c hc) f hf
  rw [hd] at this
  simpa using this

/-- C55 isn't vacuous: there are fifty-six classes, with 391 params that aren't times or blend methods. -/
example : layerClasses.length = 56 ∧
    (layerClasses.map fun c => (c.fields.filter fun f => match f.2 with
      | .param .time _ => false
      | .param _ _ => true
      | _ => false).length).sum = 391 := by decide +kernel

/-! ## C56: types -/

/-- C56. If a layer of a class can be made, the class found for its element is that class again. -/
theorem c56_class_of_new_layer (F : Fl) (c : LClass) (hc : c ∈ layerClasses) (n : Node)
    (hn : newLayer F c = .ok n) : layerOf n = .ok c := by
  have hattrs : n.attrs = layerAttrs c := by
    simp only [newLayer] at hn
    split at hn
    · cases hn
    · injection hn with hn; rw [← hn]; rfl
  have ht : n.attrs.get "type" = some (.str (lower c.name.toList)) := by rw [hattrs]; rfl
  simp only [layerOf, ht]
  have : ∀ c ∈ layerClasses, layerRegistry.fromName (lower c.name.toList) = .ok c := by decide +kernel
  exact this c hc

/-- C56. And for every class, elements with its name as their type, however it is spelled in capitals
and underscores, are given that class. -/
theorem c56_class_of_type (c : LClass) (hc : c ∈ layerClasses) (n : Node) (s : Str)
    (hs : n.attrs.get "type" = some (.str s))
    (hsame : SameName s c.name.toList) : layerOf n = .ok c := by
  rw [sameName_iff] at hsame
  simp only [layerOf, hs, Registry.fromName, hsame]
  have : ∀ c ∈ layerClasses, layerRegistry.lookup (normaliseName c.name.toList) = some c := by
    decide +kernel
  rw [this c hc]

/-! ## C83: layers don't affect each other -/

/-- C83, what holds. A layer's type and version read the same before and after another layer is made,
if its element has those attributes. Missing: elements without them; there it fails
(`c83_type_fails`, `c83_version_fails`). -/
theorem c83_unaffected_partial (F : Fl) (c : LClass) (d : Defaults) (n : Node) :
    ((n.attrs.get "type").isSome → getType (newLayerDefaults F c d) n = getType d n) ∧
    ((n.attrs.get "version").isSome →
      getVersion F (newLayerDefaults F c d) n = getVersion F d n) := by
  constructor
  · intro h
    obtain ⟨a, ha⟩ := Option.isSome_iff_exists.1 h
    rw [getType, getType, ha]
    cases a <;> rfl
  · intro h
    obtain ⟨a, ha⟩ := Option.isSome_iff_exists.1 h
    rw [getVersion, getVersion, ha]

/-- C83: before any layer has been made, an element without a type reads as a `layer` of version 0. -/
theorem c83_at_first (F : Fl) (n : Node) :
    (n.attrs.get "type" = none → getType .initial n = .ok "layer".toList) ∧
    (n.attrs.get "version" = none → getVersion F .initial n = .ok (.num 0)) := by
  constructor
  · intro h; rw [getType, h]; rfl
  · intro h; rw [getVersion, h]; rfl

/-- C83 fails: whatever layer is made, the type of every element without one (such as an animation)
becomes that of the new layer. -/
theorem c83_type_fails (F : Fl) (c : LClass) (d : Defaults) (m n : Node) (hm : newLayer F c = .ok m)
    (hn : n.attrs.get "type" = none) :
    getType (newLayerDefaults F c d) n = .ok (c.name.toList.map Char.toLower) := by
  rw [← lower_eq]
  simp only [getType, hn, newLayerDefaults, hm, Defaults.of]

/-- C83 fails: and so does its version. -/
theorem c83_version_fails (F : Fl) (c : LClass) (d : Defaults) (m n : Node) (hm : newLayer F c = .ok m)
    (hn : n.attrs.get "version" = none) (v : String) (hv : c.version = some v) :
    getVersion F (newLayerDefaults F c d) n = .ok (.text v) := by
  simp only [getVersion, hn, newLayerDefaults, hm, Defaults.of, hv]

/-- C83 on a concrete animation: a circle, then a group, is made. -/
example : let n : Node := .tag "canvas" [] []
    getType .initial n = .ok "layer".toList ∧
    getType (newLayerDefaults double lcCircle .initial) n = .ok "circle".toList ∧
    getType (newLayerDefaults double lcGroup (newLayerDefaults double lcCircle .initial)) n =
      .ok "group".toList ∧
    getVersion double (newLayerDefaults double lcGroup .initial) n = .ok (.text "0.3") := by
  decide +kernel

end Sang
