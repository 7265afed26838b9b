import Verif.Spec.Shortcuts
import Verif.Props.FindAttr

/-! # C148: the shortcuts of a group, over time -/

namespace Sang
open Spec

theorem fromTag_transformation {a : Attrs} (ha : a.get "type" = some (.str "transformation".toList))
    (ks : List Node) : fromTag (.tag "composite" a ks) = .ok .composite := by
  have h1 : valueRegistry.fromName "composite".toList = .ok .composite := by decide +kernel
  have h2 : lower "transformation".toList = "transformation".toList := by decide +kernel
  have h3 : compositeCheck (.tag "composite" a ks) = .ok () := by
    simp only [compositeCheck, strAttr, Node.attrs, ha]
    rw [if_pos h2]
  have hne : (Node.tag "composite" a ks).name ≠ "animated" := by
    show "composite" ≠ "animated"
    decide
  rw [fromTag, if_neg hne]
  have hn : (Node.tag "composite" a ks).name.toList = "composite".toList := rfl
  rw [hn]
  simp only [h1, h3]

/-- C148. A shortcut reads the part of the group's own transformation that it is named after. -/
theorem c148_reads {s : Slot} (h : s.Ok "transformation".toList) {a : Attrs}
    (ha : a.get "type" = some (.str "transformation".toList)) (ks : List Node) (key : String) :
    getShortcut key (s.plug (.tag "composite" a ks)) = compositeGet (.tag "composite" a ks) key := by
  rw [getShortcut, c54_field_reads_own_partial h rfl (fromTag_transformation ha _)]

/-- What a part is kept in. -/
def partKids (F : Fl) (key : String) (v : PV) : List Node :=
  match constructPart F ((requiredKeys.lookup key).getD .angle) v with
  | .ok t => [.tag key [] [t, .text ['\n']]]
  | .error _ => []

theorem shortcut_key {key : String} (hk : key ∈ shortcuts) : ∃ c, requiredKeys.lookup key = some c := by
  simp only [shortcuts, List.mem_cons, List.not_mem_nil, or_false] at hk
  rcases hk with rfl | rfl | rfl | rfl
  · exact ⟨_, rfl⟩
  · exact ⟨_, rfl⟩
  · exact ⟨_, rfl⟩
  · exact ⟨_, rfl⟩

theorem setShortcut_plug {F : Fl} {s : Slot} (h : s.Ok "transformation".toList) {a : Attrs} {ks : List Node}
    (ha : a.get "type" = some (.str "transformation".toList)) {key : String} (hk : key ∈ shortcuts) (v : PV) :
    setShortcut F key v (s.plug (.tag "composite" a ks)) =
      (s.plug (.tag "composite" a (partKids F key v)),
        match constructPart F ((requiredKeys.lookup key).getD .angle) v with
        | .ok _ => .ok ()
        | .error e => .error e) := by
  obtain ⟨c, hc⟩ := shortcut_key hk
  rw [setShortcut, c54_field_writes_own_partial h rfl (fromTag_transformation ha ks)]
  have : ∀ F, setValue F .composite (.dict [(key, v)]) (.tag "composite" a ks) =
      setComposite F (.dict [(key, v)]) (.tag "composite" a ks) := fun _ => rfl
  rw [this]
  cases ht : constructPart F c v with
  | ok t =>
    simp only [setComposite_one hc ht, partKids, hc, Option.getD_some, ht]
  | error e =>
    simp [setComposite, compositeArg, hc, appendParts, ht, Node.setKids, partKids]

theorem assign_plug {F : Fl} {s : Slot} (h : s.Ok "transformation".toList) {a : Attrs}
    (ha : a.get "type" = some (.str "transformation".toList)) (l : List (String × PV))
    (hl : ∀ p ∈ l, p.1 ∈ shortcuts) (ks : List Node) :
    ∃ ks', assignShortcuts F (s.plug (.tag "composite" a ks)) l = s.plug (.tag "composite" a ks') ∧
      ∀ key v, l.getLast? = some (key, v) → ks' = partKids F key v := by
  induction l generalizing ks with
  | nil => exact ⟨ks, rfl, by simp⟩
  | cons p l ih =>
    obtain ⟨key, v⟩ := p
    rw [assignShortcuts, setShortcut_plug h ha (hl (key, v) (by simp))]
    obtain ⟨ks', h1, h2⟩ := ih (fun q hq => hl q (by simp [hq])) (partKids F key v)
    refine ⟨ks', h1, fun key' v' e => ?_⟩
    cases l with
    | nil =>
      simp only [List.getLast?_singleton, Option.some.injEq, Prod.mk.injEq] at e
      obtain ⟨rfl, rfl⟩ := e
      simp only [assignShortcuts] at h1
      have hi : ∀ u w : Node, s.plug u = s.plug w → u = w := by
        intro u w e
        simp only [Slot.plug, Node.tag.injEq, true_and] at e
        simpa using e
      have := hi _ _ h1
      simp only [Node.tag.injEq, true_and] at this
      exact this.symm
    | cons q l =>
      apply h2
      rwa [List.getLast?_cons_cons] at e

/-- C148. Whatever is assigned to shortcuts of a group, in whatever order, with exceptions on the way or
not: everything in the group but its own transformation stays as it was, and only the last assignment
counts. -/
theorem c148_history {F : Fl} {s : Slot} (h : s.Ok "transformation".toList) {a : Attrs} {ks : List Node}
    (ha : a.get "type" = some (.str "transformation".toList)) (l : List (String × PV))
    (hl : ∀ p ∈ l, p.1 ∈ shortcuts) (key : String) (hk : key ∈ shortcuts) (v : PV) :
    (∃ ks', assignShortcuts F (s.plug (.tag "composite" a ks)) (l ++ [(key, v)]) =
      s.plug (.tag "composite" a ks')) ∧
    assignShortcuts F (s.plug (.tag "composite" a ks)) (l ++ [(key, v)]) =
      (setShortcut F key v (s.plug (.tag "composite" a ks))).1 := by
  obtain ⟨ks', h1, h2⟩ := assign_plug (F := F) h ha (l ++ [(key, v)]) (by
    intro p hp
    rcases List.mem_append.1 hp with hp | hp
    · exact hl p hp
    · rw [List.mem_singleton] at hp; subst hp; exact hk) ks
  refine ⟨⟨ks', h1⟩, ?_⟩
  rw [h1, setShortcut_plug h ha hk, h2 key v (by simp)]

theorem compositeGet_one {key : String} {t : Node} {c : VCls} (ht : t.isTag = true) (hc : fromTag t = .ok c)
    (nm : String) (a : Attrs) : compositeGet (.tag nm a [.tag key [] [t, .text ['\n']]]) key = .ok (c, t) := by
  have h1 : List.filter Node.isTag [t, .text ['\n']] = [t] := by
    rw [List.filter_cons_of_pos ht]; rfl
  have h2 : List.filter Node.isTag [Node.tag key [] [t, .text ['\n']]] = [Node.tag key [] [t, .text ['\n']]] := rfl
  simp only [compositeGet, Node.tagKids, Node.kids, h2]
  rw [List.filter_cons_of_pos (by simp [Node.name]), List.filter_nil]
  simp only [h1, hc]

/-- C148, the partial property: a shortcut reads what was last assigned to it, as long as nothing has
been assigned to another since; angles exactly. Missing: the others can't be read
(`c148_others_lost`). -/
theorem c148_angle_partial {F : Fl} (hF : F.Lawful) {s : Slot} (h : s.Ok "transformation".toList) {a : Attrs}
    {ks : List Node} (ha : a.get "type" = some (.str "transformation".toList)) (l : List (String × PV))
    (hl : ∀ p ∈ l, p.1 ∈ shortcuts) {key : String} (hk : key = "angle" ∨ key = "skew_angle") {q : ℚ}
    (hq : F.rep q) :
    ∃ m, getShortcut key (assignShortcuts F (s.plug (.tag "composite" a ks)) (l ++ [(key, .float q)])) =
      .ok (.angle, m) ∧ getFloat F m = .ok q := by
  have hk' : key ∈ shortcuts := by rcases hk with rfl | rfl <;> simp [shortcuts]
  rw [(c148_history h ha l hl key hk' _).2, setShortcut_plug h ha hk', c148_reads h ha]
  refine ⟨angleNode F q, ?_, pyFloat_reprF hF hq⟩
  have hp : partKids F key (.float q) = [.tag key [] [angleNode F q, .text ['\n']]] := by
    rcases hk with rfl | rfl <;> rfl
  rw [hp, compositeGet_one rfl (fromTag_angle F q)]

/-- C148, the partial property for vectors: to ten decimals. -/
theorem c148_vector_partial {F : Fl} (hF : F.Lawful) {s : Slot} (h : s.Ok "transformation".toList) {a : Attrs}
    {ks : List Node} (ha : a.get "type" = some (.str "transformation".toList)) (l : List (String × PV))
    (hl : ∀ p ∈ l, p.1 ∈ shortcuts) {key : String} (hk : key = "offset" ∨ key = "scale") (x y : ℚ) :
    ∃ m x' y', getShortcut key (assignShortcuts F (s.plug (.tag "composite" a ks))
        (l ++ [(key, .tuple [.float x, .float y])])) = .ok (.vector, m) ∧
      vectorTuple F m = .ok [x', y'] ∧ NearTen x' x ∧ NearTen y' y := by
  have hk' : key ∈ shortcuts := by rcases hk with rfl | rfl <;> simp [shortcuts]
  rw [(c148_history h ha l hl key hk' _).2, setShortcut_plug h ha hk', c148_reads h ha]
  refine ⟨vecNode x y, _, _, ?_, vectorTuple_pair F [] [] (by simp) _ _, fixed_read_err hF 10 _,
    fixed_read_err hF 10 _⟩
  have hp : partKids F key (.tuple [.float x, .float y]) = [.tag key [] [vecNode x y, .text ['\n']]] := by
    rcases hk with rfl | rfl <;> rfl
  rw [hp, compositeGet_one rfl (fromTag_vec x y)]

/-- C148 fails: after any assignment to a shortcut the other three raise `KeyError` when read; and all four
do if the assignment itself raised an exception. -/
theorem c148_others_lost {F : Fl} {s : Slot} (h : s.Ok "transformation".toList) {a : Attrs} {ks : List Node}
    (ha : a.get "type" = some (.str "transformation".toList)) (l : List (String × PV))
    (hl : ∀ p ∈ l, p.1 ∈ shortcuts) (key : String) (hk : key ∈ shortcuts) (v : PV) :
    (∀ key' ≠ key, getShortcut key' (assignShortcuts F (s.plug (.tag "composite" a ks)) (l ++ [(key, v)])) =
      .error .key) ∧
    (∀ e, (setShortcut F key v (assignShortcuts F (s.plug (.tag "composite" a ks)) l)).2 = .error e →
      ∀ key', getShortcut key' (assignShortcuts F (s.plug (.tag "composite" a ks)) (l ++ [(key, v)])) =
        .error .key) := by
  have hlast : (setShortcut F key v (assignShortcuts F (s.plug (.tag "composite" a ks)) l)).2 =
      (setShortcut F key v (s.plug (.tag "composite" a ks))).2 := by
    obtain ⟨ks', h1, _⟩ := assign_plug (F := F) h ha l hl ks
    rw [h1, setShortcut_plug h ha hk, setShortcut_plug h ha hk]
  rw [hlast, (c148_history h ha l hl key hk v).2, setShortcut_plug h ha hk]
  refine ⟨fun key' hne => ?_, fun e he key' => ?_⟩
  · rw [c148_reads h ha, partKids]
    cases constructPart F ((requiredKeys.lookup key).getD .angle) v with
    | ok t => simp [compositeGet, Node.tagKids, Node.kids, Node.isTag, Node.name, hne.symm]
    | error e => rfl
  · rw [c148_reads h ha, partKids]
    cases hc : constructPart F ((requiredKeys.lookup key).getD .angle) v with
    | ok t => rw [hc] at he; cases he
    | error e => rfl

/-- C148 fails: the transformation as a whole can't be read either. -/
theorem c148_whole_unreadable {F : Fl} {s : Slot} (h : s.Ok "transformation".toList) {a : Attrs}
    {ks : List Node} (ha : a.get "type" = some (.str "transformation".toList)) (l : List (String × PV))
    (hl : ∀ p ∈ l, p.1 ∈ shortcuts) (key : String) (hk : key ∈ shortcuts) (v : PV) :
    ∃ m, getField "transformation" (.param .composite .none)
        (assignShortcuts F (s.plug (.tag "composite" a ks)) (l ++ [(key, v)])) = .ok (.composite, m) ∧
      ∀ r, compositeDict m ≠ .ok r := by
  rw [(c148_history h ha l hl key hk v).2, setShortcut_plug h ha hk,
    c54_field_reads_own_partial h rfl (fromTag_transformation ha _)]
  refine ⟨_, rfl, fun r hr => ?_⟩
  rw [partKids] at hr
  have hsame : ∀ x : String × VCls × Node, sameKeys [x.1] (requiredKeys.map Prod.fst) = false := by
    intro x
    rw [Bool.eq_false_iff]
    intro hs
    simp only [sameKeys, Bool.and_eq_true, List.all_eq_true, requiredKeys, List.map_cons, List.map_nil] at hs
    have h1 := hs.2 "offset" (by simp)
    have h2 := hs.2 "angle" (by simp)
    simp at h1 h2
    rw [← h2] at h1
    exact absurd h1 (by decide)
  cases hc : constructPart F ((requiredKeys.lookup key).getD .angle) v with
  | error e =>
    rw [hc] at hr
    exact absurd hr (by rw [show compositeDict (.tag "composite" a []) = .error .assertion from rfl]; simp)
  | ok t =>
    rw [hc] at hr
    simp only [compositeDict, Node.tagKids, Node.kids] at hr
    rw [List.filter_cons_of_pos rfl, List.filter_nil] at hr
    cases hf : compositeField (.tag key [] [t, .text ['\n']]) with
    | error e => simp only [mapRes, hf] at hr; cases hr
    | ok x =>
      simp only [mapRes, hf, List.foldl_cons, List.foldl_nil, dictSet, List.map_cons, List.map_nil,
        hsame, if_false, Bool.false_eq_true] at hr
      cases hr

/-- C148, what helps: assigning a dict with all four parts to the transformation. Then each shortcut
reads its part, whatever had been assigned to shortcuts before. -/
theorem c148_restored {F : Fl} (hF : F.Lawful) {s : Slot} (h : s.Ok "transformation".toList) {a : Attrs}
    {ks : List Node} (ha : a.get "type" = some (.str "transformation".toList)) (l : List (String × PV))
    (hl : ∀ p ∈ l, p.1 ∈ shortcuts) (p : TransParts) (hp : F.rep p.angle) (hs : F.rep p.skewAngle)
    {d : List (String × PV)} (hd : d.Perm p.dict) :
    ∃ n, setField F "transformation" (.param .composite .none) (.dict d)
        (assignShortcuts F (s.plug (.tag "composite" a ks)) l) = (n, .ok ()) ∧
      (∃ m, getShortcut "angle" n = .ok (.angle, m) ∧ getFloat F m = .ok p.angle) ∧
      (∃ m, getShortcut "skew_angle" n = .ok (.angle, m) ∧ getFloat F m = .ok p.skewAngle) ∧
      (∃ m x y, getShortcut "offset" n = .ok (.vector, m) ∧ vectorTuple F m = .ok [x, y] ∧
        NearTen x p.offset.1 ∧ NearTen y p.offset.2) ∧
      (∃ m x y, getShortcut "scale" n = .ok (.vector, m) ∧ vectorTuple F m = .ok [x, y] ∧
        NearTen x p.scale.1 ∧ NearTen y p.scale.2) := by
  obtain ⟨ks', h1, _⟩ := assign_plug (F := F) h ha l hl ks
  rw [h1, c54_field_writes_own_partial h rfl (fromTag_transformation ha _)]
  obtain ⟨n', e1, e2⟩ := c28_transformation_roundtrip hF p hp hs d hd (.tag "composite" a ks') rfl
  have e3 := setComposite_ok F p hd "composite" a ks'
  rw [e1] at e3
  injection e3 with e3 _
  refine ⟨s.plug n', by rw [e1], ?_⟩
  rw [e3] at e2 ⊢
  simpa only [c148_reads h ha] using e2

/-- C148, what follows for searches: in a document with a group one of whose shortcuts has been assigned
to, a search for another shortcut raises an exception, wherever the group is. -/
theorem c148_search_raises {F : Fl} {d : Defaults} {s : Slot} (h : s.Ok "transformation".toList) {a : Attrs}
    {ks : List Node} (ha : a.get "type" = some (.str "transformation".toList)) (l : List (String × PV))
    (hl : ∀ p ∈ l, p.1 ∈ shortcuts) {key : String} (hk : key ∈ shortcuts) {v : PV} {key' : String}
    (hk' : key' ∈ shortcuts) (hne : key' ≠ key) {n : Node} {p : Place} (hp : p ≠ [])
    (hx : nodeAt p n = some (assignShortcuts F (s.plug (.tag "composite" a ks)) (l ++ [(key, v)])))
    (hs : s.name = "layer") (hg : s.attrs.get "type" = some (.str "group".toList)) (w : PV)
    (r : List (Place × LObj)) :
    findAllAt F d {kw := [(key', .pv w)]} [] n ≠ .ok r := by
  intro hr
  have hnt : key' ≠ "type" := by
    rintro rfl
    simp [shortcuts] at hk'
  have hlost := (c148_others_lost (F := F) (ks := ks) h ha l hl key hk v).1 key' hne
  obtain ⟨⟨ks', hplug⟩, _⟩ := c148_history (F := F) (ks := ks) h ha l hl key hk v
  rw [hplug] at hx hlost
  have hle : isLayerElt (s.plug (.tag "composite" a ks')) = true := by
    simp [Slot.plug, isLayerElt, hs]
  obtain ⟨b, hb⟩ := matcher_defined (value_targets hnt w).1 (value_targets hnt w).2 hr hp hx hle
  rw [matcher_layer hle] at hb
  have hc : layerOf (s.plug (.tag "composite" a ks')) = .ok lcGroup := by
    have h0 : (s.plug (.tag "composite" a ks')).attrs.get "type" = some (.str "group".toList) := hg
    rw [layerOf, h0]
    decide +kernel
  rw [hc] at hb
  have hat : layerAttr F d key' (lcGroup, s.plug (.tag "composite" a ks')) = .error .key := by
    have hfields : ∀ k ∈ shortcuts, lcGroup.fields.lookup k = none ∧ k ≠ "type_" ∧ k ≠ "active" ∧
        k ≠ "exclude_from_rendering" ∧ k ≠ "desc" ∧ k ≠ "version" ∧
        (lcGroup.isGroup && (requiredKeys.lookup k).isSome) = true := by decide +kernel
    obtain ⟨f1, f2, f3, f4, f5, f6, f7⟩ := hfields key' hk'
    simp only [layerAttr, f1, if_neg f2, if_neg f3, if_neg f4, if_neg f5, if_neg f6, f7, if_true, hlost]
  simp only [meetsAny, tryAttr, hat] at hb
  cases hb

/-- C148's hypotheses are met by a group with a canvas; it loses its scale to an angle, and the angle to
something that is no angle. -/
example :
    let s : Slot := ⟨"layer", [("type", .str "group".toList)], [exParam "z_depth" (exRealTag "1.0")],
      [exParam "canvas" (.tag "canvas" [] [exLayer "circle"])],
      [("name", .str "transformation".toList)], [.text ['\n']], []⟩
    let old : Node := .tag "composite" [("type", .str "transformation".toList)]
      [.tag "angle" [] [angleNode double 0], .tag "scale" [] [vecNode 1 1]]
    s.Ok "transformation".toList ∧
    getShortcut "scale" (s.plug old) = .ok (.vector, vecNode 1 1) ∧
    getShortcut "angle" (assignShortcuts double (s.plug old)
      [("scale", .tuple [.float 2, .float 2]), ("angle", .float 90)]) = .ok (.angle, angleNode double 90) ∧
    (setShortcut double "angle" (.str ['x']) (s.plug old)).2 = .error .value ∧
    getShortcut "angle" (assignShortcuts double (s.plug old) [("angle", .float 90), ("angle", .str ['x'])]) =
      .error .key := by
  refine ⟨⟨rfl, by simp [Node.isTag], by simp, by decide +kernel⟩, ?_⟩
  decide +kernel

/-- An animated value whose type names a transformation, by either of the names it goes by, can't be made
sense of: one name isn't registered, the other is refused. -/
theorem fromTag_animated_transformation {a : Attrs} {t : Str} (ha : a.get "type" = some (.str t))
    (ht : t = "transformation".toList ∨ t = "composite".toList) (ks : List Node) :
    fromTag (.tag "animated" a ks) = .error .key := by
  have h1 : valueRegistry.fromName "composite".toList = .ok .composite := by decide +kernel
  have h2 : valueRegistry.fromName "transformation".toList = .error .key := by decide +kernel
  have h3 : lower "composite".toList ≠ "transformation".toList := by decide +kernel
  have hn : (Node.tag "animated" a ks).name = "animated" := rfl
  have hs : strAttr (.tag "animated" a ks) "type" = .ok t := by simp only [strAttr, Node.attrs, ha]
  rw [fromTag, if_pos hn, hs]
  rcases ht with rfl | rfl
  · simp only [h2]
  · have hc : compositeCheck (.tag "animated" a ks) = .error .key := by
      simp only [compositeCheck, hs]
      rw [if_neg h3]
    simp only [h1, hc]

theorem animated_steps {F : Fl} {s : Slot} (h : s.Ok "transformation".toList) {a : Attrs} {t : Str}
    (ha : a.get "type" = some (.str t)) (ht : t = "transformation".toList ∨ t = "composite".toList)
    (ks : List Node) (key : String) (v : PV) :
    getShortcut key (s.plug (.tag "animated" a ks)) = .error .key ∧
    setShortcut F key v (s.plug (.tag "animated" a ks)) = (s.plug (.tag "animated" a ks), .error .key) ∧
    ∀ d x, setField F "transformation" (.param .composite d) x (s.plug (.tag "animated" a ks)) =
      (s.plug (.tag "animated" a ks), .error .key) := by
  have hf : fieldValue "transformation" (s.plug (.tag "animated" a ks)) = .error .key := by
    simp only [fieldValue, slot_findParam h, slot_tagKids h (v := .tag "animated" a ks) rfl,
      fromTag_animated_transformation ha ht ks]
  refine ⟨?_, ?_, fun d x => ?_⟩
  · simp only [getShortcut, getField, hf]
  · simp only [setShortcut, setField, hf]
  · simp only [setField, hf]

/-- C148 fails for animated transformations: whatever is assigned, by a shortcut or as a whole, is refused
with `KeyError` and nothing changes; and no shortcut can be read before or after. -/
theorem c148_animated {F : Fl} {s : Slot} (h : s.Ok "transformation".toList) {a : Attrs} {t : Str}
    (ha : a.get "type" = some (.str t)) (ht : t = "transformation".toList ∨ t = "composite".toList)
    (ks : List Node) (l : List (String × PV)) (key : String) (v : PV) :
    assignShortcuts F (s.plug (.tag "animated" a ks)) l = s.plug (.tag "animated" a ks) ∧
    (setShortcut F key v (s.plug (.tag "animated" a ks))).2 = .error .key ∧
    getShortcut key (s.plug (.tag "animated" a ks)) = .error .key ∧
    getField "transformation" (.param .composite .none) (s.plug (.tag "animated" a ks)) = .error .key ∧
    setField F "transformation" (.param .composite .none) v (s.plug (.tag "animated" a ks)) =
      (s.plug (.tag "animated" a ks), .error .key) := by
  obtain ⟨h1, h2, h3⟩ := animated_steps (F := F) h ha ht ks key v
  refine ⟨?_, by rw [h2], h1, ?_, h3 _ _⟩
  · induction l with
    | nil => rfl
    | cons p l ih =>
      obtain ⟨k, x⟩ := p
      rw [assignShortcuts, (animated_steps h ha ht ks k x).2.1]
      exact ih
  · simp only [getField, fieldValue, slot_findParam h, slot_tagKids h (v := .tag "animated" a ks) rfl,
      fromTag_animated_transformation ha ht ks]

/-- C148. A group with a transformation that has two waypoints. -/
example : let s : Slot := ⟨"layer", [("type", .str "group".toList)], [], [],
      [("name", .str "transformation".toList)], [], []⟩
    let old : Node := .tag "animated" [("type", .str "transformation".toList)]
      [.tag "waypoint" [("time", .str "0f".toList)]
        [.tag "composite" [("type", .str "transformation".toList)] [.tag "angle" [] [angleNode double 0]]],
       .tag "waypoint" [("time", .str "24f".toList)]
        [.tag "composite" [("type", .str "transformation".toList)] [.tag "angle" [] [angleNode double 90]]]]
    s.Ok "transformation".toList ∧ getShortcut "angle" (s.plug old) = .error .key ∧
    assignShortcuts double (s.plug old) [("angle", .float 3)] = s.plug old := by
  refine ⟨⟨rfl, by simp [Node.isTag], by simp, by decide +kernel⟩, ?_⟩
  decide +kernel

end Sang
