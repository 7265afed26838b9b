import Verif.Spec.FindAttr
import Verif.Props.FindValue
import Verif.Props.LayerText

/-! # C145: searching by the attributes that every layer has -/

namespace Sang

open Spec

/-- No class of layers has a field of its own with the name of an attribute that every layer has. -/
theorem general_free : ∀ c ∈ layerClasses, ∀ k ∈ ["active", "exclude_from_rendering", "desc", "version"],
    c.fields.lookup k = none := by decide +kernel

/-- What is found when every layer has an answer. -/
theorem found_by {F : Fl} {d : Defaults} {n : Node} {k : String} (hk : k ≠ "type") {v : PV} (hw : wantShown F v = .ok ())
    {P : Node → Prop}
    (hP : ∀ q c x, nodeAt q n = some x → isLayerElt x = true → layerOf x = .ok c →
      ((∃ a, layerAttr F d k (c, x) = .ok a ∧ attrEq F a v = .ok true) ↔ P x))
    {l : List (Place × LObj)} (h : findAllAt F d {kw := [(k, .pv v)]} [] n = .ok l) :
    InOrder (l.map Prod.fst) ∧
    ∀ q c x, (q, c, x) ∈ l ↔
      q ≠ [] ∧ nodeAt q n = some x ∧ isLayerElt x = true ∧ layerOf x = .ok c ∧ P x := by
  refine ⟨findAllAt_inOrder h, fun q c x => ?_⟩
  rw [mem_findAllAt (value_targets hk v).1 (value_targets hk v).2 h]
  constructor
  · rintro ⟨⟨r, hr, h0, h1⟩, h2, h3, h4⟩
    simp only [List.nil_append] at hr
    subst hr
    obtain ⟨a, h5, -, -, h6⟩ := (matcher_value h2 h3).1 h4
    exact ⟨h0, h1, h2, h3, (hP q c x h1 h2 h3).1 ⟨a, h5, h6⟩⟩
  · rintro ⟨h0, h1, h2, h3, h4⟩
    refine ⟨⟨q, by simp, h0, h1⟩, h2, h3, ?_⟩
    obtain ⟨b, hb⟩ := matcher_defined (value_targets hk v).1 (value_targets hk v).2 h h0 h1 h2
    rw [hb]
    rw [matcher_layer h2, h3] at hb
    obtain ⟨a, h5, h6⟩ := (hP q c x h1 h2 h3).2 h4
    rw [(meetsAny_true hb).2 ⟨k, v, a, by simp, h5, h6, hw⟩]

theorem flag_iff (F : Fl) (k : String) (u b : Bool) (x : Node) :
    getBoolAttr F k u x = b ↔ FlagIs F k u b x := by
  rw [getBoolAttr, FlagIs]
  cases hg : x.attrs.get k with
  | none => simp [eq_comm]
  | some a =>
    simp only [reduceCtorEq, false_and, false_or, Option.some.injEq, exists_eq_left']
    cases b <;> simp

/-- C145. `find_all(active=b)` finds exactly the layers below which are active, or exactly those which
aren't: those which aren't written to be inactive are active. -/
theorem c145_active {F : Fl} {d : Defaults} {n : Node} {b : Bool} {l : List (Place × LObj)}
    (h : findAllAt F d {kw := [("active", .pv (.bool b))]} [] n = .ok l) :
    InOrder (l.map Prod.fst) ∧
    ∀ q c x, (q, c, x) ∈ l ↔ q ≠ [] ∧ nodeAt q n = some x ∧ isLayerElt x = true ∧ layerOf x = .ok c ∧
      FlagIs F "active" true b x := by
  refine found_by (by decide) rfl (fun q c x _ _ hc => ?_) h
  simp [layerAttr, general_free c (layerOf_class hc) "active" (by decide), attrEq, getActive, ← flag_iff]

/-- C145. `find_all(exclude_from_rendering=b)`, likewise; layers are not excluded unless it is written. -/
theorem c145_excluded {F : Fl} {d : Defaults} {n : Node} {b : Bool} {l : List (Place × LObj)}
    (h : findAllAt F d {kw := [("exclude_from_rendering", .pv (.bool b))]} [] n = .ok l) :
    InOrder (l.map Prod.fst) ∧
    ∀ q c x, (q, c, x) ∈ l ↔ q ≠ [] ∧ nodeAt q n = some x ∧ isLayerElt x = true ∧ layerOf x = .ok c ∧
      FlagIs F "exclude_from_rendering" false b x := by
  refine found_by (by decide) rfl (fun q c x _ _ hc => ?_) h
  simp [layerAttr, general_free c (layerOf_class hc) "exclude_from_rendering" (by decide), attrEq, getExclude,
    ← flag_iff]

/-- C145. `find_all(desc=s)` finds exactly the layers below with that description. -/
theorem c145_described {F : Fl} {d : Defaults} {n : Node} {s : Str} {l : List (Place × LObj)}
    (h : findAllAt F d {kw := [("desc", .pv (.str s))]} [] n = .ok l) :
    InOrder (l.map Prod.fst) ∧
    ∀ q c x, (q, c, x) ∈ l ↔ q ≠ [] ∧ nodeAt q n = some x ∧ isLayerElt x = true ∧ layerOf x = .ok c ∧
      DescribedAs F s x := by
  refine found_by (by decide) rfl (fun q c x _ _ hc => ?_) h
  simp only [layerAttr, general_free c (layerOf_class hc) "desc" (by decide), getDesc, DescribedAs]
  cases x.attrs.get "desc" <;> simp [attrEq]

/-- C145. `find_all(desc=None)` finds exactly the layers below without a description. -/
theorem c145_undescribed {F : Fl} {d : Defaults} {n : Node} {l : List (Place × LObj)}
    (h : findAllAt F d {kw := [("desc", .pv .none)]} [] n = .ok l) :
    InOrder (l.map Prod.fst) ∧
    ∀ q c x, (q, c, x) ∈ l ↔ q ≠ [] ∧ nodeAt q n = some x ∧ isLayerElt x = true ∧ layerOf x = .ok c ∧
      x.attrs.get "desc" = none := by
  refine found_by (by decide) rfl (fun q c x _ _ hc => ?_) h
  simp only [layerAttr, general_free c (layerOf_class hc) "desc" (by decide), getDesc]
  cases x.attrs.get "desc" <;> simp [attrEq]

/-- C145. `find_all(version=q)` finds exactly the layers below of that version; one which doesn't say has
version 0 (until something changes the library's default). -/
theorem c145_version {F : Fl} {d : Defaults} {n : Node} {q : ℚ} {l : List (Place × LObj)}
    (h : findAllAt F d {kw := [("version", .pv (.float q))]} [] n = .ok l) :
    InOrder (l.map Prod.fst) ∧
    ∀ p c x, (p, c, x) ∈ l ↔ p ≠ [] ∧ nodeAt p n = some x ∧ isLayerElt x = true ∧ layerOf x = .ok c ∧
      VersionIs F (if d.version = none then some 0 else none) q x := by
  refine found_by (by decide) rfl (fun p c x _ _ hc => ?_) h
  simp only [layerAttr, general_free c (layerOf_class hc) "version" (by decide), getVersion, VersionIs]
  cases hv : x.attrs.get "version" with
  | none => cases hd : d.version <;> simp [attrEq]
  | some a => cases ha : a.toFloat F <;> simp [attrEq, ha]

theorem general_defined {F : Fl} {d : Defaults} {n : Node} {k : String} (hk : k ≠ "type") {v : PV} (hw : wantShown F v = .ok ())
    (hP : ∀ q c x, q ≠ [] → nodeAt q n = some x → isLayerElt x = true → layerOf x = .ok c →
      ∃ a b, layerAttr F d k (c, x) = .ok a ∧ attrShown F a = .ok () ∧ attrEq F a v = .ok b)
    (hl : ∀ q x, q ≠ [] → nodeAt q n = some x → isLayerElt x = true → ∃ c, layerOf x = .ok c) :
    ∃ l, findAllAt F d {kw := [(k, .pv v)]} [] n = .ok l := by
  refine findAllAt_exists (value_targets hk v).1 (value_targets hk v).2 fun q x hq hx hlx => ?_
  obtain ⟨c, hc⟩ := hl q x hq hx hlx
  obtain ⟨a, b, h1, hs, h2⟩ := hP q c x hq hx hlx hc
  rw [matcher_layer hlx, hc]
  simp only [meetsAny, tryAttr_ok.2 ⟨h1, hs, hw⟩, h2]
  cases b <;> exact ⟨_, rfl⟩

/-- C145. None of these searches raises, if every layer below is of a known type, and if, for versions, every
version that is written is a number. -/
theorem c145_searches_work (F : Fl) (d : Defaults) {n : Node}
    (hl : ∀ q x, q ≠ [] → nodeAt q n = some x → isLayerElt x = true → ∃ c, layerOf x = .ok c) :
    (∀ b, ∃ l, findAllAt F d {kw := [("active", .pv (.bool b))]} [] n = .ok l) ∧
    (∀ b, ∃ l, findAllAt F d {kw := [("exclude_from_rendering", .pv (.bool b))]} [] n = .ok l) ∧
    (∀ s, ∃ l, findAllAt F d {kw := [("desc", .pv (.str s))]} [] n = .ok l) ∧
    (∃ l, findAllAt F d {kw := [("desc", .pv .none)]} [] n = .ok l) ∧
    ((∀ q x, q ≠ [] → nodeAt q n = some x → isLayerElt x = true → ∀ a, x.attrs.get "version" = some a →
        ∃ r, a.toFloat F = .ok r) →
      ∀ r : ℚ, ∃ l, findAllAt F d {kw := [("version", .pv (.float r))]} [] n = .ok l) := by
  refine ⟨fun b => ?_, fun b => ?_, fun s => ?_, ?_, fun hv r => ?_⟩ <;>
    refine general_defined (by decide) rfl (fun q c x hq hx hlx hc => ?_) hl
  · simp [layerAttr, general_free c (layerOf_class hc) "active" (by decide), attrEq, attrShown, em']
  · simp [layerAttr, general_free c (layerOf_class hc) "exclude_from_rendering" (by decide), attrEq, attrShown, em']
  · simp only [layerAttr, general_free c (layerOf_class hc) "desc" (by decide), getDesc]
    cases x.attrs.get "desc" <;> simp [attrEq, attrShown, em']
  · simp only [layerAttr, general_free c (layerOf_class hc) "desc" (by decide), getDesc]
    cases x.attrs.get "desc" <;> simp [attrEq, attrShown]
  · simp only [layerAttr, general_free c (layerOf_class hc) "version" (by decide), getVersion]
    cases hg : x.attrs.get "version" with
    | none => cases d.version <;> simp [attrEq, attrShown, em']
    | some a =>
      obtain ⟨r, hr⟩ := hv q x hq hx hlx a hg
      simp [hr, attrEq, attrShown, em']

/-- C145, where it fails: a search by version raises if any layer below has a version that isn't a number,
whatever version is looked for. -/
theorem c145_bad_version_raises {F : Fl} {d : Defaults} {n x : Node} {p : Place} (hp : p ≠ [])
    (hx : nodeAt p n = some x) (hl : isLayerElt x = true) {a : AttrV} (ha : x.attrs.get "version" = some a)
    (hbad : a.toFloat F = .error .value) (v : PV) (l : List (Place × LObj)) :
    findAllAt F d {kw := [("version", .pv v)]} [] n ≠ .ok l := by
  intro h
  obtain ⟨b, hb⟩ := matcher_defined (value_targets (by decide) v).1 (value_targets (by decide) v).2 h hp hx hl
  rw [matcher_layer hl] at hb
  cases hc : layerOf x with
  | error e => rw [hc] at hb; cases hb
  | ok c =>
    rw [hc] at hb
    simp [meetsAny, tryAttr, layerAttr, general_free c (layerOf_class hc) "version" (by decide), getVersion, ha,
      hbad] at hb

/-- C145 on a concrete document: one layer is inactive, one is in a group, one has no description; and the
versions of two are the same number, written differently. -/
example :
    let n : Node := .tag "canvas" [] [exNamed "head" "false", exFrame.plug [exNamed "tail" "true"], exLayer "star",
      .tag "layer" [("type", .str "star".toList), ("version", .str "0.50".toList)] []]
    (findAllAt double .initial {kw := [("active", .pv (.bool false))]} [] n).map (·.map Prod.fst) = .ok [[0]] ∧
    (findAllAt double .initial {kw := [("desc", .pv (.str "tail".toList))]} [] n).map (·.map Prod.fst) =
      .ok [[1, 3, 1, 0]] ∧
    (findAllAt double .initial {kw := [("version", .pv (.float (1 / 2)))]} [] n).map (·.map Prod.fst) =
      .ok [[3]] := by decide +kernel

/-- C145 fails on a concrete document: a version isn't a number. -/
example : findAllAt double .initial {kw := [("version", .pv (.float 1))]} [] (.tag "canvas" []
    [.tag "layer" [("type", .str "star".toList), ("version", .str "new".toList)] []]) = .error .value := by
  decide +kernel

end Sang
