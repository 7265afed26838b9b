import Verif.Lemmas.PlaceOrder
import Verif.Spec.FindValue
import Verif.Props.Program
import Verif.Props.Compare
import Verif.Props.Simple

/-! # C136: searching by the value of a field -/

namespace Sang

open Spec

theorem layerAttr_field {F : Fl} {d : Defaults} {k : String} (hk : k ∉ generalNames) {c : LClass} {x : Node} {a : LAttr} :
    layerAttr F d k (c, x) = .ok a ↔ ∃ cls m, ValueOf k c x cls m ∧ a = .val cls m := by
  have h1 : k ≠ "type_" := by rintro rfl; exact hk (by decide)
  have h2 : k ≠ "active" := by rintro rfl; exact hk (by decide)
  have h3 : k ≠ "exclude_from_rendering" := by rintro rfl; exact hk (by decide)
  have h4 : k ≠ "desc" := by rintro rfl; exact hk (by decide)
  have h5 : k ≠ "version" := by rintro rfl; exact hk (by decide)
  simp only [layerAttr]
  cases hl : c.fields.lookup k with
  | some f =>
    simp only
    cases f with
    | notImpl =>
      simp only [getField]
      constructor
      · intro h; cases h
      · rintro ⟨cls, m, h, -⟩
        cases h with
        | field h => rw [hl] at h; cases h
        | part h => rw [hl] at h; cases h
    | blend i =>
      simp only [getField]
      constructor
      · intro h; split at h
        · cases h
        · next e => split at e <;> cases e
      · rintro ⟨cls, m, h, -⟩
        cases h with
        | field h => rw [hl] at h; cases h
        | part h => rw [hl] at h; cases h
    | param cls dv =>
      simp only [getField]
      constructor
      · intro h
        split at h
        · cases h
        · next c' m e =>
          injection h with h
          split at e
          · cases e
          · next c2 m2 e2 =>
            split at e
            · next hcl =>
              injection e with e; injection e with e3 e4
              subst e3 e4 hcl
              exact ⟨_, _, .field hl e2, h.symm⟩
            · cases e
      · rintro ⟨cls', m, h, rfl⟩
        cases h with
        | field h hv =>
          rw [hl] at h
          injection h with h; injection h with h; subst h
          simp only [hv, if_true]
        | part h => rw [hl] at h; cases h
  | none =>
    simp only [if_neg h1, if_neg h2, if_neg h3, if_neg h4, if_neg h5]
    have hr : (requiredKeys.lookup k).isSome = true ↔ k ∈ ["offset", "angle", "skew_angle", "scale"] := by
      simp only [requiredKeys, List.lookup]
      by_cases e1 : k = "offset"
      · subst e1; decide
      by_cases e2 : k = "angle"
      · subst e2; decide
      by_cases e3 : k = "skew_angle"
      · subst e3; decide
      by_cases e4 : k = "scale"
      · subst e4; decide
      simp [e1, e2, e3, e4, beq_false_of_ne e1, beq_false_of_ne e2, beq_false_of_ne e3, beq_false_of_ne e4]
    by_cases hg : (c.isGroup && (requiredKeys.lookup k).isSome) = true
    · rw [if_pos hg]
      rw [Bool.and_eq_true] at hg
      constructor
      · intro h
        split at h
        · cases h
        · next cls m e => injection h with h; exact ⟨cls, m, .part hl hg.1 (hr.1 hg.2) e, h.symm⟩
      · rintro ⟨cls, m, h, rfl⟩
        cases h with
        | field h => rw [hl] at h; cases h
        | part _ _ _ hv => rw [hv]
    · rw [if_neg hg]
      constructor
      · intro h; split at h <;> cases h
      · rintro ⟨cls, m, h, rfl⟩
        cases h with
        | field h => rw [hl] at h; cases h
        | part _ h2 h3 _ => exact absurd (by rw [h2, hr.2 h3]; rfl) hg

theorem attrEq_val {F : Fl} {cls : VCls} {m : Node} {v : PV} :
    attrEq F (.val cls m) v = .ok true ↔ cls ≠ .time ∧ valueEq F none cls m v = .ok true := by
  cases cls <;> simp [attrEq]

theorem value_targets {k : String} (hk : k ≠ "type") (v : PV) :
    posArg {kw := [(k, .pv v)]} = .ok (.none, [(k, .pv v)]) ∧
    criteria {kw := [(k, .pv v)]} [(k, .pv v)] = .ok [(k, v)] :=
  ⟨rfl, by simp [criteria, addAttrs, mapRes, criterion, hk]⟩

theorem matcher_value {F : Fl} {d : Defaults} {x : Node} {c : LClass} {k : String} {v : PV} (hx : isLayerElt x = true)
    (hc : layerOf x = .ok c) :
    matcher F d .none [(k, v)] x = .ok true ↔
      ∃ a, layerAttr F d k (c, x) = .ok a ∧ attrShown F a = .ok () ∧ wantShown F v = .ok () ∧ attrEq F a v = .ok true := by
  rw [matcher_layer hx, hc]
  show meetsAny F d (c, x) [(k, v)] = .ok true ↔ _
  constructor
  · intro h
    cases ht : tryAttr F d k v (c, x) with
    | error e => rw [meets_error ht] at h; split at h <;> cases h
    | ok a =>
      obtain ⟨h1, h2, h3⟩ := tryAttr_ok.1 ht
      simp only [meetsAny, ht] at h
      refine ⟨a, h1, h2, h3, ?_⟩
      cases hq : attrEq F a v with
      | error e => simp [hq] at h
      | ok b => cases b <;> simp [hq] at h ⊢
  · rintro ⟨a, h1, h2, h3, h4⟩
    simp only [meetsAny, tryAttr_ok.2 ⟨h1, h2, h3⟩, h4]

/-- If a search doesn't raise, then comparing didn't either, for any layer. -/
theorem matcher_defined {F : Fl} {d : Defaults} {a : FindArgs} {n x : Node} {sp : Special}
    {kw : List (String × Want)} {ts : List (String × PV)} (h1 : posArg a = .ok (sp, kw))
    (h2 : criteria a kw = .ok ts) {l : List (Place × LObj)} (h : findAllAt F d a [] n = .ok l) {p : Place} (hp : p ≠ [])
    (hx : nodeAt p n = some x) (hl : isLayerElt x = true) : ∃ b, matcher F d sp ts x = .ok b := by
  simp only [findAllAt, h1, h2] at h
  split at h
  · cases h
  next l hl' =>
  have ht : x.isTag = true := by cases x with
    | text s => simp [isLayerElt] at hl
    | tag a b ks => rfl
  exact (filterRes_ok.1 hl').1 (p, x) (mem_places.2 ⟨p, by simp, hp, hx, ht⟩)

/-- C136. `find_all(k=v)`, `k` being the name of something else than a general attribute, finds exactly those layers below
which have a value of that name which equals `v`; each once, in the order of the document. (For times
see C149. A value object that is looked for has to have a text; anything else has.) -/
theorem c136_found_iff {F : Fl} {d : Defaults} {n : Node} {k : String} (hk : k ∉ generalNames) {v : PV}
    {l : List (Place × LObj)} (h : findAllAt F d {kw := [(k, .pv v)]} [] n = .ok l) :
    InOrder (l.map Prod.fst) ∧
    ∀ q c x, (q, c, x) ∈ l ↔ q ≠ [] ∧ nodeAt q n = some x ∧ isLayerElt x = true ∧ layerOf x = .ok c ∧
      wantShown F v = .ok () ∧ ∃ cls m, ValueOf k c x cls m ∧ cls ≠ .time ∧ valueEq F none cls m v = .ok true := by
  have ht : k ≠ "type" := by rintro rfl; exact hk (by decide)
  refine ⟨findAllAt_inOrder h, fun q c x => ?_⟩
  rw [mem_findAllAt (value_targets ht v).1 (value_targets ht v).2 h]
  constructor
  · rintro ⟨⟨r, hr, h0, h1⟩, h2, h3, h4⟩
    simp only [List.nil_append] at hr
    subst hr
    obtain ⟨a, h5, -, hw, h6⟩ := (matcher_value h2 h3).1 h4
    obtain ⟨cls, m, h7, rfl⟩ := (layerAttr_field hk).1 h5
    exact ⟨h0, h1, h2, h3, hw, cls, m, h7, attrEq_val.1 h6⟩
  · rintro ⟨h0, h1, h2, h3, hw, cls, m, h7, h8⟩
    refine ⟨⟨q, by simp, h0, h1⟩, h2, h3, ?_⟩
    obtain ⟨b, hb⟩ := matcher_defined (value_targets ht v).1 (value_targets ht v).2 h h0 h1 h2
    rw [hb]
    rw [matcher_layer h2, h3] at hb
    rw [(meetsAny_true hb).2 ⟨k, v, .val cls m, by simp, (layerAttr_field hk).2 ⟨cls, m, h7, rfl⟩, attrEq_val.2 h8, hw⟩]

theorem tupleEq_other {l : List ℚ} {vs : List PV} (h : ∀ v ∈ vs, v.number? = none) :
    tupleEq l vs = true ↔ l = [] ∧ vs = [] := by
  cases l with
  | nil => cases vs <;> simp [tupleEq]
  | cons q l =>
    cases vs with
    | nil => simp [tupleEq]
    | cons v vs => simp [tupleEq, h v (by simp)]

/-- C136. What it is for a value to equal a number. -/
theorem c136_number (F : Fl) (q : ℚ) (cls : VCls) (m : Node) (hc : cls ≠ .time) :
    valueEq F none cls m (.float q) = .ok true ↔ EqualsNumber F q cls m := by
  cases cls with
  | time => exact absurd rfl hc
  | real =>
    show realEq F m (.float q) = .ok true ↔ _
    simp only [realEq, PV.toFloat, EqualsNumber]
    cases getFloat F m <;> simp [realNear, nearAsDammit]
  | angle =>
    show angleEq F m (.float q) = .ok true ↔ _
    simp only [angleEq, PV.toFloat, EqualsNumber, catchValue]
    cases getFloat F m <;> simp [eq_comm]
  | integer =>
    show integerEq F m (.float q) = .ok true ↔ _
    have e : truncQ q = if q < 0 then ⌈q⌉ else ⌊q⌋ := by
      simp only [truncQ, Int.floor_neg, neg_neg]
    simp only [integerEq, PV.toInt, EqualsNumber, catchValue, ← e]
    cases getInt m <;> simp [eq_comm]
  | bool =>
    show boolEq F m (.float q) = .ok true ↔ _
    simp only [boolEq, PV.toBool, EqualsNumber]
    cases getBool m <;> simp
  | string => simp [valueEq, plainEq, stringEq, EqualsNumber]
  | color => simp [valueEq, plainEq, colorEqAny, EqualsNumber]
  | vector => simp [valueEq, plainEq, vectorEqAny, EqualsNumber]
  | gradient =>
    simp only [valueEq, plainEq, gradientEq, EqualsNumber]
    cases gradientStops F m <;> simp
  | canvas =>
    simp only [valueEq, plainEq, canvasEq, EqualsNumber]
    cases canvasLayers m <;> simp
  | composite => simp [valueEq, compositeEq, EqualsNumber]
  | tbd t => simp [valueEq, plainEq, EqualsNumber]

/-- C136. What it is for a value to equal a text. -/
theorem c136_text (F : Fl) (s : Str) (cls : VCls) (m : Node) (hc : cls ≠ .time) :
    valueEq F none cls m (.str s) = .ok true ↔ EqualsText F s cls m := by
  cases cls with
  | time => exact absurd rfl hc
  | real =>
    show realEq F m (.str s) = .ok true ↔ _
    simp only [realEq, PV.toFloat, EqualsText]
    cases hs : pyFloat F s with
    | error e => cases e <;> cases getFloat F m <;> simp
    | ok q => cases getFloat F m <;> simp [realNear, nearAsDammit]
  | angle =>
    show angleEq F m (.str s) = .ok true ↔ _
    simp only [angleEq, PV.toFloat, EqualsText]
    cases hs : pyFloat F s with
    | error e => cases e <;> cases getFloat F m <;> simp [catchValue]
    | ok q => cases getFloat F m <;> simp [catchValue]
  | integer =>
    show integerEq F m (.str s) = .ok true ↔ _
    simp only [integerEq, PV.toInt, EqualsText]
    cases hs : pyInt s with
    | error e => cases e <;> cases getInt m <;> simp [catchValue]
    | ok q => cases getInt m <;> simp [catchValue]
  | bool =>
    show boolEq F m (.str s) = .ok true ↔ _
    simp only [boolEq, PV.toBool, EqualsText]
    cases getBool m <;> simp
  | string => simp [valueEq, plainEq, stringEq, EqualsText]
  | color =>
    simp only [valueEq, plainEq, colorEqAny, colorEqStr, EqualsText]
    cases colorStr F m <;> simp
  | vector =>
    simp only [valueEq, plainEq, vectorEqAny, vectorEqTuple, EqualsText, List.length_map]
    by_cases hl : s.length = (vectorDict m).length
    · rw [if_neg (by simpa using hl)]
      have ht : ∀ l, tupleEq l (s.map fun c => PV.str [c]) = true ↔ l = [] ∧ s = [] := by
        intro l
        rw [tupleEq_other (by intro v hv; obtain ⟨c, -, rfl⟩ := List.mem_map.1 hv; rfl)]
        simp
      cases hv : vectorIter F m with
      | error e =>
        simp only [reduceCtorEq, false_iff]
        rintro ⟨h1, h2, rfl⟩
        simp [vectorIter, h1, h2, mapRes] at hv
      | ok l =>
        simp only [Except.ok.injEq, ht]
        have hn : m.name ≠ "animated" := by
          intro e
          simp [vectorIter, e] at hv
        constructor
        · rintro ⟨-, rfl⟩
          exact ⟨hn, List.eq_nil_of_length_eq_zero (by simpa using hl.symm), rfl⟩
        · rintro ⟨-, h2, rfl⟩
          simp [vectorIter, hn, h2, mapRes] at hv
          exact ⟨hv, rfl⟩
    · rw [if_pos (by simpa using hl)]
      simp only [Except.ok.injEq, Bool.false_eq_true, false_iff]
      rintro ⟨-, h2, rfl⟩
      exact hl (by simp [h2])
  | gradient =>
    simp only [valueEq, plainEq, gradientEq, EqualsText]
    cases gradientStops F m <;> simp
  | canvas =>
    simp only [valueEq, plainEq, canvasEq, EqualsText]
    cases canvasLayers m <;> simp
  | composite => simp [valueEq, compositeEq, EqualsText]
  | tbd t => simp [valueEq, plainEq, EqualsText]

/-! ## Setting and then searching -/

theorem realNear_kept {F : Fl} (hF : F.Lawful) {q : ℚ} (hq : |q| ≤ 10 ^ 11) {p : ℚ}
    (h : |p - q| ≤ 1 / (2 * 10 ^ 10) + (|q| + 1 / (2 * 10 ^ 10)) / 2 ^ 53) : realNear F p q = true := by
  have h1 : |p - q| ≤ 1 / 10000 := by
    refine h.trans ?_
    have : (|q| + 1 / (2 * 10 ^ 10)) / 2 ^ 53 ≤ (10 ^ 11 + 1 / (2 * 10 ^ 10)) / 2 ^ 53 := by
      gcongr
    refine (add_le_add_right this _).trans ?_
    norm_num
  rw [realNear, decide_eq_true_eq, nearAsDammit, abs_le, ← hF.neg]
  exact ⟨hF.mono (abs_le.1 h1).1, hF.mono (abs_le.1 h1).2⟩

theorem fromTag_ofName {m : Node} {s : String} {c : VCls} (hm : m.name = s) (hs : s ≠ "animated")
    (h : valueRegistry.fromName s.toList = .ok c) (h1 : c ≠ .vector) (h2 : c ≠ .composite) : fromTag m = .ok c := by
  simp only [fromTag, hm, if_neg hs, h]

theorem fromTag_setString {m : Node} {s : Str} (h : fromTag m = .ok .string) : fromTag (m.setString s) = .ok .string := by
  cases m with
  | text t => exact h
  | tag nm a ks =>
    have e : fromTag (Node.setString s (.tag nm a ks)) = fromTag (.tag nm a [.text s]) := rfl
    rw [e]
    have key : ∀ l, fromTag (.tag nm a l) = match (if nm = "animated" then strAttr (.tag nm a []) "type" else .ok nm.toList) with
        | .error e => .error e
        | .ok s => match valueRegistry.fromName s with
          | .error e => .error e
          | .ok .vector => match vectorCheck (.tag nm a l) with
            | .error e => .error e
            | .ok () => .ok .vector
          | .ok .composite => match compositeCheck (.tag nm a l) with
            | .error e => .error e
            | .ok () => .ok .composite
          | .ok c => .ok c := fun l => rfl
    rw [key] at h ⊢
    split at h
    · cases h
    · next hs =>
      split at h
      · cases h
      · split at h <;> cases h
      · split at h <;> cases h
      · next hn =>
        injection h with h
        subst h
        simp only

/-- A value which is set to something that it keeps is of its class, and equals it. -/
theorem setValue_equals {F : Fl} (hF : F.Lawful) {cls : VCls} {v : PV} (h : KeptAs F cls v) {m : Node}
    (hm : m.isTag = true) (hc : fromTag m = .ok cls) :
    (setValue F cls v m).2 = .ok () ∧ (setValue F cls v m).1.isTag = true ∧
      fromTag (setValue F cls v m).1 = .ok cls ∧ valueEq F none cls (setValue F cls v m).1 v = .ok true := by
  cases h with
  | real h =>
    obtain ⟨h1, p, h2, -, h3⟩ := c19_real_roundtrip hF m hm _
    refine ⟨h1, by rw [setReal_ok hm]; rfl,
      fromTag_ofName (s := "real") (by rw [setReal_ok hm]; rfl) (by decide) (by decide) (by decide) (by decide), ?_⟩
    rw [c136_number F _ _ _ (by decide)]
    exact ⟨p, h2, of_decide_eq_true (realNear_kept hF h h3)⟩
  | @integer i =>
    have e : setValue F .integer (.int i) m = (.tag "integer" [("value", .str (intStr i))] [], .ok ()) := by
      simp only [setValue]; exact setSimple_ok hm rfl rfl rfl
    have h2 := (c20_integer_roundtrip F m hm i).2
    rw [e] at h2 ⊢
    refine ⟨rfl, rfl, fromTag_ofName (s := "integer") rfl (by decide) (by decide) (by decide) (by decide), ?_⟩
    show integerEq F _ (.int i) = _
    simp only at h2
    simp only [integerEq, PV.toInt, catchValue, h2, decide_true]
  | @bool b =>
    have e : setValue F .bool (.bool b) m = (.tag "bool" [("value", .str (boolStr b))] [], .ok ()) := by
      simp only [setValue]; exact setSimple_ok hm rfl rfl rfl
    have h2 := (c20_bool_roundtrip F m hm b).2
    rw [e] at h2 ⊢
    refine ⟨rfl, rfl, fromTag_ofName (s := "bool") rfl (by decide) (by decide) (by decide) (by decide), ?_⟩
    simp only at h2
    simp only [valueEq, plainEq, boolEq, PV.toBool, h2, decide_true]
  | @angle q h =>
    have e : setValue F .angle (.float q) m = (.tag "angle" [("value", .str (reprF F q))] [], .ok ()) := by
      simp only [setValue]; exact setSimple_ok hm rfl rfl rfl
    have h2 := (c21_angle_roundtrip hF m hm q h).2
    rw [e] at h2 ⊢
    refine ⟨rfl, rfl, fromTag_ofName (s := "angle") rfl (by decide) (by decide) (by decide) (by decide), ?_⟩
    rw [c136_number F _ _ _ (by decide)]
    exact h2
  | @string s =>
    obtain ⟨h1, h2⟩ := c31_string_roundtrip F m hm s
    refine ⟨h1, ?_, fromTag_setString hc, ?_⟩
    · cases m with
      | text t => cases hm
      | tag _ _ _ => rfl
    · rw [c136_text F _ _ _ (by decide)]
      exact h2
  | @color hash ds h =>
    obtain ⟨h1, -, h3⟩ := c23_hex_roundtrip hF m hm ds h hash
    have hn : (setValue F .color (.str (written hash ds)) m).1.isTag = true ∧
        (setValue F .color (.str (written hash ds)) m).1.name = "color" := by
      cases m with
      | text t => cases hm
      | tag nm a ks =>
        simp only [setValue, setColor] at h1 ⊢
        cases hca : colorArg F (.str (written hash ds)) with
        | error e => simp only [hca] at h1; cases h1
        | ok cs => exact ⟨rfl, rfl⟩
    exact ⟨h1, hn.1, fromTag_ofName hn.2 (by decide) (by decide) (by decide) (by decide), h3 hash⟩

theorem updFirst_head {P : Node → Bool} {g : Node → Node} (n : Node) :
    (updFirst P g n).isTag = n.isTag ∧ (updFirst P g n).name = n.name ∧ (updFirst P g n).attrs = n.attrs := by
  cases n <;> exact ⟨rfl, rfl, rfl⟩

theorem layerOf_head {n m : Node} (h : m.attrs = n.attrs) : layerOf m = layerOf n := by
  simp only [layerOf, h]

/-- C136. If a layer's field has just been set to something it keeps (a number up to 10^11, a whole number, a flag, an angle,
a text, a colour in hexadecimal), then a search for that finds the layer, unless it raises an exception (because of
some other layer). -/
theorem c136_set_then_found {F : Fl} (hF : F.Lawful) (d : Defaults) {n x : Node} {p : Place} (hp : p ≠ [])
    (hx : nodeAt p n = some x) (hl : isLayerElt x = true) {c : LClass} (hc : layerOf x = .ok c) {k : String}
    (hk : k ≠ "type") {cls : VCls} {dv : Lit} (hf : c.fields.lookup k = some (.param cls dv)) {m : Node}
    (hm : getField k (.param cls dv) x = .ok (cls, m)) {v : PV} (hv : KeptAs F cls v) :
    (actAt (setField F k (.param cls dv) v) p n).2 = .ok () ∧
    ∀ l, findAllAt F d {kw := [(k, .pv v)]} [] (actAt (setField F k (.param cls dv) v) p n).1 = .ok l →
      p ∈ l.map Prod.fst := by
  obtain ⟨ha1, ha2⟩ := actAt_at (g := setField F k (.param cls dv) v) hx
  have hfv : fieldValue k x = .ok (cls, m) := by
    simp only [getField] at hm
    split at hm
    · cases hm
    · next h =>
      split at hm
      · injection hm with hm; injection hm with e1 e2; subst e1 e2; exact h
      · cases hm
  obtain ⟨w, hw, hwk, hct⟩ : ∃ w, findParam k.toList x = some w ∧ w.tagKids = [m] ∧ fromTag m = .ok cls := by
    simp only [fieldValue] at hfv
    cases hw : findParam k.toList x with
    | none => simp only [hw] at hfv; cases hfv
    | some w =>
      simp only [hw] at hfv
      split at hfv
      · next u hu =>
        cases hct : fromTag u with
        | error e => simp only [hct] at hfv; cases hfv
        | ok c' =>
          simp only [hct] at hfv
          injection hfv with hfv; injection hfv with e1 e2; subst e1 e2
          exact ⟨w, rfl, hu, hct⟩
      · cases hfv
  have hmt : m.isTag = true := by
    have : m ∈ w.tagKids := by rw [hwk]; simp
    exact (List.mem_filter.1 this).2
  obtain ⟨h1, h2, h3, h4⟩ := setValue_equals hF hv hmt hct
  obtain ⟨hw1, hw2, -⟩ := findParam_some hw
  have hset : setField F k (.param cls dv) v x =
      (updFirst (isParam k.toList) (replaceValue (setValue F cls v m).1) x, (setValue F cls v m).2) := by
    simp only [setField, hfv]
  rw [hset] at ha1 ha2
  refine ⟨ha2.trans h1, fun l hfind => ?_⟩
  simp only at ha1
  generalize hy : updFirst (isParam k.toList) (replaceValue (setValue F cls v m).1) x = y at ha1
  have hhead := updFirst_head (P := isParam k.toList) (g := replaceValue (setValue F cls v m).1) x
  rw [hy] at hhead
  have hy2 : fieldValue k y = .ok (cls, (setValue F cls v m).1) := by
    have hsame : (replaceValue (setValue F cls v m).1 w).name = w.name ∧
        (replaceValue (setValue F cls v m).1 w).attrs = w.attrs ∧
        (replaceValue (setValue F cls v m).1 w).isTag = true := by
      cases w with
      | text s => cases hw2
      | tag a b ks => exact ⟨rfl, rfl, rfl⟩
    have hfp : findParam k.toList y = some (replaceValue (setValue F cls v m).1 w) := by
      rw [← hy]
      exact findParam_upd hw hsame.2.2 (by rw [isParam, hsame.1, hsame.2.1]; exact hw1)
    simp only [fieldValue, hfp, tagKids_replace hw2 hwk h2, h3]
  have hyl : isLayerElt y = true := by
    cases x with
    | text s => cases hl
    | tag a b ks =>
      cases y with
      | text s => cases hhead.1
      | tag a' b' ks' =>
        have : a' = a := hhead.2.1
        rw [this]
        exact hl
  have hyc : layerOf y = .ok c := (layerOf_head hhead.2.2).trans hc
  refine List.mem_map.2 ⟨(p, c, y), ?_, rfl⟩
  rw [mem_findAllAt (value_targets hk v).1 (value_targets hk v).2 hfind]
  refine ⟨⟨p, by simp, hp, ha1⟩, hyl, hyc, ?_⟩
  obtain ⟨b, hb⟩ := matcher_defined (value_targets hk v).1 (value_targets hk v).2 hfind hp ha1 hyl
  rw [hb]
  rw [matcher_layer hyl, hyc] at hb
  rw [(meetsAny_true hb).2 ⟨k, v, .val cls (setValue F cls v m).1, by simp, ?_, ?_, ?_⟩]
  · simp only [layerAttr, hf, getField, hy2, if_true]
  · exact attrEq_val.2 ⟨(by rintro rfl; cases hv), h4⟩
  · cases hv <;> rfl

/-! ## Searches that raise exceptions -/

/-- C136, where it fails: if comparing the value of one layer raises, then the search raises, and nothing is found.
(Canvases and transformations may have been passed over before that: `c136_passed_over`.) -/
theorem c136_comparing_raises {F : Fl} {d : Defaults} {n x : Node} {p : Place} (hp : p ≠ [])
    (hx : nodeAt p n = some x) (hl : isLayerElt x = true) {c : LClass} (hc : layerOf x = .ok c) {k : String}
    (hk : k ∉ generalNames) {cls : VCls} {m : Node} (hm : ValueOf k c x cls m) (hcls : cls ≠ .canvas ∧ cls ≠ .composite)
    {v : PV} (hcomp : ∀ r w, v ≠ .val .composite r w) {e : Err}
    (hv : valueEq F none cls m v = .error e) (l : List (Place × LObj)) :
    findAllAt F d {kw := [(k, .pv v)]} [] n ≠ .ok l := by
  intro h
  have ht : k ≠ "type" := by rintro rfl; exact hk (by decide)
  obtain ⟨b, hb⟩ := matcher_defined (value_targets ht v).1 (value_targets ht v).2 h hp hx hl
  rw [matcher_layer hl, hc] at hb
  have ha : layerAttr F d k (c, x) = .ok (.val cls m) := (layerAttr_field hk).2 ⟨cls, m, hm, rfl⟩
  have hq : ∃ e, attrEq F (.val cls m) v = .error e := by
    cases cls <;> simp only [attrEq] <;> first | exact ⟨_, hv⟩ | exact ⟨_, rfl⟩
  obtain ⟨e', hq⟩ := hq
  cases hs : attrShown F (.val cls m) with
  | error e2 =>
    have hne : e2 ≠ .attr := by rintro rfl; exact attrShown_ne_attr hcls.1 hcls.2 hs
    have : tryAttr F d k v (c, x) = .error e2 := by simp only [tryAttr, ha, hs]
    simp only [meets_error this, if_neg hne] at hb
    cases hb
  | ok u =>
    cases hw : wantShown F v with
    | error e2 =>
      have hne : e2 ≠ .attr := by rintro rfl; exact wantShown_ne_attr hcomp hw
      have : tryAttr F d k v (c, x) = .error e2 := by simp only [tryAttr, ha, hs, hw]
      simp only [meets_error this, if_neg hne] at hb
      cases hb
    | ok u' =>
      have : tryAttr F d k v (c, x) = .ok (.val cls m) := tryAttr_ok.2 ⟨ha, hs, hw⟩
      simp only [meetsAny, this, hq] at hb
      cases hb

/-- C136, where it fails: before a value is compared its text is made, for a message in the log. If that raises anything
but `AttributeError` then so does the search, whatever is looked for. -/
theorem c136_text_raises {F : Fl} {d : Defaults} {n x : Node} {p : Place} (hp : p ≠ [])
    (hx : nodeAt p n = some x) (hl : isLayerElt x = true) {c : LClass} (hc : layerOf x = .ok c) {k : String}
    (hk : k ∉ generalNames) {cls : VCls} {m : Node} (hm : ValueOf k c x cls m) (hcan : cls ≠ .canvas) {e : Err}
    (he : e ≠ .attr) (hs : valueRepr F (fun _ => true) none cls m = .error e) (v : PV) (l : List (Place × LObj)) :
    findAllAt F d {kw := [(k, .pv v)]} [] n ≠ .ok l := by
  intro h
  have ht : k ≠ "type" := by rintro rfl; exact hk (by decide)
  obtain ⟨b, hb⟩ := matcher_defined (value_targets ht v).1 (value_targets ht v).2 h hp hx hl
  rw [matcher_layer hl, hc] at hb
  have ha : layerAttr F d k (c, x) = .ok (.val cls m) := (layerAttr_field hk).2 ⟨cls, m, hm, rfl⟩
  have hsh : ∃ e, e ≠ .attr ∧ attrShown F (.val cls m) = .error e := by
    have hv : valueStr F (fun _ => true) none cls m = .error e := by
      rw [valueRepr] at hs
      split at hs
      · next h' => cases hs; exact h'
      · cases hs
    by_cases h1 : cls = .time
    · subst h1; exact ⟨.unmodelled, by simp, rfl⟩
    · refine ⟨e, he, ?_⟩
      have key : attrShown F (.val cls m) =
          match if cls = .canvas ∧ m.name ≠ "animated" then canvasStr F (fun _ => true) [] m
            else valueStr F (fun _ => true) none cls m with
          | .error e => .error e
          | .ok _ => .ok () := by
        cases cls <;> first | rfl | exact absurd rfl h1
      rw [key, if_neg (fun e => hcan e.1), hv]
  obtain ⟨e', he', hsh⟩ := hsh
  have : tryAttr F d k v (c, x) = .error e' := by simp only [tryAttr, ha, hsh]
  simp only [meets_error this, if_neg he'] at hb
  cases hb

/-- C136, where it fails: if it raises `AttributeError` (a group's canvas with a text layer in it that has no text), then
the layer is passed over. -/
theorem c136_passed_over {F : Fl} {d : Defaults} {x : Node} (hl : isLayerElt x = true) {c : LClass} (hc : layerOf x = .ok c)
    {m : Node} (hm : ValueOf "canvas" c x .canvas m) (hn : m.name ≠ "animated") (pre : List Node) (y : Node) (post : List Node)
    (hk : m.tagKids = pre ++ y :: post) (hall : ∀ z ∈ m.tagKids, z.name = "layer" ∧ ∃ c, layerOf z = .ok c)
    (hpre : ∀ z ∈ pre, layerOf z ≠ .ok lcText) (hy : layerOf y = .ok lcText) (ht : findParam "text".toList y = none)
    (v : PV) : matcher F d .none [("canvas", v)] x = .ok false := by
  rw [matcher_layer hl, hc]
  have ha : layerAttr F d "canvas" (c, x) = .ok (.val .canvas m) := (layerAttr_field (by decide)).2 ⟨_, m, hm, rfl⟩
  have hmap : ∃ os, mapRes asLayer m.tagKids = .ok os ∧ os.map Prod.snd = m.tagKids ∧ ∀ o ∈ os, layerOf o.2 = .ok o.1 := by
    generalize m.tagKids = ks at hall
    clear hk
    induction ks with
    | nil => exact ⟨[], rfl, rfl, by simp⟩
    | cons z r ih =>
      obtain ⟨os, h1, h2, h3⟩ := ih fun w hw => hall w (by simp [hw])
      obtain ⟨-, cz, hcz⟩ := hall z (by simp)
      refine ⟨(cz, z) :: os, ?_, by simp [h2], ?_⟩
      · simp only [mapRes, asLayer, hcz, h1]
      · intro o ho
        rcases List.mem_cons.1 ho with rfl | ho
        · exact hcz
        · exact h3 o ho
  obtain ⟨os, ho1, ho2, ho3⟩ := hmap
  have hrepr : mapRes (layerRepr F (fun _ => true) [m]) os = .error .attr := by
    rw [hk] at ho2
    clear ho1 hk hall
    induction pre generalizing os with
    | nil =>
      cases os with
      | nil => simp at ho2
      | cons o os =>
        simp only [List.map_cons, List.nil_append, List.cons.injEq] at ho2
        have h1 := ho3 o (by simp)
        rw [ho2.1, hy] at h1
        injection h1 with h1
        have : layerRepr F (fun _ => true) [m] o = .error .attr := by
          rw [layerRepr, if_pos h1.symm, ho2.1]
          simp only [getField, fieldValue, ht]
        simp only [mapRes, this]
    | cons z pre ih =>
      cases os with
      | nil => simp at ho2
      | cons o os =>
        simp only [List.map_cons, List.cons_append, List.cons.injEq] at ho2
        have h1 := ho3 o (by simp)
        have hne : o.1 ≠ lcText := by
          rintro e
          rw [ho2.1, e] at h1
          exact hpre z (by simp) h1
        obtain ⟨s, hs⟩ : ∃ s, layerRepr F (fun _ => true) [m] o = .ok s := by
          rw [layerRepr, if_neg hne]; exact ⟨_, rfl⟩
        simp only [mapRes, hs, ih (fun w hw => hpre w (by simp [hw])) os ho2.2 fun o' ho' => ho3 o' (by simp [ho'])]
  have hany : (m.tagKids.any fun z => z.name ≠ "layer") = false := by
    rw [List.any_eq_false]
    intro z hz
    simp [(hall z hz).1]
  have hsh : attrShown F (.val .canvas m) = .error .attr := by
    simp only [attrShown, hn, ne_eq, not_false_eq_true, and_self, if_true, canvasStr]
    rw [if_neg (by simpa using hany)]
    simp only [ho1, hrepr]
  have : tryAttr F d "canvas" v (c, x) = .error .attr := by simp only [tryAttr, ha, hsh]
  simp only [meets_error this, if_true]

/-- C136, where it fails: searching for `None` raises an exception if any layer has a number there. -/
theorem c136_none_raises {F : Fl} {d : Defaults} {n x : Node} {p : Place} (hp : p ≠ [])
    (hx : nodeAt p n = some x) (hl : isLayerElt x = true) {c : LClass} (hc : layerOf x = .ok c) {k : String}
    (hk : k ∉ generalNames) {cls : VCls} {m : Node} (hm : ValueOf k c x cls m)
    (hcls : cls = .real ∨ cls = .angle ∨ cls = .integer) (l : List (Place × LObj)) :
    findAllAt F d {kw := [(k, .pv .none)]} [] n ≠ .ok l := by
  rcases hcls with rfl | rfl | rfl
  · exact c136_comparing_raises hp hx hl hc hk hm (by simp) (by simp) (e := .type) rfl l
  · exact c136_comparing_raises hp hx hl hc hk hm (by simp) (by simp) (e := .type) rfl l
  · exact c136_comparing_raises hp hx hl hc hk hm (by simp) (by simp) (e := .type) rfl l

/-- C136, where it fails: a search by a blend method raises an exception, if any layer has one. -/
theorem c136_blend_raises {F : Fl} {d : Defaults} {n x : Node} {p : Place} (hp : p ≠ [])
    (hx : nodeAt p n = some x) (hl : isLayerElt x = true) {c : LClass} (hc : layerOf x = .ok c) {k : String}
    (hk : k ≠ "type") {i : ℤ} (hf : c.fields.lookup k = some (.blend i)) {cls : VCls} {m : Node}
    (hm : fieldValue k x = .ok (cls, m)) (hcls : cls ≠ .composite) (v : PV) (l : List (Place × LObj)) :
    findAllAt F d {kw := [(k, .pv v)]} [] n ≠ .ok l := by
  intro h
  obtain ⟨b, hb⟩ := matcher_defined (value_targets hk v).1 (value_targets hk v).2 h hp hx hl
  rw [matcher_layer hl, hc] at hb
  have hne : misfit cls m ≠ .attr := by
    rw [misfit]
    split
    · simp
    · split
      · next e he =>
        rintro rfl
        rw [valueStr, if_neg fun e => hcls e.1] at he
        exact plainStr_ne_attr _ _ _ _ _ he
      · simp
  have : tryAttr F d k v (c, x) = .error (misfit cls m) := by
    simp only [tryAttr, layerAttr, hf, getField, hm]
  simp only [meets_error this, if_neg hne] at hb
  cases hb

/-! ## Examples -/

/-- A circle of some radius. -/
def exRound (r : String) : Node :=
  .tag "layer" [("type", .str "circle".toList)]
    [.tag "param" [("name", .str "radius".toList)] [.tag "real" [("value", .str r.toList)] []]]

/-- C136 on a document with three circles: two are near enough to the number. -/
example : (findAllAt double .initial {kw := [("radius", .pv (.float 2))]} []
    (.tag "canvas" [] [exRound "2.0000000000", .text ['\n'], exRound "2.5", exFrame.plug [exRound "2.00001"]])).toOption.map
      (fun l => l.map fun p => (p.1, p.2.1.name)) = some [([0], "Circle"), ([3, 3, 1, 0], "Circle")] ∧
    "radius" ∉ generalNames := by decide +kernel

/-- C136, setting the radius of the second and searching for what was set: its hypotheses are met, and both circles whose
radius is near are found. -/
example : ∃ c dv m, layerOf (exRound "2.5") = .ok c ∧ c.fields.lookup "radius" = some (.param .real dv) ∧
    getField "radius" (.param .real dv) (exRound "2.5") = .ok (.real, m) ∧ KeptAs double .real (.float (1 / 4)) :=
  ⟨lcCircle, _, _, by decide +kernel, rfl, rfl, .real (by norm_num [abs_of_pos])⟩

/-- C136, where it raises: a circle has a radius, and a blend method. -/
example : (∃ c cls m, layerOf (exRound "2.5") = .ok c ∧ ValueOf "radius" c (exRound "2.5") cls m ∧ cls = .real) ∧
    ∃ i, lcCircle.fields.lookup "blend_method" = some (.blend i) :=
  ⟨⟨lcCircle, .real, _, by decide +kernel, .field rfl rfl, rfl⟩, _, rfl⟩

/-- C136, where the text can't be made: a circle with an origin that isn't a number. Comparing alone would have said that
it isn't `None`; the search raises `ValueError`. -/
example : (∃ m, ValueOf "origin" lcCircle (.tag "layer" [("type", .str "circle".toList)]
      [.tag "param" [("name", .str "origin".toList)] [.tag "vector" [] [.tag "x" [] [.text ['w']], .tag "y" [] [.text ['0']]]]]) .vector m ∧
      valueRepr double (fun _ => true) none .vector m = .error .value ∧ (valueEq double none .vector m .none).toOption = some false) ∧
    (findAllAt double .initial {kw := [("origin", .pv .none)]} [] (.tag "canvas" [] [.tag "layer" [("type", .str "circle".toList)]
      [.tag "param" [("name", .str "origin".toList)] [.tag "vector" [] [.tag "x" [] [.text ['w']], .tag "y" [] [.text ['0']]]]]])).toOption.isNone = true :=
  ⟨⟨.tag "vector" [] [.tag "x" [] [.text ['w']], .tag "y" [] [.text ['0']]], .field rfl (by decide +kernel), by decide +kernel, by decide +kernel⟩, by decide +kernel⟩

/-- A group with a circle, a text layer without any text, and a circle. -/
def exMute : Node :=
  .tag "layer" [("type", .str "group".toList)] [.tag "param" [("name", .str "canvas".toList)] [.tag "canvas" []
    [exRound "1", .tag "layer" [("type", .str "text".toList)] [], exRound "1"]]]

/-- C136, where it is passed over: the hypotheses are met by that group. -/
example : isLayerElt exMute = true ∧ layerOf exMute = .ok lcGroup ∧ ∃ m, ValueOf "canvas" lcGroup exMute .canvas m ∧
    m.name ≠ "animated" ∧ m.tagKids = [exRound "1"] ++ .tag "layer" [("type", .str "text".toList)] [] :: [exRound "1"] ∧
    (∀ z ∈ m.tagKids, z.name = "layer" ∧ ∃ c, layerOf z = .ok c) ∧ (∀ z ∈ [exRound "1"], layerOf z ≠ .ok lcText) ∧
    layerOf (.tag "layer" [("type", .str "text".toList)] []) = .ok lcText ∧
    findParam "text".toList (.tag "layer" [("type", .str "text".toList)] []) = none := by
  refine ⟨rfl, by decide +kernel, _, .field rfl rfl, by decide, rfl, ?_, ?_, by decide +kernel, rfl⟩
  · intro z hz
    have hz : z ∈ [exRound "1", .tag "layer" [("type", .str "text".toList)] [], exRound "1"] := hz
    simp only [List.mem_cons, List.not_mem_nil, or_false] at hz
    rcases hz with rfl | rfl | rfl
    · exact ⟨rfl, lcCircle, by decide +kernel⟩
    · exact ⟨rfl, lcText, by decide +kernel⟩
    · exact ⟨rfl, lcCircle, by decide +kernel⟩
  · intro z hz
    rw [List.mem_singleton.1 hz]
    decide +kernel

end Sang
