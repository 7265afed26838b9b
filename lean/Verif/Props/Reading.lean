import Verif.Spec.Reading
import Verif.Props.Vectors
import Verif.Props.Composites
import Verif.Props.Files
import Verif.Props.Layers
import Verif.Lemmas.Timeline
import Verif.Props.WaypointRules

/-!
# C117, C118: reading values and timelines that Synfig wrote
-/

namespace Sang
open Spec

theorem hasTexts_filter {n : Node} {l : List (String × Str)} (h : HasTexts n l)
    (hnd : (l.map Prod.fst).Nodup) {k : String} {s : Str} (hk : (k, s) ∈ l) :
    ∃ a, n.tagKids.filter (fun x => x.name = k) = [.tag k a [.text s]] := by
  obtain ⟨l', hp, hf⟩ := h
  rw [← (hp.map _).nodup_iff] at hnd
  rw [← hp.mem_iff] at hk
  clear hp
  generalize n.tagKids = ks at hf
  induction hf with
  | nil => simp at hk
  | @cons x p xs ps hx hxs ih =>
    obtain ⟨a, rfl⟩ := hx
    rw [List.map_cons, List.nodup_cons] at hnd
    rcases List.mem_cons.mp hk with rfl | hk
    · refine ⟨a, ?_⟩
      rw [List.filter_cons_of_pos (by simp [Node.name]), List.filter_eq_nil_iff.mpr]
      intro y hy
      have : ∀ y ∈ xs, y.name ∈ ps.map Prod.fst := by
        clear ih hnd hk hy
        induction hxs with
        | nil => simp
        | @cons z q zs qs hz _ ih' =>
          obtain ⟨b, rfl⟩ := hz
          intro y hy
          rcases List.mem_cons.mp hy with rfl | hy
          · simp [Node.name]
          · exact List.mem_cons_of_mem _ (ih' y hy)
      have hm := this y hy
      intro he
      simp only [decide_eq_true_eq] at he
      exact hnd.1 (he ▸ hm)
    · have hne : p.1 ≠ k := by
        rintro rfl
        exact hnd.1 (List.mem_map.mpr ⟨_, hk, rfl⟩)
      rw [List.filter_cons_of_neg (by simp [Node.name, hne])]
      exact ih hk hnd.2

theorem hasTexts_leaves {n : Node} {l : List (String × Str)} (h : HasTexts n l) :
    ∀ x ∈ n.tagKids, ∃ k a s, x = .tag k a [.text s] := by
  obtain ⟨l', -, hf⟩ := h
  generalize n.tagKids = ks at hf ⊢
  induction hf with
  | nil => simp
  | @cons x p xs ps hx _ ih =>
    intro y hy
    rcases List.mem_cons.mp hy with rfl | hy
    · obtain ⟨a, rfl⟩ := hx; exact ⟨_, _, _, rfl⟩
    · exact ih y hy

theorem descTags_leaves {n : Node} (h : ∀ x ∈ n.tagKids, ∃ k a s, x = .tag k a [.text s]) :
    n.descTags = n.tagKids := by
  unfold Node.descTags Node.tagKids at *
  generalize n.kids = ks at h ⊢
  induction ks with
  | nil => simp [Node.nodesIn]
  | cons x r ih =>
    cases x with
    | text s =>
      rw [Node.nodesIn, Node.subtree, List.filter_append, List.filter_cons_of_neg (by simp [Node.isTag]),
        List.filter_cons_of_neg (by simp [Node.isTag])]
      rw [List.filter_cons_of_neg (by simp [Node.isTag])] at h
      simpa using ih h
    | tag k a ks =>
      rw [List.filter_cons_of_pos (by simp [Node.isTag])] at h
      obtain ⟨k', a', s, he⟩ := h _ List.mem_cons_self
      injection he with _ _ he
      subst he
      rw [Node.nodesIn, List.filter_append, List.filter_cons_of_pos (l := r) (by simp [Node.isTag]),
        ih fun x hx => h x (List.mem_cons_of_mem _ hx)]
      rfl

theorem hasTexts_find {n : Node} {l : List (String × Str)} (h : HasTexts n l)
    (hnd : (l.map Prod.fst).Nodup) {k : String} {s : Str} (hk : (k, s) ∈ l) :
    ∃ a, n.find k = some (.tag k a [.text s]) := by
  obtain ⟨a, ha⟩ := hasTexts_filter h hnd hk
  exact ⟨a, by rw [Node.find, Node.findAll, descTags_leaves (hasTexts_leaves h), ha]; rfl⟩

/-- C117. A colour reads as its components, whatever order they are in. -/
theorem c117_color (F : Fl) {n : Node} {r g b a : Str}
    (h : HasTexts n [("r", r), ("g", g), ("b", b), ("a", a)]) :
    colorTuple F n = mapRes (pyFloat F) [r, g, b, a] := by
  have key : ∀ k s, (k, s) ∈ [("r", r), ("g", g), ("b", b), ("a", a)] →
      colorComponent F n k = pyFloat F s := by
    intro k s hk
    obtain ⟨b, hb⟩ := hasTexts_find h (by simp) hk
    rw [colorComponent, hb]
    rfl
  simp only [colorTuple, rgba, mapRes, key "r" r (by simp), key "g" g (by simp), key "b" b (by simp),
    key "a" a (by simp)]

/-- C117. One that lacks a component can't be read. -/
theorem c117_color_missing (F : Fl) {n : Node} {k : String} (hk : k ∈ ["r", "g", "b", "a"])
    (h : ∀ x ∈ n.descTags, x.name ≠ k) : ∃ e, colorTuple F n = .error e := by
  have hc : colorComponent F n k = .error .index := by
    have : n.find k = none := by
      rw [Node.find, Node.findAll, List.filter_eq_nil_iff.mpr]
      · rfl
      · simpa using h
    rw [colorComponent, this]
  have : ∀ l : List String, k ∈ l → ∃ e, mapRes (colorComponent F n) l = .error e := by
    intro l
    induction l with
    | nil => simp
    | cons x r ih =>
      intro hm
      rw [mapRes]
      rcases List.mem_cons.mp hm with rfl | hm
      · rw [hc]; exact ⟨_, rfl⟩
      · obtain ⟨e, he⟩ := ih hm
        rw [he]
        cases colorComponent F n x with
        | error e => exact ⟨_, rfl⟩
        | ok q => exact ⟨_, rfl⟩
  exact this rgba hk

/-- C117. A vector reads as x and y, whatever order they are in: as a tuple, by subscript and by
attribute. -/
theorem c117_vector (F : Fl) {n : Node} {x y : Str} (h : HasTexts n [("x", x), ("y", y)]) :
    vectorTuple F n = mapRes (pyFloat F) [x, y] ∧
    vectorGet F n "x" = pyFloat F x ∧ vectorGet F n "y" = pyFloat F y ∧
    vectorAttr F n "x" = pyFloat F x ∧ vectorAttr F n "y" = pyFloat F y := by
  have hg : ∀ k s, (k, s) ∈ [("x", x), ("y", y)] → vectorGet F n k = pyFloat F s := by
    intro k s hk
    obtain ⟨b, hb⟩ := hasTexts_filter h (by simp) hk
    rw [vectorGet, hb]
    rfl
  have ha : ∀ k s, (k, s) ∈ [("x", x), ("y", y)] → k.toList.head? ≠ some '_' →
      vectorAttr F n k = pyFloat F s := by
    intro k s hk hu
    obtain ⟨b, hb⟩ := hasTexts_find h (by simp) hk
    rw [vectorAttr, if_neg hu, hb]
    simp [Node.allText, Node.allTextKids]
  refine ⟨?_, hg _ _ (by simp), hg _ _ (by simp), ha _ _ (by simp) (by decide), ha _ _ (by simp) (by decide)⟩
  obtain ⟨l', hp, hf⟩ := h
  have hlen := hp.length_eq
  match l', hlen with
  | [p, q], _ =>
    match hk : n.tagKids, hf with
    | [t, u], .cons ⟨a, ht⟩ (.cons ⟨b, hu⟩ .nil) =>
      have hpq : (p = ("x", x) ∧ q = ("y", y)) ∨ (p = ("y", y) ∧ q = ("x", x)) := by
        have h1 : p ∈ [("x", x), ("y", y)] := hp.mem_iff.mp List.mem_cons_self
        have h2 : ("x", x) ∈ [p, q] := hp.mem_iff.mpr List.mem_cons_self
        have h3 : ("y", y) ∈ [p, q] := hp.mem_iff.mpr (by simp)
        simp only [List.mem_cons, List.not_mem_nil, or_false] at h1 h2 h3
        rcases h1 with rfl | rfl
        · rcases h3 with h3 | h3
          · simp at h3
          · exact .inl ⟨rfl, h3.symm⟩
        · rcases h2 with h2 | h2
          · simp at h2
          · exact .inr ⟨rfl, h2.symm⟩
      have s1 : sortNames ["x", "y"] = ["x", "y"] := by decide +kernel
      have s2 : sortNames ["y", "x"] = ["x", "y"] := by decide +kernel
      rcases hpq with ⟨rfl, rfl⟩ | ⟨rfl, rfl⟩
      · have hd : vectorDict n = [("x", some x), ("y", some y)] := by
          rw [vectorDict, hk, ht, hu]
          simp [dictSet, Node.name, Node.string?, Node.stringKids?]
        simp only [vectorTuple, hd, List.map, s1]
        rfl
      · have hd : vectorDict n = [("y", some y), ("x", some x)] := by
          rw [vectorDict, hk, ht, hu]
          simp [dictSet, Node.name, Node.string?, Node.stringKids?]
        simp only [vectorTuple, hd, List.map, s2]
        rfl

/-- C117. The class of a value comes from the name of its element or, if it's animated, from the attribute
`type`; either however it is spelled in capitals and underscores. -/
theorem c117_class {k : String} {c : VCls} (hk : (k, c) ∈ valueElements) (n : Node) :
    (SameName n.name.toList k.toList → fromTag n = .ok c) ∧
    (∀ s, n.name = "animated" → n.attrs.get "type" = some (.str s) → SameName s k.toList → fromTag n = .ok c) := by
  have key : ∀ p ∈ valueElements, valueRegistry.fromName p.1.toList = .ok p.2 ∧
      normaliseName "animated".toList ≠ normaliseName p.1.toList ∧ p.2 ≠ .vector ∧ p.2 ≠ .composite := by decide +kernel
  obtain ⟨h1, h2, h3, h4⟩ := key _ hk
  simp only at h1 h2 h3 h4
  have h5 : ∀ s, SameName s k.toList → valueRegistry.fromName s = .ok c := by
    intro s hs
    rw [← h1, Registry.fromName, Registry.fromName, (sameName_iff _ _).1 hs]
  constructor
  · intro hn
    have h6 : n.name ≠ "animated" := by
      intro h; rw [h] at hn; exact h2 ((sameName_iff _ _).1 hn)
    simp only [fromTag, if_neg h6, h5 _ hn]
  · intro s hn ht hs
    simp only [fromTag, hn, if_true, strAttr, ht, h5 _ hs]

theorem registry_vector : valueRegistry.fromName "vector".toList = .ok .vector := by decide +kernel
theorem registry_composite : valueRegistry.fromName "composite".toList = .ok .composite := by decide +kernel

theorem isXY_iff {l : List String} : isXY l = true ↔ (∀ k, k ∈ l ↔ k = "x" ∨ k = "y") := by
  simp only [isXY, Bool.and_eq_true, List.all_eq_true, Bool.or_eq_true, beq_iff_eq, List.contains_iff_mem]
  constructor
  · rintro ⟨⟨h1, h2⟩, h3⟩ k
    exact ⟨h1 k, by rintro (rfl | rfl) <;> assumption⟩
  · intro h
    exact ⟨⟨fun k hk => (h k).mp hk, (h _).mpr (.inl rfl)⟩, (h _).mpr (.inr rfl)⟩

/-- C117. A vector must have coordinates x and y, and nothing else; or is refused with `TypeError`. -/
theorem c117_vector_class (n : Node) (hn : n.name = "vector") :
    ((∀ k, k ∈ n.tagKids.map Node.name ↔ k = "x" ∨ k = "y") → fromTag n = .ok .vector) ∧
    (¬ (∀ k, k ∈ n.tagKids.map Node.name ↔ k = "x" ∨ k = "y") → fromTag n = .error .type) := by
  have h0 : ("vector" : String) ≠ "animated" := by decide
  constructor <;> intro h
  · simp only [fromTag, hn, if_neg h0, registry_vector, vectorCheck, kidNames, isXY_iff.mpr h, if_true]
  · have : isXY (kidNames n) = false := by
      rw [Bool.eq_false_iff]; exact fun h' => h (isXY_iff.mp h')
    simp only [fromTag, hn, if_neg h0, registry_vector, vectorCheck, this, Bool.false_eq_true, if_false]

/-- C117. If it is animated, that goes for the value of its first waypoint. -/
theorem c117_animated_vector_class (n w v : Node) (ws vs : List Node) (hn : n.name = "animated")
    (ht : n.attrs.get "type" = some (.str "vector".toList)) (hw : n.tagKids = w :: ws)
    (hv : w.tagKids = v :: vs) :
    ((∀ k, k ∈ v.tagKids.map Node.name ↔ k = "x" ∨ k = "y") → fromTag n = .ok .vector) ∧
    (¬ (∀ k, k ∈ v.tagKids.map Node.name ↔ k = "x" ∨ k = "y") → fromTag n = .error .type) := by
  constructor <;> intro h
  · simp only [fromTag, hn, if_true, strAttr, ht, registry_vector, vectorCheck, hw, hv, kidNames,
      isXY_iff.mpr h]
  · have : isXY (kidNames v) = false := by
      rw [Bool.eq_false_iff]; exact fun h' => h (isXY_iff.mp h')
    simp only [fromTag, hn, if_true, strAttr, ht, registry_vector, vectorCheck, hw, hv, this,
      Bool.false_eq_true, if_false]

/-- C117. A boolean is true if it says so, in any mixture of capitals, and false otherwise. -/
theorem c117_bool {n : Node} {s : Str} (h : n.attrs.get "value" = some (.str s)) :
    getBool n = .ok (decide (s.map Char.toLower = "true".toList)) := by
  rw [getBool, simpleText, h]
  simp only
  rw [lower_eq]

/-- C117. Numbers are the numbers written in the attribute `value`, and times are the times, at the
animation's rate. A value without the attribute can't be read. -/
theorem c117_simple (F : Fl) (root : Option Attrs) (n : Node) :
    (∀ s, n.attrs.get "value" = some (.str s) →
      getFloat F n = pyFloat F s ∧ getInt n = pyInt s ∧ getTime F root n = T.new F root (.str s)) ∧
    (n.attrs.get "value" = none → getFloat F n = .error .value ∧ getInt n = .error .value ∧
      getTime F root n = .error .value ∧ getBool n = .error .value) := by
  constructor
  · intro s h
    simp only [getFloat, getInt, getTime, simpleText, h, and_self]
  · intro h
    simp only [getFloat, getInt, getTime, getBool, simpleText, h, and_self]

theorem hasParts_filter {n : Node} {l : List (String × Node)} (h : HasParts n l)
    (hnd : (l.map Prod.fst).Nodup) {k : String} {v : Node} (hk : (k, v) ∈ l) :
    ∃ f, n.tagKids.filter (fun x => x.name = k) = [f] ∧ f.tagKids = [v] := by
  obtain ⟨l', hp, hf⟩ := h
  rw [← (hp.map _).nodup_iff] at hnd
  rw [← hp.mem_iff] at hk
  clear hp
  generalize n.tagKids = ks at hf
  induction hf with
  | nil => simp at hk
  | @cons x p xs ps hx hxs ih =>
    obtain ⟨hx1, hx2⟩ := hx
    rw [List.map_cons, List.nodup_cons] at hnd
    rcases List.mem_cons.mp hk with rfl | hk
    · refine ⟨x, ?_, hx2⟩
      rw [List.filter_cons_of_pos (by simpa using hx1), List.filter_eq_nil_iff.mpr]
      intro y hy
      have : ∀ y ∈ xs, y.name ∈ ps.map Prod.fst := by
        clear ih hnd hk hy
        induction hxs with
        | nil => simp
        | @cons z q zs qs hz _ ih' =>
          intro y hy
          rcases List.mem_cons.mp hy with rfl | hy
          · simp [hz.1]
          · exact List.mem_cons_of_mem _ (ih' y hy)
      have hm := this y hy
      intro he
      simp only [decide_eq_true_eq] at he
      exact hnd.1 (he ▸ hm)
    · have hne : p.1 ≠ k := by
        rintro rfl
        exact hnd.1 (List.mem_map.mpr ⟨_, hk, rfl⟩)
      rw [List.filter_cons_of_neg (by simp [hx1, hne])]
      exact ih hk hnd.2

/-- C117. A transformation has its four parts under their names, whatever order they are in: as a dict and
by subscript. -/
theorem c117_transformation {n : Node} {offset angle skew scale : Node}
    (h : HasParts n [("offset", offset), ("angle", angle), ("skew_angle", skew), ("scale", scale)])
    {co ca ck cs : VCls} (h1 : fromTag offset = .ok co) (h2 : fromTag angle = .ok ca)
    (h3 : fromTag skew = .ok ck) (h4 : fromTag scale = .ok cs) :
    (compositeGet n "offset" = .ok (co, offset) ∧ compositeGet n "angle" = .ok (ca, angle) ∧
      compositeGet n "skew_angle" = .ok (ck, skew) ∧ compositeGet n "scale" = .ok (cs, scale)) ∧
    ∃ d, compositeDict n = .ok d ∧ d.length = 4 ∧
      d.lookup "offset" = some (co, offset) ∧ d.lookup "angle" = some (ca, angle) ∧
      d.lookup "skew_angle" = some (ck, skew) ∧ d.lookup "scale" = some (cs, scale) := by
  have hg : ∀ k v c, (k, v) ∈ [("offset", offset), ("angle", angle), ("skew_angle", skew),
      ("scale", scale)] → fromTag v = .ok c → compositeGet n k = .ok (c, v) := by
    intro k v c hk hc
    obtain ⟨f, hf, hv⟩ := hasParts_filter h (by simp) hk
    simp only [compositeGet, hf, hv, hc]
  refine ⟨⟨hg _ _ _ (by simp) h1, hg _ _ _ (by simp) h2, hg _ _ _ (by simp) h3, hg _ _ _ (by simp) h4⟩, ?_⟩
  obtain ⟨l', hp, hf⟩ := h
  have hcls : ∀ p ∈ l', p.1 ≠ "layer" ∧ ∃ c, fromTag p.2 = .ok c := by
    intro p hpm
    have := hp.mem_iff.mp hpm
    simp only [List.mem_cons, List.not_mem_nil, or_false] at this
    rcases this with rfl | rfl | rfl | rfl
    · exact ⟨by simp, _, h1⟩
    · exact ⟨by simp, _, h2⟩
    · exact ⟨by simp, _, h3⟩
    · exact ⟨by simp, _, h4⟩
  obtain ⟨ps, hps, hmap⟩ : ∃ ps : List (String × VCls × Node),
      mapRes compositeField n.tagKids = .ok ps ∧
      List.Forall₂ (fun (q : String × VCls × Node) (p : String × Node) =>
        q.1 = p.1 ∧ q.2.2 = p.2 ∧ fromTag p.2 = .ok q.2.1) ps l' := by
    clear hp hg
    generalize n.tagKids = ks at hf
    induction hf with
    | nil => exact ⟨[], rfl, .nil⟩
    | @cons x p xs ls hx _ ih =>
      obtain ⟨ps, e, hps⟩ := ih fun p hp => hcls p (List.mem_cons_of_mem _ hp)
      obtain ⟨hl, c, hc⟩ := hcls p List.mem_cons_self
      have : compositeField x = .ok (p.1, c, p.2) := by
        rw [compositeField, hx.1, if_neg hl, hx.2]
        simp only [hc]
      exact ⟨(p.1, c, p.2) :: ps, by rw [mapRes, this, e], .cons ⟨rfl, rfl, hc⟩ hps⟩
  have hkeys : ps.map Prod.fst = l'.map Prod.fst := by
    clear hps hcls hf hp
    induction hmap with
    | nil => rfl
    | cons h _ ih => simp [h.1, ih]
  have hnd : (ps.map Prod.fst).Nodup := by
    rw [hkeys, (hp.map _).nodup_iff]; simp
  have hmemk : ∀ k, k ∈ ps.map Prod.fst ↔ k ∈ ["offset", "angle", "skew_angle", "scale"] := by
    intro k; rw [hkeys, (hp.map _).mem_iff]; simp
  have hd : ps.foldl (fun d p => dictSet p.1 p.2 d) [] = ps := by
    have := foldl_dictSet_nodup ps [] (by simpa using hnd)
    simpa using this
  have hl : ∀ k v c, (k, v) ∈ [("offset", offset), ("angle", angle), ("skew_angle", skew),
      ("scale", scale)] → fromTag v = .ok c → ps.lookup k = some (c, v) := by
    intro k v c hk hc
    rw [← hp.mem_iff] at hk
    clear hps hd hmemk hkeys hcls hf hp
    induction hmap with
    | nil => simp at hk
    | @cons q p qs ls hq hmap ih =>
      rw [List.map_cons, List.nodup_cons] at hnd
      obtain ⟨q1, qc, qv⟩ := q
      obtain ⟨hq1, hq2, hq3⟩ := hq
      simp only at hq1 hq2 hq3
      rcases List.mem_cons.mp hk with rfl | hk
      · simp only at hq1 hq2 hq3
        rw [hc] at hq3
        injection hq3 with hq3
        rw [List.lookup_cons, hq1, hq2, hq3]; simp
      · have hne : k ≠ q1 := by
          rintro rfl
          apply hnd.1
          have hall : ls.map Prod.fst = qs.map Prod.fst := by
            clear ih hk hnd hg
            revert hmap
            generalize qs = qs
            generalize ls = ls
            intro hmap
            induction hmap with
            | nil => rfl
            | cons h _ ih => simp [h.1, ih]
          show k ∈ _
          rw [← hall]
          exact List.mem_map.mpr ⟨_, hk, rfl⟩
        rw [List.lookup_cons, show (k == q1) = false by simpa using hne]
        exact ih hnd.2 hk
  refine ⟨ps, ?_, ?_, hl _ _ _ (by simp) h1, hl _ _ _ (by simp) h2, hl _ _ _ (by simp) h3,
    hl _ _ _ (by simp) h4⟩
  · simp only [compositeDict, hps, hd]
    rw [if_pos]
    simp only [sameKeys, requiredKeys, Bool.and_eq_true, List.all_eq_true, List.contains_iff_mem]
    constructor
    · intro k hk
      simpa using (hmemk k).mp hk
    · intro k hk
      exact (hmemk k).mpr (by simpa using hk)
  · rw [← List.length_map (f := Prod.fst), hkeys, List.length_map, hp.length_eq]; rfl

/-- C117. One that lacks a part, or has another, can't be read as a dict; and the part it lacks isn't there for
subscripts. -/
theorem c117_transformation_missing {n : Node} {k : String} :
    (k ∈ ["offset", "angle", "skew_angle", "scale"] → k ∉ n.tagKids.map Node.name →
      (∃ e, compositeDict n = .error e) ∧ compositeGet n k = .error .key) ∧
    (k ∉ ["offset", "angle", "skew_angle", "scale"] → k ∈ n.tagKids.map Node.name →
      ∃ e, compositeDict n = .error e) := by
  have key : ∀ ps, mapRes compositeField n.tagKids = .ok ps → ∀ k,
      k ∈ (ps.foldl (fun d p => dictSet p.1 p.2 d) []).map Prod.fst ↔ k ∈ n.tagKids.map Node.name := by
    intro ps h k
    rw [(foldl_dictSet_keys ps [] (by simp)).2, mapRes_compositeField h]
    simp
  refine ⟨fun hk hn => ⟨?_, ?_⟩, fun hk hn => ?_⟩
  · cases h : mapRes compositeField n.tagKids with
    | error e => exact ⟨e, by rw [compositeDict, h]⟩
    | ok ps =>
      refine ⟨.assertion, ?_⟩
      rw [compositeDict, h]
      simp only
      rw [if_neg]
      simp only [sameKeys, requiredKeys, Bool.and_eq_true, List.all_eq_true, List.contains_iff_mem]
      rintro ⟨_, h2⟩
      exact hn ((key ps h k).mp (h2 k (by simpa using hk)))
  · rw [compositeGet, List.filter_eq_nil_iff.mpr]
    intro x hx
    simp only [decide_eq_true_eq]
    exact fun e => hn (List.mem_map.mpr ⟨x, hx, e⟩)
  · cases h : mapRes compositeField n.tagKids with
    | error e => exact ⟨e, by rw [compositeDict, h]⟩
    | ok ps =>
      refine ⟨.assertion, ?_⟩
      rw [compositeDict, h]
      simp only
      rw [if_neg]
      simp only [sameKeys, requiredKeys, Bool.and_eq_true, List.all_eq_true, List.contains_iff_mem]
      rintro ⟨h1, _⟩
      exact hk (by simpa using h1 k ((key ps h k).mpr hn))

/-- A stop of a gradient, as Synfig writes it: a colour with a position. -/
def StopElement (F : Fl) (c : Node) (p : ℚ) : Prop :=
  c.name = "color" ∧ (∃ s, c.attrs.get "pos" = some (.str s) ∧ pyFloat F s = .ok p) ∧
  ∃ r g b a, HasTexts c [("r", r), ("g", g), ("b", b), ("a", a)]

theorem hasTexts_names {n : Node} {l : List (String × Str)} (h : HasTexts n l) :
    ∀ x ∈ n.tagKids, x.name ∈ l.map Prod.fst := by
  obtain ⟨l', hp, hf⟩ := h
  intro x hx
  rw [← (hp.map _).mem_iff]
  clear hp
  generalize n.tagKids = ks at hf hx
  induction hf with
  | nil => simp at hx
  | @cons y p ys ps hy _ ih =>
    rcases List.mem_cons.mp hx with rfl | hx
    · obtain ⟨a, rfl⟩ := hy; simp [Node.name]
    · exact List.mem_cons_of_mem _ (ih hx)

theorem findAll_flat {n : Node} {k : String} (h : ∀ x ∈ n.tagKids, x.name = k ∧ x.findAll k = []) :
    n.findAll k = n.tagKids := by
  unfold Node.findAll Node.descTags at *
  unfold Node.tagKids at *
  generalize n.kids = ks at h ⊢
  induction ks with
  | nil => simp [Node.nodesIn]
  | cons x r ih =>
    cases x with
    | text s =>
      rw [Node.nodesIn, Node.subtree]
      rw [List.filter_cons_of_neg (by simp [Node.isTag])] at h ⊢
      rw [List.filter_append, List.filter_cons_of_neg (by simp [Node.isTag])]
      simpa using ih h
    | tag k' a ks =>
      rw [List.filter_cons_of_pos (by simp [Node.isTag])] at h
      obtain ⟨h1, h2⟩ := h _ List.mem_cons_self
      rw [Node.nodesIn, Node.subtree, List.filter_append, List.filter_append,
        ih fun x hx => h x (List.mem_cons_of_mem _ hx),
        List.filter_cons_of_pos (l := r) (by simp [Node.isTag]),
        List.filter_cons_of_pos (by simp [Node.isTag]),
        List.filter_cons_of_pos (by simpa using h1)]
      simp only [Node.kids] at h2
      rw [h2]
      rfl

/-- C117. A gradient with at least two stops, at different positions, is the dictionary of their positions and
colours, in the order of the file. With fewer than two colours it can't be read. -/
theorem c117_gradient (F : Fl) {n : Node} {ps : List ℚ}
    (h : List.Forall₂ (StopElement F) n.tagKids ps) :
    (2 ≤ ps.length → ps.Nodup → gradientStops F n = .ok (ps.zip n.tagKids)) ∧
    (ps.length < 2 → gradientStops F n = .error .value) := by
  have hf : n.findAll "color" = n.tagKids := by
    apply findAll_flat
    intro x hx
    have : ∃ p, StopElement F x p := by
      generalize n.tagKids = ks at h hx
      clear n
      induction h with
      | nil => simp at hx
      | cons h _ ih =>
        rcases List.mem_cons.mp hx with rfl | hx
        · exact ⟨_, h⟩
        · exact ih hx
    obtain ⟨p, hn, _, r, g, b, a, ht⟩ := this
    refine ⟨hn, ?_⟩
    rw [Node.findAll, descTags_leaves (hasTexts_leaves ht), List.filter_eq_nil_iff]
    intro y hy
    have := hasTexts_names ht y hy
    simp only [List.map_cons, List.map_nil, List.mem_cons, List.not_mem_nil, or_false] at this
    rcases this with h | h | h | h <;> simp [h]
  have hlen := h.length_eq
  constructor
  · intro h2 hnd
    have hm : mapRes (stopOf F) n.tagKids = .ok (ps.zip n.tagKids) := by
      clear hf hlen h2 hnd
      generalize n.tagKids = ks at h
      induction h with
      | nil => rfl
      | cons h _ ih =>
        obtain ⟨_, ⟨s, h1, h2⟩, _⟩ := h
        rw [mapRes, ih, stopOf, h1]
        simp only [AttrV.toFloat, h2, List.zip_cons_cons]
    rw [gradientStops, hf]
    simp only [hlen, if_neg (not_lt.2 h2), hm]
    rw [foldl_dictSet_nodup]
    · rfl
    · rw [List.nil_append, List.map_fst_zip (by omega)]
      exact hnd
  · intro h2
    rw [gradientStops, hf]
    simp only [hlen, if_pos h2]

/-! ## C118: timelines -/

/-- An element for the waypoint `w`, as Synfig writes it, in a timeline of type `ty`. -/
structure WpElement (F : Fl) (root : Option Attrs) (ty : Str) (n : Node) (w : Waypoint) : Prop where
  name : n.name = "waypoint"
  time : ∃ s, n.attrs.get "time" = some (.str s) ∧ T.new F root (.str s) = .ok w.time
  before : ∃ s, n.attrs.get "before" = some (.str s) ∧ Names s w.before
  after : ∃ s, n.attrs.get "after" = some (.str s) ∧ Names s w.after
  value : n.tagKids = [w.val]
  type : w.val.name.toList = ty
  still : w.val.name ≠ "animated"
  cls : ∃ c, fromTag w.val = .ok c

theorem WpElement.read {F : Fl} {root : Option Attrs} {ty : Str} {n : Node} {w : Waypoint}
    (h : WpElement F root ty n w) : Waypoint.fromTag F root ty n = .ok w := by
  obtain ⟨s, hs1, hs2⟩ := h.time
  obtain ⟨b, hb1, hb2⟩ := h.before
  obtain ⟨a, ha1, ha2⟩ := h.after
  obtain ⟨c, hc⟩ := h.cls
  simp only [Waypoint.fromTag, h.name, ne_eq, not_true, if_false, hs1, AttrV.toTArg, hs2, h.value,
    h.still, h.type, hc, strAttr, hb1, ha1, checkInterp_iff.2 hb2, checkInterp_iff.2 ha2]

theorem waypoints_of_elements {F : Fl} {ctx : Ctx} {ty : Str} {n : Node} {ws : List Waypoint}
    (hn : n.name = "animated") (ht : n.attrs.get "type" = some (.str ty))
    (hw : List.Forall₂ (WpElement F ctx.root ty) n.tagKids ws)
    (hd : ws.Pairwise fun a b => a.time.frames ≠ b.time.frames) : waypoints F ctx n = .ok ws := by
  have hlen := hw.length_eq
  have hm : mapRes (Waypoint.fromTag F ctx.root ty) n.tagKids = .ok ws := by
    generalize n.tagKids = ks at hw
    clear hd hlen
    induction hw with
    | nil => rfl
    | cons h _ ih => rw [mapRes, h.read, ih]
  have hfps : ∃ f, AllFps f ws := by
    have hall : ∀ w ∈ ws, ∃ s, T.new F ctx.root (.str s) = .ok w.time := by
      generalize n.tagKids = ks at hw
      clear hd hlen hm
      induction hw with
      | nil => simp
      | cons h _ ih =>
        intro w hw
        rcases List.mem_cons.mp hw with rfl | hw
        · obtain ⟨s, _, h⟩ := h.time; exact ⟨s, h⟩
        · exact ih w hw
    cases hr : readFps F ctx.root with
    | error e =>
      refine ⟨none, fun w hw => ?_⟩
      obtain ⟨s, hs⟩ := hall w hw
      simp [T.new, hr] at hs
    | ok f =>
      refine ⟨f, fun w hw => ?_⟩
      obtain ⟨s, hs⟩ := hall w hw
      exact new_fps hr hs
  obtain ⟨f, hf⟩ := hfps
  have htags : waypointTags n = n.tagKids := by rw [waypointTags, if_neg (by simp [hn])]
  rw [waypoints, htags]
  by_cases h : n.tagKids = []
  · rw [if_pos h]
    rw [h] at hlen
    cases ws
    · rfl
    · simp at hlen
  · rw [if_neg h]
    simp only [strAttr, ht, hm]
    have := foldl_putWp_apart (f := f) ws [] (by simpa using hf) (by simpa [Apart] using hd)
    rw [this]; rfl

/-- C118. Looking at a timeline: every waypoint that was written, once, in order of time, whatever their order in
the file. -/
theorem c118_list {F : Fl} {ctx : Ctx} {ty : Str} {n : Node} {ws : List Waypoint}
    (hn : n.name = "animated") (ht : n.attrs.get "type" = some (.str ty))
    (hw : List.Forall₂ (WpElement F ctx.root ty) n.tagKids ws)
    (hd : ws.Pairwise fun a b => a.time.frames ≠ b.time.frames) :
    ∃ l, iterTimeline F ctx n = .ok l ∧ l.Perm ws ∧
      (l.Pairwise fun a b => a.time.frames < b.time.frames) ∧
      lenTimeline F ctx n = .ok n.tagKids.length := by
  have hlen := hw.length_eq
  have hws := waypoints_of_elements hn ht hw hd
  refine ⟨sortWps ws, by rw [iterTimeline, hws], List.perm_insertionSort _ _, ascending_sortWps hd, ?_⟩
  rw [lenTimeline, hws, hlen]

/-- C118. A value that isn't animated has an empty timeline. -/
theorem c118_still {F : Fl} {ctx : Ctx} {n : Node} (hn : n.name ≠ "animated") :
    iterTimeline F ctx n = .ok [] ∧ lenTimeline F ctx n = .ok 0 := by
  have : waypoints F ctx n = .ok [] := by rw [waypoints, waypointTags, if_pos hn, if_pos rfl]
  rw [iterTimeline, lenTimeline, this]
  exact ⟨rfl, rfl⟩

/-! ## Examples -/

/-- A vector as in a file, y first, with white space. -/
def exVector : Node :=
  .tag "vector" [] [.text ['\n'], .tag "y" [] [.text "-0.5".toList], .text ['\n', ' '],
    .tag "x" [("a", .str [])] [.text "2".toList], .text ['\n']]

theorem exVector_texts : HasTexts exVector [("x", "2".toList), ("y", "-0.5".toList)] := by
  refine ⟨[("y", "-0.5".toList), ("x", "2".toList)], List.Perm.swap _ _ _, ?_⟩
  have : exVector.tagKids = [.tag "y" [] [.text "-0.5".toList], .tag "x" [("a", .str [])] [.text "2".toList]] :=
    rfl
  rw [this]
  exact .cons ⟨_, rfl⟩ (.cons ⟨_, rfl⟩ .nil)

example : vectorTuple double exVector = .ok [2, -1/2] ∧ vectorGet double exVector "y" = .ok (-1/2) := by
  obtain ⟨h1, _, h3, _⟩ := c117_vector double exVector_texts
  rw [h1, h3]
  decide +kernel

example : fromTag exVector = .ok .vector :=
  (c117_vector_class exVector rfl).1 (by
    intro k
    show k ∈ ["y", "x"] ↔ _
    simp [or_comm])

example : fromTag (.tag "vector" [] [.tag "x" [] [], .tag "y" [] [], .tag "z" [] []]) = .error .type :=
  (c117_vector_class _ rfl).2 (by
    intro h
    have := (h "z").mp (by decide)
    revert this; decide)

/-- A stop at `p`. -/
def exStop (p : String) : Node :=
  .tag "color" [("pos", .str p.toList)] [.tag "b" [] [.text "1".toList], .text ['\n'],
    .tag "r" [] [.text "0".toList], .tag "g" [] [.text "0".toList], .tag "a" [] [.text "1".toList]]

theorem exStop_texts (p : String) : HasTexts (exStop p)
    [("r", "0".toList), ("g", "0".toList), ("b", "1".toList), ("a", "1".toList)] := by
  refine ⟨[("b", "1".toList), ("r", "0".toList), ("g", "0".toList), ("a", "1".toList)], ?_, ?_⟩
  · decide +kernel
  · have : (exStop p).tagKids = [.tag "b" [] [.text "1".toList], .tag "r" [] [.text "0".toList],
      .tag "g" [] [.text "0".toList], .tag "a" [] [.text "1".toList]] := rfl
    rw [this]
    exact .cons ⟨_, rfl⟩ (.cons ⟨_, rfl⟩ (.cons ⟨_, rfl⟩ (.cons ⟨_, rfl⟩ .nil)))

example : colorTuple double (exStop "0") = .ok [0, 0, 1, 1] := by
  rw [c117_color double (exStop_texts "0")]
  decide +kernel

example : gradientStops double (.tag "gradient" [] [exStop "1.0", .text ['\n'], exStop "0.25"]) =
    .ok [(1, exStop "1.0"), (1/4, exStop "0.25")] :=
  (c117_gradient double (n := .tag "gradient" [] [exStop "1.0", .text ['\n'], exStop "0.25"])
    (ps := [1, 1/4]) (by
      have : (Node.tag "gradient" [] [exStop "1.0", .text ['\n'], exStop "0.25"]).tagKids =
        [exStop "1.0", exStop "0.25"] := rfl
      rw [this]
      exact .cons ⟨rfl, ⟨_, rfl, by decide +kernel⟩, _, _, _, _, exStop_texts _⟩
        (.cons ⟨rfl, ⟨_, rfl, by decide +kernel⟩, _, _, _, _, exStop_texts _⟩ .nil))).1 (by decide) (by decide +kernel)

example : getBool (.tag "bool" [("value", .str "TrUe".toList)] []) = .ok true := by
  rw [c117_bool (s := "TrUe".toList) rfl]; decide +kernel

/-- A transformation, its parts in another order than usual. -/
def exTransformation : Node :=
  let a := Node.tag "angle" [("value", .str "0.5".toList)] []
  .tag "composite" [("type", .str "transformation".toList)]
    [.tag "scale" [] [exVector], .tag "offset" [] [.text ['\n'], exVector], .text ['\n'],
     .tag "skew_angle" [] [a], .tag "angle" [] [a]]

example : ∃ d, compositeDict exTransformation = .ok d ∧ d.length = 4 ∧
    d.lookup "scale" = some (.vector, exVector) := by
  obtain ⟨_, d, h1, h2, _, _, _, h3⟩ := c117_transformation (n := exTransformation) (offset := exVector)
    (angle := .tag "angle" [("value", .str "0.5".toList)] [])
    (skew := .tag "angle" [("value", .str "0.5".toList)] []) (scale := exVector)
    (co := .vector) (ca := .angle) (ck := .angle) (cs := .vector)
    ⟨[("scale", exVector), ("offset", exVector), ("skew_angle", .tag "angle" [("value", .str "0.5".toList)] []),
      ("angle", .tag "angle" [("value", .str "0.5".toList)] [])],
      by
        refine (List.Perm.swap _ _ _).trans (.cons _ ?_)
        refine (List.Perm.swap _ _ _).trans ?_
        refine (List.Perm.cons _ (List.Perm.swap _ _ _)).trans ?_
        refine (List.Perm.swap _ _ _).trans ?_
        exact .cons _ (.cons _ (.refl _)), by
        have : exTransformation.tagKids = [.tag "scale" [] [exVector], .tag "offset" [] [.text ['\n'], exVector],
          .tag "skew_angle" [] [.tag "angle" [("value", .str "0.5".toList)] []],
          .tag "angle" [] [.tag "angle" [("value", .str "0.5".toList)] []]] := rfl
        rw [this]
        exact .cons ⟨rfl, rfl⟩ (.cons ⟨rfl, rfl⟩ (.cons ⟨rfl, rfl⟩ (.cons ⟨rfl, rfl⟩ .nil)))⟩
    ((c117_vector_class exVector rfl).1 (by intro k; show k ∈ ["y", "x"] ↔ _; simp [or_comm]))
    ((c117_class (k := "angle") (c := .angle) (by decide) _).1 ((sameName_iff _ _).2 rfl))
    ((c117_class (k := "angle") (c := .angle) (by decide) _).1 ((sameName_iff _ _).2 rfl))
    ((c117_vector_class exVector rfl).1 (by intro k; show k ∈ ["y", "x"] ↔ _; simp [or_comm]))
  exact ⟨d, h1, h2, h3⟩

example : ∃ e, compositeDict (.tag "composite" [] [.tag "scale" [] [exVector]]) = .error e :=
  ((c117_transformation_missing (k := "angle")).1 (by decide) (by decide)).1

/-- A waypoint at the time `t`. -/
def exWp (t v : String) : Node :=
  .tag "waypoint" [("time", .str t.toList), ("before", .str "clamped".toList), ("after", .str "halt".toList)]
    [.text ['\n'], .tag "real" [("value", .str v.toList)] []]

/-- A timeline whose file has the later waypoint first. -/
def exShuffled : Node :=
  .tag "animated" [("type", .str "real".toList)] [exWp "1s" "2", .text ['\n'], exWp "5f" "3"]

theorem exWp_element {t v : String} {q : ℚ}
    (h : T.new double (some [("fps", .str "24".toList)]) (.str t.toList) = .ok ⟨q, some 24⟩) :
    WpElement double (some [("fps", .str "24".toList)]) "real".toList (exWp t v)
      ⟨⟨q, some 24⟩, "clamped".toList, "ease".toList, .tag "real" [("value", .str v.toList)] []⟩ where
  name := rfl
  time := ⟨_, rfl, h⟩
  before := ⟨_, rfl, ("clamped", "clamped"), by decide, rfl, .inl rfl⟩
  after := ⟨_, rfl, ("ease", "halt"), by decide, rfl, .inr rfl⟩
  value := rfl
  type := rfl
  still := by simp [Node.name]
  cls := ⟨_, (c117_class (k := "real") (c := .real) (by decide) _).1 ((sameName_iff _ _).2 rfl)⟩

example : ∃ l, iterTimeline double ⟨some [("fps", .str "24".toList)], true⟩ exShuffled = .ok l ∧
    l.length = 2 ∧ l.Pairwise fun a b => a.time.frames < b.time.frames := by
  obtain ⟨l, h1, h2, h3, _⟩ := c118_list (F := double) (ctx := ⟨some [("fps", .str "24".toList)], true⟩)
    (ty := "real".toList) (n := exShuffled)
    (ws := [⟨⟨24, some 24⟩, "clamped".toList, "ease".toList, .tag "real" [("value", .str "2".toList)] []⟩,
      ⟨⟨5, some 24⟩, "clamped".toList, "ease".toList, .tag "real" [("value", .str "3".toList)] []⟩]) rfl rfl
    (by
      have : exShuffled.tagKids = [exWp "1s" "2", exWp "5f" "3"] := rfl
      rw [this]
      exact .cons (exWp_element (by decide +kernel)) (.cons (exWp_element (by decide +kernel)) .nil))
    (by simp)
  exact ⟨l, h1, h2.length_eq, h3⟩

end Sang
