import Verif.Props.AssignObjects
import Verif.Props.Animate
import Verif.Props.Layers
import Verif.Animation

/-! # Assigning what was just read: C160 -/

namespace Sang

open Spec

/-- A value can be read, what was read can be assigned to it, and then it reads the same: `value.value = value.value`. -/
def PutsBack (F : Fl) (root : Option Attrs) (c : VCls) (n : Node) : Prop :=
  ∃ v n', getValue F root c n = .ok v ∧ setValue F c v n = (n', .ok ()) ∧ getValue F root c n' = .ok v

/-! ## Values -/

/-- C160 for integers: whatever text the integer had, if it can be read. -/
theorem c160_integer {F : Fl} {root : Option Attrs} {n : Node} (hn : n.isTag = true) {i : ℤ} (hi : getInt n = .ok i) :
    PutsBack F root .integer n := by
  obtain ⟨h1, h2⟩ := c20_integer_roundtrip F n hn i
  exact ⟨.int i, (setValue F .integer (.int i) n).1, by simp only [getValue, hi], Prod.ext rfl h1, by simp only [getValue, h2]⟩

/-- C160 for booleans. -/
theorem c160_bool {F : Fl} {root : Option Attrs} {n : Node} (hn : n.isTag = true) {b : Bool} (hb : getBool n = .ok b) :
    PutsBack F root .bool n := by
  obtain ⟨h1, h2⟩ := c20_bool_roundtrip F n hn b
  exact ⟨.bool b, (setValue F .bool (.bool b) n).1, by simp only [getValue, hb], Prod.ext rfl h1, by simp only [getValue, h2]⟩

/-- C160 for angles. -/
theorem c160_angle {F : Fl} (hF : F.Lawful) {root : Option Attrs} {n : Node} (hn : n.isTag = true) {q : ℚ}
    (hq : getFloat F n = .ok q) : PutsBack F root .angle n := by
  obtain ⟨h1, h2⟩ := c21_angle_roundtrip hF n hn q (getFloat_rep hF hq)
  exact ⟨.float q, (setValue F .angle (.float q) n).1, by simp only [getValue, hq], Prod.ext rfl h1, by simp only [getValue, h2]⟩

/-- C160 for text. -/
theorem c160_string {F : Fl} {root : Option Attrs} {n : Node} (hn : n.isTag = true) : PutsBack F root .string n := by
  obtain ⟨h1, h2⟩ := c31_string_roundtrip F n hn (getString n)
  exact ⟨.str (getString n), (setValue F .string (.str (getString n)) n).1, rfl, Prod.ext rfl h1, by simp only [getValue, h2]⟩

/-- C160 for times at whole frames up to 999999. -/
theorem c160_time {F : Fl} (hF : F.Lawful) {root : Option Attrs} {f : Option ℚ} (hf : readFps F root = .ok f) {n : Node}
    (hn : n.isTag = true) {k : ℕ} (hk : k < 10 ^ 6) (ht : getTime F root n = .ok ⟨k, f⟩) : PutsBack F root .time n := by
  have hk' : k < 2 ^ 53 := hk.trans (by norm_num)
  have htext : timeText F (.t ⟨k, f⟩) = .ok (natStr k ++ ['f']) := by
    have h0 : ¬ ((k:ℚ) < 0) := not_lt.2 (by positivity)
    simp only [timeText, PV.toTArg, T.new, readFps, framesOfNumber, if_neg h0, T.str]
    rw [fmtG_nat hk]
  have h : setValue F .time (.t ⟨k, f⟩) n = (.tag "time" [("value", .str (natStr k ++ ['f']))] [], .ok ()) := by
    simp only [setValue]; exact setSimple_ok hn rfl rfl htext
  refine ⟨.t ⟨k, f⟩, _, by simp only [getValue, ht], h, ?_⟩
  simp only [getValue, getTime, simpleText_tag, T.new, hf, parseSpec_frames hF f k hk']

/-- C160 for reals, as far as it holds: exactly when the number is one with at most ten decimals. -/
theorem c160_real_iff {F : Fl} {root : Option Attrs} {n : Node} (hn : n.isTag = true) {q : ℚ}
    (hq : getFloat F n = .ok q) : PutsBack F root .real n ↔ F.rnd (dec 10 q) = q := by
  have e : getValue F root .real n = .ok (.float q) := by simp only [getValue, hq]
  have g : getValue F root .real (.tag "real" [("value", .str (fixed 10 q))] []) = .ok (.float (F.rnd (dec 10 q))) := by
    simp only [getValue, getFloat, simpleText_tag, pyFloat_fixed F 10 (by norm_num : (10:ℕ) ≠ 0)]
  constructor
  · rintro ⟨v, n', h1, h2, h3⟩
    rw [e] at h1
    obtain rfl := Except.ok.inj h1
    rw [setReal_ok hn] at h2
    obtain rfl := (Prod.mk.inj h2).1
    rw [g] at h3
    exact PV.float.inj (Except.ok.inj h3)
  · intro h
    exact ⟨.float q, _, e, setReal_ok hn q, by rw [g, h]⟩

/-- C160 for reals: at any rate it is the same to ten decimals. -/
theorem c160_real_near_partial {F : Fl} (hF : F.Lawful) {root : Option Attrs} {n : Node} (hn : n.isTag = true) {q : ℚ}
    (hq : getFloat F n = .ok q) :
    ∃ n' q', getValue F root .real n = .ok (.float q) ∧ setValue F .real (.float q) n = (n', .ok ()) ∧
      getFloat F n' = .ok q' ∧ NearTen q' q := by
  refine ⟨_, F.rnd (dec 10 q), by simp only [getValue, hq], setReal_ok hn q, ?_, fixed_read_err hF 10 q⟩
  simp only [getFloat, simpleText_tag, pyFloat_fixed F 10 (by norm_num : (10:ℕ) ≠ 0)]

/-- C160 is violated by finer numbers: this one becomes nought. -/
theorem c160_fine_real_changed : ¬ PutsBack double none .real (exReal "0.00000000001") := by
  rw [c160_real_iff (q := double.rnd (1 / 10 ^ 11)) rfl (by decide +kernel)]
  decide +kernel

/-- C160 for colours with components between 0 and 1: the hex text is the same. -/
theorem c160_color_partial {F : Fl} (hF : F.Lawful) {root : Option Attrs} {n : Node} (hn : n.isTag = true) {r g b a : ℚ}
    (hc : colorTuple F n = .ok [r, g, b, a]) (hin : ∀ x ∈ [r, g, b, a], 0 ≤ x ∧ x ≤ 1) : PutsBack F root .color n := by
  obtain ⟨ds, hd, h1, h2⟩ := hexOf_canonical hF hin
  have hhex : colorHex F n = .ok (written true ds) := by simp only [colorHex, hc, h1]
  obtain ⟨g1, g2, _⟩ := c23_hex_roundtrip hF n hn ds hd true
  exact ⟨.str (written true ds), (setValue F .color (.str (written true ds)) n).1, by simp only [getValue, hhex], Prod.ext rfl g1, by simp only [getValue, g2, h2]⟩

/-- C160 is violated for the components of colours: `color.value` has only 256 levels for each, so that half red becomes
a little more than half. -/
theorem c160_color_components_change :
    let n := colorNode (1/2) 0 0 1
    ∃ v n', getValue double none .color n = .ok v ∧ setValue double .color v n = (n', .ok ()) ∧
      colorTuple double n = .ok [1/2, 0, 0, 1] ∧
      colorTuple double n' = .ok [double.rnd (501961 / 1000000), 0, 0, 1] := by
  refine ⟨.str "#800000".toList, (setValue double .color (.str "#800000".toList) (colorNode (1/2) 0 0 1)).1, ?_, ?_, ?_, ?_⟩
  · have : colorHex double (colorNode (1/2) 0 0 1) = .ok "#800000".toList := by decide +kernel
    simp only [getValue, this]
  · refine Prod.ext rfl ?_
    decide +kernel
  · decide +kernel
  · decide +kernel

/-! ### Vectors -/

theorem dictSet_mem {κ α : Type} [DecidableEq κ] {k : κ} {v : α} : ∀ {d : List (κ × α)}, (d.map Prod.fst).Nodup →
    (k, v) ∈ d → dictSet k v d = d
  | [], _, h => by simp at h
  | (k', v') :: r, hd, h => by
    rw [List.map_cons, List.nodup_cons] at hd
    rw [dictSet]
    rcases List.mem_cons.1 h with h | h
    · obtain ⟨rfl, rfl⟩ := Prod.mk.inj h
      rw [if_pos rfl]
    · rw [if_neg (fun e => hd.1 (List.mem_map.2 ⟨_, h, e.symm⟩)), dictSet_mem hd.2 h]

theorem foldl_dictSet_mem {κ α : Type} [DecidableEq κ] : ∀ {l d : List (κ × α)}, (d.map Prod.fst).Nodup →
    (∀ p ∈ l, p ∈ d) → l.foldl (fun d p => dictSet p.1 p.2 d) d = d
  | [], _, _, _ => rfl
  | p :: l, d, hd, h => by
    rw [List.foldl_cons, dictSet_mem hd (h p (by simp))]
    exact foldl_dictSet_mem hd fun q hq => h q (by simp [hq])

/-- C160 for vectors whose coordinates have text, as far as it holds: `value`, and with it `as_tuple` and `items`, are the
same, and so is each coordinate by its name. But the element has each coordinate once more every time. -/
theorem c160_vector_partial {F : Fl} {root : Option Attrs} {n : Node} (hn : n.isTag = true)
    (ht : ∀ p ∈ vectorDict n, p.2 ≠ none) :
    PutsBack F root .vector n ∧
    ∀ v, getValue F root .vector n = .ok v →
      (∀ k, vectorGet F (setValue F .vector v n).1 k = vectorGet F n k) ∧
      (setValue F .vector v n).1.tagKids.length = n.tagKids.length + (vectorDict n).length := by
  obtain ⟨e, he⟩ := all_texts ht
  obtain ⟨k1, k2⟩ := vectorDict_keys n
  cases n with
  | text t => simp [Node.isTag] at hn
  | tag nm a ks =>
    have hval : getValue F root .vector (.tag nm a ks) = .ok (.dict (e.map fun p => (p.1, .str p.2))) := by
      simp only [getValue, he, List.map_map, Function.comp_def]
    have hset : setValue F .vector (.dict (e.map fun p => (p.1, .str p.2))) (.tag nm a ks) =
        (.tag "vector" [] (ks ++ e.map fun p => .tag p.1 [] [.text p.2]), .ok ()) := by
      simp only [setValue, setVector, vectorArg, Node.setName, Node.setAttrs]
      rw [appendMembers_texts]
    have hfil : (e.map fun p => Node.tag p.1 [] [.text p.2]).filter Node.isTag =
        e.map fun p => Node.tag p.1 [] [.text p.2] := by
      rw [List.filter_eq_self]
      intro x hx
      obtain ⟨p, _, rfl⟩ := List.mem_map.1 hx
      rfl
    have hkids : (Node.tag "vector" [] (ks ++ e.map fun p => .tag p.1 [] [.text p.2])).tagKids =
        (Node.tag nm a ks).tagKids ++ e.map fun p => .tag p.1 [] [.text p.2] := by
      rw [tagKids_tag, tagKids_tag, List.filter_append, hfil]
    have hdict : vectorDict (.tag "vector" [] (ks ++ e.map fun p => .tag p.1 [] [.text p.2])) =
        vectorDict (.tag nm a ks) := by
      rw [vectorDict, hkids, List.foldl_append, ← vectorDict, List.foldl_map]
      have h2 := foldl_dictSet_mem (l := e.map fun p => (p.1, some p.2)) k1 (by rw [he]; exact fun p hp => hp)
      rw [List.foldl_map] at h2
      exact h2
    refine ⟨⟨_, _, hval, hset, ?_⟩, ?_⟩
    · rw [← hval]
      simp only [getValue, hdict]
    · intro v hv
      rw [hval] at hv
      obtain rfl := Except.ok.inj hv
      rw [hset]
      refine ⟨fun k => ?_, ?_⟩
      · rw [vectorGet, vectorGet, hkids, List.filter_append]
        cases hf : (Node.tag nm a ks).tagKids.filter (fun x => x.name = k) with
        | cons x r => rfl
        | nil =>
          have : (e.map fun p => Node.tag p.1 [] [.text p.2]).filter (fun x => x.name = k) = [] := by
            rw [List.filter_eq_nil_iff] at hf ⊢
            intro x hx hxk
            obtain ⟨p, hp, rfl⟩ := List.mem_map.1 hx
            have hk : k ∈ kidNames (.tag nm a ks) := by
              rw [← k2, he]
              have : p.1 = k := of_decide_eq_true hxk
              rw [← this]
              simp only [List.map_map]
              exact List.mem_map.2 ⟨p, hp, rfl⟩
            obtain ⟨y, hy, hyk⟩ := List.mem_map.1 hk
            exact hf y hy (by simpa using hyk)
          rw [this]
          rfl
      · rw [hkids, he]
        simp

/-! ### Gradients and transformations -/

/-- C160 for gradients whose positions have at most six significant digits and whose colours have at most six decimals: the
same positions, in increasing order, with the same colours. -/
theorem c160_gradient {F : Fl} (hF : F.Lawful) {root : Option Attrs} {n : Node} (hn : n.isTag = true)
    {l : List (ℚ × Node)} (hl : gradientStops F n = .ok l) (h2 : 2 ≤ l.length)
    (hpos : ∀ p ∈ l, F.rnd (six p.1) = p.1)
    (hcol : ∀ p ∈ l, ∃ r g b a, colorTuple F p.2 = .ok [r, g, b, a] ∧ ∀ x ∈ [r, g, b, a], F.rnd (dec 6 x) = x) :
    ∃ v n' stops, getValue F root .gradient n = .ok v ∧ setValue F .gradient v n = (n', .ok ()) ∧
      gradientStops F n' = .ok stops ∧ (stops.map Prod.fst).Pairwise (· < ·) ∧
      (stops.map fun s => (s.1, colorTuple F s.2)).Perm (l.map fun s => (s.1, colorTuple F s.2)) := by
  obtain ⟨n', stops, h1, h3⟩ := c73_gradient hF root n n hn l hl h2 hpos hcol
  refine ⟨.stops (l.map fun p => (p.1, .val .color root p.2)), n', stops, by simp only [getValue, hl], ?_, h3⟩
  rw [← h1]
  simp only [setValue, setGradient, gradientArg, hl]
  have key : ∀ (l : List (ℚ × Node)) (r r' : Option Attrs) m,
      appendStops F (sortStops (l.map fun p => (p.1, .val .color r p.2))) m =
      appendStops F (sortStops (l.map fun p => (p.1, .val .color r' p.2))) m := by
    intro l r r' m
    have s : ∀ r, sortStops (l.map fun p => (p.1, PV.val .color r p.2)) =
        (l.insertionSort fun a b => a.1 ≤ b.1).map fun p => (p.1, PV.val .color r p.2) := by
      intro r
      exact (List.map_insertionSort (r := fun (a b : ℚ × Node) => a.1 ≤ b.1)
        (s := fun (a b : ℚ × PV) => a.1 ≤ b.1) (fun p : ℚ × Node => (p.1, PV.val .color r p.2)) l
        fun a _ b _ => Iff.rfl).symm
    rw [s, s]
    generalize l.insertionSort (fun a b => a.1 ≤ b.1) = l
    induction l generalizing m with
    | nil => rfl
    | cons p t ih =>
      simp only [List.map_cons, appendStops]
      have : setColor F (.val .color r p.2) = setColor F (.val .color r' p.2) := rfl
      rw [this]
      split
      · rfl
      · exact ih _
  simp only [List.length_map]
  split
  · rfl
  · exact key _ _ _ _

/-- C160 fails for every transformation whose angle is an `Angle`, as Synfig writes them: assigning what was read raises, and
the transformation can't be read any more. -/
theorem c160_transformation_lost {F : Fl} {root : Option Attrs} {n : Node} (hn : n.isTag = true)
    {d : List (String × VCls × Node)} (hd : compositeDict n = .ok d) {an : Node} (ha : ("angle", VCls.angle, an) ∈ d) :
    ∃ v n' e e', getValue F root .composite n = .ok v ∧ setValue F .composite v n = (n', .error e) ∧
      compositeDict n' = .error e' := by
  obtain ⟨n', e, h1, e', h2⟩ := c75_assigning_transformation_destroys F root n n hn d hd an ha
  refine ⟨.dict (d.map fun p => (p.1, .val p.2.1 root p.2.2)), n', e, e', by simp only [getValue, hd], ?_, h2⟩
  rw [← h1]
  simp only [setValue, setComposite, compositeArg, hd]

/-! ### Animated values -/

/-- C160 fails for every animated text: its value reads as `None`, that text is what it gets, and all the waypoints are
gone. -/
theorem c160_animated_text_lost {F : Fl} {root : Option Attrs} {n : Node} (hn : n.isTag = true)
    (han : n.name = "animated") :
    ∃ v n', getValue F root .string n = .ok v ∧ setValue F .string v n = (n', .ok ()) ∧ n'.name = "animated" ∧
      n'.tagKids = [] := by
  cases n with
  | text t => simp [Node.isTag] at hn
  | tag nm a ks => exact ⟨.str (getString (.tag nm a ks)), _, rfl, rfl, han, rfl⟩

/-- C160 fails for every animated vector: its value can be read and assigned, and then it isn't animated. -/
theorem c160_animated_vector_lost {F : Fl} {root : Option Attrs} {n : Node} (hn : n.isTag = true)
    (_ : n.name = "animated") :
    ∃ v n', getValue F root .vector n = .ok v ∧ setValue F .vector v n = (n', .ok ()) ∧ n'.name = "vector" := by
  cases n with
  | text t => simp [Node.isTag] at hn
  | tag nm a ks =>
    have key : ∀ (d : List (String × Option Str)) ks, ∃ ks', appendMembers F (d.map fun p => (p.1, match p.2 with
        | none => PV.none
        | some s => PV.str s)) (.tag "vector" [] ks) = (.tag "vector" [] ks', .ok ()) := by
      intro d
      induction d with
      | nil => exact fun ks => ⟨ks, rfl⟩
      | cons p r ih =>
        intro ks
        obtain ⟨k, o⟩ := p
        cases o with
        | none => exact ih _
        | some s => exact ih _
    obtain ⟨ks', h⟩ := key (vectorDict (.tag nm a ks)) ks
    exact ⟨_, _, rfl, h, rfl⟩

/-! ## Layers -/

/-- C160 for the description, of which there may be none. -/
theorem c160_desc {F : Fl} {n : Node} (hn : n.isTag = true) :
    let v : PV := match getDesc F n with
      | none => .none
      | some s => .str s
    (setDesc F v n).2 = .ok () ∧ getDesc F (setDesc F v n).1 = getDesc F n ∧ OnlyAttr "desc" n (setDesc F v n).1 := by
  intro v
  cases h : getDesc F n with
  | some s =>
    have e : v = .str s := by simp only [v, h]
    rw [e]
    exact c57_desc_string F n hn s
  | none =>
    have e : v = .none := by simp only [v, h]
    rw [e]
    obtain ⟨h1, h2, h3⟩ := c57_desc_none F n
    exact ⟨h1, h2, h3.2⟩

/-- C160 for the other attributes of layers. -/
theorem c160_layer_attributes {F : Fl} {n : Node} (hn : n.isTag = true) (d : Defaults) :
    ((setActive F (.bool (getActive F n)) n).2 = .ok () ∧
      getActive F (setActive F (.bool (getActive F n)) n).1 = getActive F n ∧
      OnlyAttr "active" n (setActive F (.bool (getActive F n)) n).1) ∧
    ((setExclude F (.bool (getExclude F n)) n).2 = .ok () ∧
      getExclude F (setExclude F (.bool (getExclude F n)) n).1 = getExclude F n ∧
      OnlyAttr "exclude_from_rendering" n (setExclude F (.bool (getExclude F n)) n).1) ∧
    ∀ q, F.rep q → getVersion F d n = .ok (.num q) → (setVersion F (.float q) n).2 = .ok () ∧
      getVersion F d (setVersion F (.float q) n).1 = .ok (.num q) ∧
      OnlyAttr "version" n (setVersion F (.float q) n).1 := by
  refine ⟨c57_active F n hn _ _ rfl, c57_exclude_from_rendering F n hn _ _ rfl, fun q hq _ => ?_⟩
  have e : setVersion F (.float q) n = (n.setAttr "version" (.num q), .ok ()) := rfl
  rw [e]
  refine ⟨rfl, ?_, setAttr_only n hn _ _⟩
  simp only [getVersion, get_setAttr n hn, if_true, AttrV.toFloat]
  rw [hq]

/-- C160 is violated for the version of a layer whose element doesn't give one: if its class has a version, that is what is
read, as text; afterwards it is a number. -/
theorem c160_default_version_becomes_number {F : Fl} {n : Node} (hn : n.isTag = true) {d : Defaults} {s : String}
    (_ : getVersion F d n = .ok (.text s)) :
    getVersion F d (setVersion F (.str s.toList) n).1 ≠ .ok (.text s) ∨ (setVersion F (.str s.toList) n).2 ≠ .ok () := by
  rw [setVersion]
  cases h : PV.toFloat F (.str s.toList) with
  | error e => exact Or.inr (by simp)
  | ok q =>
    left
    simp only [getVersion, get_setAttr n hn, if_true, AttrV.toFloat]
    simp

/-! ## The header -/

/-- What was read from a header field, as an object that can be assigned. -/
def HVal.toPV : HVal → PV
  | .float q => .float q
  | .int i => .int i
  | .str s => .str s

/-- C160 for the header: each of its fields, given or not, as long as it can be read. -/
theorem c160_header {F : Fl} {n : Node} (hn : n.isTag = true) {f : HField} (hf : f ∈ headerFields) {v : HVal}
    (hv : getHeader F f n = .ok v) (hr : ∀ q, v = .float q → F.rep q) :
    (setHeader F f v.toPV n).2 = .ok () ∧ getHeader F f (setHeader F f v.toPV n).1 = .ok v ∧
      OnlyAttr f.name n (setHeader F f v.toPV n).1 := by
  have hd : ∀ f ∈ headerFields, match f.type, f.dflt with
      | .float, .float _ => True
      | .int, .int _ => True
      | .str, .str _ => True
      | _, _ => False := by
    intro f hf
    simp only [headerFields, List.mem_cons, List.not_mem_nil, or_false] at hf
    rcases hf with rfl | rfl | rfl | rfl | rfl | rfl | rfl | rfl | rfl | rfl | rfl | rfl <;> trivial
  have key : f.type.write F v.toPV = .ok (match v with
      | .float q => .num q
      | .int i => .int i
      | .str s => .str s) ∧ f.type.read F (match v with
      | .float q => .num q
      | .int i => .int i
      | .str s => .str s) = .ok v := by
    have h := hd f hf
    rw [getHeader] at hv
    cases ht : f.type with
    | float =>
      rw [ht] at h hv
      obtain ⟨q, rfl⟩ : ∃ q, v = .float q := by
        cases hg : n.attrs.get f.name with
        | none =>
          rw [hg] at hv
          obtain rfl := Except.ok.inj hv
          cases hdf : f.dflt <;> rw [hdf] at h
          · exact ⟨_, rfl⟩
          · exact h.elim
          · exact h.elim
        | some a =>
          rw [hg] at hv
          simp only [HType.read] at hv
          split at hv
          · cases hv
          · exact ⟨_, (Except.ok.inj hv).symm⟩
      refine ⟨rfl, ?_⟩
      simp only [HType.read, AttrV.toFloat]
      rw [hr q rfl]
    | int =>
      rw [ht] at h hv
      obtain ⟨q, rfl⟩ : ∃ q, v = .int q := by
        cases hg : n.attrs.get f.name with
        | none =>
          rw [hg] at hv
          obtain rfl := Except.ok.inj hv
          cases hdf : f.dflt <;> rw [hdf] at h
          · exact h.elim
          · exact ⟨_, rfl⟩
          · exact h.elim
        | some a =>
          rw [hg] at hv
          simp only [HType.read] at hv
          split at hv
          · cases hv
          · exact ⟨_, (Except.ok.inj hv).symm⟩
      exact ⟨rfl, rfl⟩
    | str =>
      rw [ht] at h hv
      obtain ⟨q, rfl⟩ : ∃ q, v = .str q := by
        cases hg : n.attrs.get f.name with
        | none =>
          rw [hg] at hv
          obtain rfl := Except.ok.inj hv
          cases hdf : f.dflt <;> rw [hdf] at h
          · exact h.elim
          · exact h.elim
          · exact ⟨_, rfl⟩
        | some a =>
          rw [hg] at hv
          simp only [HType.read] at hv
          exact ⟨_, (Except.ok.inj hv).symm⟩
      exact ⟨rfl, rfl⟩
  rw [setHeader, key.1]
  refine ⟨rfl, ?_, setAttr_only n hn _ _⟩
  rw [getHeader]
  simp only [get_setAttr n hn, if_true]
  exact key.2

/-- C160 for the end of an animation, if that is a whole frame. -/
theorem c160_end_time {F : Fl} (hF : F.Lawful) {n : Node} (hn : n.isTag = true) (hc : n.name = "canvas") {k : ℕ}
    (hk : 1 ≤ k) (hk6 : k < 10 ^ 6) (hroot : HasFps F n.attrs k) {m : ℕ} (hm : m < 2 ^ 53)
    (ht : endTime F n = .ok ⟨m, some (k:ℚ)⟩) :
    (setEndTime F (.t ⟨m, some (k:ℚ)⟩) n).2 = .ok () ∧
      endTime F (setEndTime F (.t ⟨m, some (k:ℚ)⟩) n).1 = endTime F n ∧
      OnlyAttr "end_time" n (setEndTime F (.t ⟨m, some (k:ℚ)⟩) n).1 := by
  have e : setEndTime F (.t ⟨m, some (k:ℚ)⟩) n = (n.setAttr "end_time" (.str (T.str F ⟨m, some (k:ℚ)⟩)), .ok ()) := rfl
  rw [e]
  generalize hs : T.str F ⟨m, some (k:ℚ)⟩ = s
  refine ⟨rfl, ?_, setAttr_only n hn _ _⟩
  have h2 := setAttr_only n hn "end_time" (.str s)
  have hr : animRoot (n.setAttr "end_time" (.str s)) = some (n.setAttr "end_time" (.str s)).attrs := by
    simp [animRoot, canvasRoot, h2.1, hc]
  have hf : HasFps F (n.setAttr "end_time" (.str s)).attrs k := by
    rw [HasFps, h2.2.2 "fps" (by decide)]
    exact hroot
  rw [ht]
  simp only [endTime, get_setAttr n hn, if_true, AttrV.str']
  rw [hr]
  have := c01_time_text_roundtrip hF (n.setAttr "end_time" (.str s)).attrs m k hm hk hk6 hf
  rw [hs] at this
  exact this

/-- An animation's element as it may be in a file: no width is given, and the end is given. -/
def exHead : Node := .tag "canvas" [("fps", .str "24.000".toList), ("height", .str "270".toList), ("end_time", .str "5s".toList)] []

/-- It and some values meet the hypotheses. -/
example : endTime double exHead = .ok ⟨(120:ℕ), some ((24:ℕ):ℚ)⟩ ∧ HasFps double exHead.attrs (24:ℕ) ∧
    getHeader double ⟨"width", .int, .int 480⟩ exHead = .ok (.int 480) ∧
    getHeader double ⟨"fps", .float, .float 24⟩ exHead = .ok (.float 24) ∧ double.rep 24 ∧
    getInt (.tag "integer" [("value", .str " +07".toList)] []) = .ok 7 ∧
    getFloat double (exReal "1.50") = .ok (3/2) ∧ double.rnd (dec 10 (3/2)) = 3/2 ∧
    colorTuple double (colorNode (1/2) 1 0 1) = .ok [1/2, 1, 0, 1] ∧
    (∀ p ∈ vectorDict (textVec [("x", "1.5".toList), ("y", "-2".toList)]), p.2 ≠ none) := by
  refine ⟨by decide +kernel, ⟨.str "24.000".toList, by decide +kernel, by decide +kernel⟩, by decide +kernel, by decide +kernel,
    by decide +kernel, by decide +kernel, by decide +kernel, by decide +kernel, by decide +kernel, by decide +kernel⟩

end Sang
