import Verif.Lemmas.Literals
import Verif.Props.Composites
import Verif.Props.Animate
import Verif.Props.Colors
import Verif.Props.AssignObjects

/-! # The text of values, and expressions for them: C122, C123 -/

namespace Sang
open Spec

/-! ## C122: `as_python_expression()` recreates the value -/

/-- C122. For a number that isn't animated, `as_python_expression()` is a literal from which `Real`
makes the same number, to ten decimals. -/
theorem c122_real {F : Fl} (hF : F.Lawful) (pr : Char → Bool) (root : Option Attrs) (n : Node) (q : ℚ)
    (hn : n.name ≠ "animated") (hq : getFloat F n = .ok q) :
    ∃ s v m q', valueExpr F pr root .real n = .ok s ∧ LiteralFor F s v ∧ newValue F .real v = .ok m ∧
      getFloat F m = .ok q' ∧ NearTen q' q := by
  have h := c19_real_roundtrip hF (emptyTag .real) rfl q
  obtain ⟨h1, q', h2, -, h4⟩ := h
  refine ⟨reprF F q, .float q, (setValue F .real (.float q) (emptyTag .real)).1, q', ?_,
    literal_reprF hF (getFloat_rep hF hq), ?_, h2, h4⟩
  · simp [valueExpr, plainExpr, plainStr, hn, hq]
  · simp only [newValue, construct, h1]

/-- C122. For a whole number, `as_python_expression()` is a literal from which `Integer` makes the
same number. -/
theorem c122_integer (F : Fl) (pr : Char → Bool) (root : Option Attrs) (n : Node) (i : ℤ)
    (hn : n.name ≠ "animated") (hi : getInt n = .ok i) :
    ∃ s v m, valueExpr F pr root .integer n = .ok s ∧ LiteralFor F s v ∧
      newValue F .integer v = .ok m ∧ getInt m = .ok i := by
  obtain ⟨h1, h2⟩ := c20_integer_roundtrip F (emptyTag .integer) rfl i
  refine ⟨intStr i, .int i, (setValue F .integer (.int i) (emptyTag .integer)).1, ?_,
    literal_intStr F i, ?_, h2⟩
  · simp [valueExpr, plainExpr, plainStr, hn, hi]
  · simp only [newValue, construct, h1]

/-- C122. Likewise for booleans. -/
theorem c122_bool (F : Fl) (pr : Char → Bool) (root : Option Attrs) (n : Node) (b : Bool)
    (hn : n.name ≠ "animated") (hb : getBool n = .ok b) :
    ∃ s v m, valueExpr F pr root .bool n = .ok s ∧ LiteralFor F s v ∧
      newValue F .bool v = .ok m ∧ getBool m = .ok b := by
  obtain ⟨h1, h2⟩ := c20_bool_roundtrip F (emptyTag .bool) rfl b
  refine ⟨if b then "True".toList else "False".toList, .bool b,
    (setValue F .bool (.bool b) (emptyTag .bool)).1, ?_, ?_, ?_, h2⟩
  · simp [valueExpr, plainExpr, plainStr, hn, hb]
  · cases b
    · exact .false
    · exact .true
  · simp only [newValue, construct, h1]

/-- C122. Angles are recreated exactly. -/
theorem c122_angle {F : Fl} (hF : F.Lawful) (pr : Char → Bool) (root : Option Attrs) (n : Node) (q : ℚ)
    (hq : getFloat F n = .ok q) :
    ∃ s v m, valueExpr F pr root .angle n = .ok s ∧ LiteralFor F s v ∧
      newValue F .angle v = .ok m ∧ getFloat F m = .ok q := by
  obtain ⟨h1, h2⟩ := c21_angle_roundtrip hF (emptyTag .angle) rfl q (getFloat_rep hF hq)
  refine ⟨reprF F q, .float q, (setValue F .angle (.float q) (emptyTag .angle)).1, ?_,
    literal_reprF hF (getFloat_rep hF hq), ?_, h2⟩
  · simp [valueExpr, plainExpr, hq]
  · simp only [newValue, construct, h1]

/-- C122. Any text is recreated exactly, whatever quotes, backslashes, control characters and
characters of other languages it contains. -/
theorem c122_string (F : Fl) (pr : Char → Bool) (root : Option Attrs) (n : Node) :
    ∃ s v m, valueExpr F pr root .string n = .ok s ∧ LiteralFor F s v ∧
      newValue F .string v = .ok m ∧ getString m = getString n := by
  refine ⟨pyRepr pr (getString n), .str (getString n), (emptyTag .string).setString (getString n),
    rfl, literal_pyRepr F pr _, rfl, ?_⟩
  simp [getString, emptyTag, Node.new, Node.setString, Node.setKids, Node.string?, Node.stringKids?]

/-- C122. A colour with at most six decimals, like those of Synfig, is recreated exactly. -/
theorem c122_color {F : Fl} (hF : F.Lawful) (pr : Char → Bool) (root : Option Attrs) (n : Node)
    (r g b a : ℚ) (ht : colorTuple F n = .ok [r, g, b, a])
    (hd : ∀ x ∈ [r, g, b, a], F.rnd (dec 6 x) = x) :
    ∃ s v m, valueExpr F pr root .color n = .ok s ∧ LiteralFor F s v ∧
      newValue F .color v = .ok m ∧ colorTuple F m = .ok [r, g, b, a] := by
  have e := setColor_ok (F := F) (n := emptyTag .color) rfl
    (v := .tuple [.float r, .float g, .float b, .float a]) (r := r) (g := g) (b := b) (a := a) rfl
  refine ⟨tupleStr F [r, g, b, a], .tuple [.float r, .float g, .float b, .float a],
    colorNode r g b a, ?_, ?_, ?_, ?_⟩
  · simp [valueExpr, plainExpr, colorExpr, ht]
  · exact literal_tupleStr hF [r, g, b, a] (fun q hq => by
      rw [← hd q hq]; exact hF.idem _) (by simp)
  · simp [newValue, construct, e]
  · rw [colorTuple_node, hd r (by simp), hd g (by simp), hd b (by simp), hd a (by simp)]

theorem sortNames_xy {F : Fl} {n : Node} {x y : ℚ} (hk : ∀ t ∈ n.tagKids, t.name = "x" ∨ t.name = "y")
    (ht : vectorTuple F n = .ok [x, y]) : sortNames ((vectorDict n).map Prod.fst) = ["x", "y"] := by
  obtain ⟨h1, h2⟩ := vectorDict_keys n
  have h3 := mapRes_length ht
  simp only [sortNames, List.length_insertionSort, List.length_cons, List.length_nil] at h3
  have h4 : ∀ k ∈ (vectorDict n).map Prod.fst, k = "x" ∨ k = "y" := by
    intro k h
    obtain ⟨t, ht, rfl⟩ := List.mem_map.1 ((h2 k).1 h)
    exact hk t ht
  have e1 : sortNames ["x", "y"] = ["x", "y"] := by decide
  have e2 : sortNames ["y", "x"] = ["x", "y"] := by decide
  generalize (vectorDict n).map Prod.fst = l at h1 h3 h4
  match l, h3 with
  | [a, b], _ =>
    have hab : a ≠ b := by simpa using h1
    rcases h4 a (by simp) with rfl | rfl <;> rcases h4 b (by simp) with rfl | rfl
    · exact absurd rfl hab
    · exact e1
    · exact e2
    · exact absurd rfl hab

theorem vectorStr_xy {F : Fl} (pr : Char → Bool) (n : Node) (x y : ℚ)
    (hk : ∀ t ∈ n.tagKids, t.name = "x" ∨ t.name = "y")
    (ht : vectorTuple F n = .ok [x, y]) : vectorStr F pr n = .ok (tupleStr F [x, y]) := by
  simp [vectorStr, sortNames_xy hk ht, ht]

theorem mapRes_from {α β : Type} {f : α → Res β} {l : List α} {r : List β} (h : mapRes f l = .ok r) :
    ∀ y ∈ r, ∃ x ∈ l, f x = .ok y := by
  induction l generalizing r with
  | nil =>
    intro y hy
    simp only [mapRes, Except.ok.injEq] at h
    subst h; cases hy
  | cons x l ih =>
    simp only [mapRes] at h
    split at h
    · cases h
    · rename_i b hb
      split at h
      · cases h
      · rename_i bs hbs
        simp only [Except.ok.injEq] at h
        subst h
        intro y hy
        rcases List.mem_cons.1 hy with rfl | hy
        · exact ⟨x, by simp, hb⟩
        · obtain ⟨z, hz, hy'⟩ := ih hbs y hy
          exact ⟨z, by simp [hz], hy'⟩

theorem vectorTuple_rep {F : Fl} (hF : F.Lawful) {n : Node} {l : List ℚ} (h : vectorTuple F n = .ok l) :
    ∀ q ∈ l, F.rep q := by
  intro q hq
  obtain ⟨k, -, hk⟩ := mapRes_from h q hq
  unfold floatOpt at hk
  split at hk
  · cases hk
  · exact pyFloat_rep hF hk

/-- C122. A vector with the coordinates x and y is recreated, to ten decimals. -/
theorem c122_vector {F : Fl} (hF : F.Lawful) (pr : Char → Bool) (root : Option Attrs) (n : Node)
    (x y : ℚ) (hn : n.name ≠ "animated")
    (hk : ∀ t ∈ n.tagKids, t.name = "x" ∨ t.name = "y")
    (ht : vectorTuple F n = .ok [x, y]) :
    ∃ s v m x' y', valueExpr F pr root .vector n = .ok s ∧ LiteralFor F s v ∧
      newValue F .vector v = .ok m ∧ vectorTuple F m = .ok [x', y'] ∧ NearTen x' x ∧ NearTen y' y := by
  obtain ⟨h1, x', y', h2, h3, h4⟩ := c26_vector_tuple hF (emptyTag .vector) rfl
    (by simp [emptyTag, Node.new, Node.kids]) x y
  refine ⟨tupleStr F [x, y], .tuple [.float x, .float y],
    (setValue F .vector (.tuple [.float x, .float y]) (emptyTag .vector)).1, x', y', ?_,
    literal_tupleStr hF [x, y] (vectorTuple_rep hF ht) (by simp), ?_, h2, h3, h4⟩
  · simp [valueExpr, plainExpr, plainStr, hn, vectorStr_xy pr n x y hk ht]
  · simp only [newValue, construct, h1]

/-- C122. So is a time of no frames, … -/
theorem c122_time_zero {F : Fl} (hF : F.Lawful) (pr : Char → Bool) (root : Option Attrs) (n : Node)
    (t : T) (ht : getTime F root n = .ok t) (h0 : t.frames = 0) :
    ∃ s v m, valueExpr F pr root .time n = .ok s ∧ LiteralFor F s v ∧
      newValue F .time v = .ok m ∧ getTime F none m = .ok ⟨0, none⟩ := by
  obtain ⟨h1, h2⟩ := c22_time_roundtrip_detached hF (emptyTag .time) rfl 0 (by norm_num) (.int 0)
    (by simp)
  refine ⟨['0'], .int 0, (setValue F .time (.int 0) (emptyTag .time)).1, ?_, ?_, ?_, ?_⟩
  · simp [valueExpr, plainExpr, timeExpr, ht, h0]
  · exact literal_natStr F 0
  · simp only [newValue, construct, h1]
  · simpa using h2

theorem newTime_spec {F : Fl} (s : Str) (t : T) (h : T.new F none (.str s) = .ok t) :
    newValue F .time (.str s) = .ok (.tag "time" [("value", .str (t.str F))] []) := by
  simp [newValue, construct, setValue, setSimple, PV.eqEmptyTuple, PV.isNone, timeText, PV.toTArg, h,
    emptyTag, Node.new, Node.setName, Node.setAttrs, Node.setKids]

theorem str_frames {F : Fl} (hF : F.Lawful) (k r : ℕ) (hk : k < r) (hr : r < 10 ^ 6) :
    T.str F ⟨k, some (r:ℚ)⟩ = natStr k ++ ['f'] := by
  have h := str_eq hF (n := k) (k := r) (by have : (10:ℕ)^6 < 2^53 := by norm_num
                                            omega) (by omega) hr false (by simp)
  simp only [Bool.false_eq_true, if_false, one_mul] at h
  rw [h, specText_mkParts _ _ (strParts_ne_nil _ _)]
  have h1 : k / r = 0 := Nat.div_eq_of_lt hk
  have h2 : hmsParts 0 = [] := by decide
  simp [strParts, h1, h2, Nat.mod_eq_of_lt hk, join, TimeUnit.char]

/-- C122, … and one of less than a second, in frames; … -/
theorem c122_time_frames {F : Fl} (hF : F.Lawful) (pr : Char → Bool) (root : Option Attrs) (n : Node)
    (k r : ℕ) (ht : getTime F root n = .ok ⟨k, some (r:ℚ)⟩) (hk : k < r) (hr : r < 10 ^ 6)
    (h0 : k ≠ 0) :
    ∃ s v m, valueExpr F pr root .time n = .ok s ∧ LiteralFor F s v ∧
      newValue F .time v = .ok m ∧ getTime F none m = .ok ⟨k, none⟩ := by
  have hk6 : k < 10 ^ 6 := by omega
  have hk53 : k < 2 ^ 53 := by
    have : (10:ℕ)^6 < 2^53 := by norm_num
    omega
  have hs := str_frames hF k r hk hr
  have hp : T.new F none (.str (natStr k ++ ['f'])) = .ok ⟨k, none⟩ := by
    simp only [T.new, readFps]
    rw [parseSpec_frames hF _ k hk53]
  refine ⟨pyRepr pr (natStr k ++ ['f']), .str (natStr k ++ ['f']), _, ?_, literal_pyRepr F pr _,
    newTime_spec _ _ hp, ?_⟩
  · have : (k:ℚ) ≠ 0 := by exact_mod_cast h0
    simp [valueExpr, plainExpr, timeExpr, ht, this, hs]
  · have e : T.str F ⟨k, none⟩ = natStr k ++ ['f'] := by simp [T.str, fmtG_nat hk6]
    simp only [getTime, simpleText_tag, e, hp]

/-- C122, … but it is violated by every other time that isn't negative: the expression is text such as `'1s 12f'`,
from which `Time` makes nothing, since it doesn't know the frame rate. It raises `ValueError`. -/
theorem c122_time_fails {F : Fl} (hF : F.Lawful) (pr : Char → Bool) (root : Option Attrs) (n : Node)
    (k r : ℕ) (ht : getTime F root n = .ok ⟨k, some (r:ℚ)⟩) (h1 : 1 ≤ r) (hk : r ≤ k) (hr : r < 10 ^ 6)
    (hk53 : k < 2 ^ 53) :
    ∃ s v, valueExpr F pr root .time n = .ok s ∧ LiteralFor F s v ∧
      newValue F .time v = .error .value := by
  have h := str_eq hF (n := k) (k := r) hk53 h1 hr false (by simp)
  simp only [Bool.false_eq_true, if_false, one_mul] at h
  have h0 : (k:ℚ) ≠ 0 := by
    have : k ≠ 0 := by omega
    exact_mod_cast this
  refine ⟨pyRepr pr (T.str F ⟨k, some (r:ℚ)⟩), .str (T.str F ⟨k, some (r:ℚ)⟩), ?_,
    literal_pyRepr F pr _, ?_⟩
  · simp [valueExpr, plainExpr, timeExpr, ht, h0]
  · obtain ⟨a1, a2, a3, a4⟩ := strParts_amt k r
    have q1 : 1 ≤ k / r := (Nat.one_le_div_iff (by omega)).2 hk
    have hle : k / r ≤ k := Nat.div_le_self _ _
    have hsplit : k / r / 3600 * 3600 + k / r % 3600 / 60 * 60 + k / r % 60 = k / r := by omega
    have := c22_seconds_refused hF (emptyTag .time) (mkParts false (strParts k r)) []
      (mkParts_valid _ _) (by simp) (strParts_distinct _ _ _) (k / r / 3600 : ℕ)
      (k / r % 3600 / 60 : ℕ) (k / r % 60 : ℕ) (k % r : ℕ)
      (by rw [amount_mkParts_pos, a1]; rfl) (by rw [amount_mkParts_pos, a2]; rfl)
      (by rw [amount_mkParts_pos, a3]; rfl) (by rw [amount_mkParts_pos, a4]; rfl)
      (by
        rw [abs_of_nonneg (by positivity), abs_of_nonneg (by positivity),
          abs_of_nonneg (by positivity)]
        have : k / r ≤ 2 ^ 53 := by omega
        zify at hsplit this
        omega)
      (by
        rw [abs_of_nonneg (by positivity)]
        have : k % r ≤ 2 ^ 53 := (Nat.mod_le k r).trans hk53.le
        exact_mod_cast this)
      (by
        simp only [seconds, amount_mkParts_pos, a1, a2, a3]
        have : (1:ℚ) ≤ (k / r : ℕ) := by exact_mod_cast q1
        rw [← hsplit] at this
        push_cast at this
        intro hz
        linarith)
    rw [h]
    simp only [newValue, construct, this]

/-! ### Gradients -/

/-- The tuple that `as_tuple()` gives for a colour. -/
def tupleOf (F : Fl) (m : Node) : PV :=
  match colorTuple F m with
  | .ok cs => .tuple (cs.map .float)
  | .error _ => .none

/-- Its components have at most six decimals. -/
def SixPlaces (F : Fl) (m : Node) : Prop :=
  ∃ r g b a, colorTuple F m = .ok [r, g, b, a] ∧ ∀ x ∈ [r, g, b, a], F.rnd (dec 6 x) = x

theorem literal_color {F : Fl} (hF : F.Lawful) {m : Node} (h : SixPlaces F m) :
    ∃ s, colorExpr F m = .ok s ∧ LiteralFor F s (tupleOf F m) := by
  obtain ⟨r, g, b, a, ht, hd⟩ := h
  refine ⟨tupleStr F [r, g, b, a], by simp [colorExpr, ht], ?_⟩
  have := literal_tupleStr hF [r, g, b, a] (fun q hq => by rw [← hd q hq]; exact hF.idem _) (by simp)
  simpa only [tupleOf, ht] using this

theorem new_tupleOf {F : Fl} {m : Node} (h : SixPlaces F m) :
    ∃ c, newValue F .color (tupleOf F m) = .ok c ∧ colorTuple F c = colorTuple F m := by
  obtain ⟨r, g, b, a, ht, hd⟩ := h
  have e := setColor_ok (F := F) (n := emptyTag .color) rfl
    (v := .tuple [.float r, .float g, .float b, .float a]) (r := r) (g := g) (b := b) (a := a) rfl
  have e' : tupleOf F m = .tuple [.float r, .float g, .float b, .float a] := by simp [tupleOf, ht]
  refine ⟨colorNode r g b a, by rw [e']; simp [newValue, construct, e], ?_⟩
  rw [colorTuple_node, ht, hd r (by simp), hd g (by simp), hd b (by simp), hd a (by simp)]

theorem literal_stops {F : Fl} (hF : F.Lawful) (l : List (ℚ × Node)) (hpos : ∀ p ∈ l, F.rep p.1)
    (hcol : ∀ p ∈ l, SixPlaces F p.2) :
    ∃ ts, mapRes (stopExpr F) l = .ok ts ∧
      Pairs F (join [','] ts) (l.map fun p => (.float p.1, tupleOf F p.2)) := by
  induction l with
  | nil => exact ⟨[], rfl, .nil _ blank_nil⟩
  | cons p l ih =>
    obtain ⟨ts, h1, h2⟩ := ih (fun q hq => hpos q (by simp [hq])) (fun q hq => hcol q (by simp [hq]))
    obtain ⟨s, hs1, hs2⟩ := literal_color hF (hcol p (by simp))
    refine ⟨(reprF F p.1 ++ ':' :: s) :: ts, by simp [mapRes, stopExpr, hs1, h1], ?_⟩
    have hk := literal_reprF hF (hpos p (by simp))
    cases l with
    | nil =>
      simp only [mapRes, Except.ok.injEq] at h1
      subst h1
      have := Pairs.one [] _ [] [] _ [] _ _ blank_nil blank_nil blank_nil blank_nil hk hs2
      simpa [join] using this
    | cons q l =>
      cases ts with
      | nil =>
        simp only [mapRes] at h1
        split at h1
        · cases h1
        · split at h1 <;> simp at h1
      | cons t ts =>
        have := Pairs.cons [] _ [] [] _ [] _ _ _ _ blank_nil blank_nil blank_nil blank_nil hk hs2 h2
        simpa [join, List.append_assoc] using this

/-- C122. A gradient, with at least two stops, is recreated: the same positions, in increasing
order, with the same colours. (Positions with at most six significant digits and colours with at
most six decimals, as everything written by Synfig and by the library has.) -/
theorem c122_gradient {F : Fl} (hF : F.Lawful) (pr : Char → Bool) (root : Option Attrs) (n : Node)
    (l : List (ℚ × Node)) (hl : gradientStops F n = .ok l) (h2 : 2 ≤ l.length)
    (hpos : ∀ p ∈ l, F.rnd (six p.1) = p.1)
    (hcol : ∀ p ∈ l, ∃ r g b a, colorTuple F p.2 = .ok [r, g, b, a] ∧
      ∀ x ∈ [r, g, b, a], F.rnd (dec 6 x) = x) :
    ∃ s v m stops, valueExpr F pr root .gradient n = .ok s ∧ LiteralFor F s v ∧
      newValue F .gradient v = .ok m ∧
      gradientStops F m = .ok stops ∧ (stops.map Prod.fst).Pairwise (· < ·) ∧
      (stops.map fun s => (s.1, colorTuple F s.2)).Perm (l.map fun s => (s.1, colorTuple F s.2)) := by
  have hcol' : ∀ p ∈ l, SixPlaces F p.2 := hcol
  have hdist := gradientStops_nodup hl
  obtain ⟨ts, ht1, ht2⟩ := literal_stops hF l (fun p hp => by
    rw [← hpos p hp]; exact hF.idem _) hcol'
  let col : PV → Node := fun v => match newValue F .color v with
    | .ok c => c
    | .error _ => .text []
  obtain ⟨n', stops, h1, h3, h4, h5⟩ := c30_gradient_roundtrip hF
    (l.map fun p => (p.1, tupleOf F p.2)) col
    (by
      intro q hq
      obtain ⟨p, hp, rfl⟩ := List.mem_map.1 hq
      obtain ⟨c, hc, -⟩ := new_tupleOf (hcol' p hp)
      simp only [col, hc])
    (by simpa using h2)
    (by
      rw [List.map_map]
      rw [List.Nodup, List.pairwise_map] at hdist ⊢
      refine hdist.imp_of_mem fun {a b} ha hb hab he => hab ?_
      rw [← hpos a ha, ← hpos b hb]
      exact congrArg F.rnd he) (emptyTag .gradient) rfl
  refine ⟨'{' :: (join [','] ts ++ ['}']), .stops (l.map fun p => (p.1, tupleOf F p.2)), n', stops,
    ?_, ?_, ?_, h3, h4, h5.trans (List.Perm.of_eq ?_)⟩
  · simp [valueExpr, plainExpr, gradientExpr, hl, ht1]
  · refine .stops _ _ ?_ ?_
    · rw [List.map_map]; exact hdist
    · rw [List.map_map]; exact ht2
  · simp only [newValue, construct, h1]
  · rw [List.map_map]
    refine List.map_congr_left fun p hp => ?_
    obtain ⟨c, hc, ht⟩ := new_tupleOf (hcol' p hp)
    simp only [Function.comp, col, hc, ht, hpos p hp]

/-! ### Transformations -/

theorem blank_append {a b : Str} (ha : OnlySpace a) (hb : OnlySpace b) : OnlySpace (a ++ b) := by
  intro c hc
  rcases List.mem_append.1 hc with h | h
  · exact ha c h
  · exact hb c h

theorem blank_spaces (k : ℕ) : OnlySpace (List.replicate k ' ') := by
  intro c hc
  left; exact List.eq_of_mem_replicate hc

/-- The lines of a transformation's expression, given what its parts' expressions are for. -/
theorem literal_parts {F : Fl} (pr : Char → Bool) (root : Option Attrs)
    (l : List (String × VCls × Node)) (val : String × VCls × Node → PV)
    (h : ∀ p ∈ l, ∃ s, plainExpr F pr root p.2.1 p.2.2 = .ok s ∧ LiteralFor F s (val p))
    (a e : Str) (ha : OnlySpace a) (he : OnlySpace e) :
    ∃ ts, mapRes (partExpr F pr root) l = .ok ts ∧
      Pairs F (a ++ (ts.flatten ++ e)) (l.map fun p => (.str p.1.toList, val p)) := by
  induction l generalizing a with
  | nil => exact ⟨[], rfl, by simpa using Pairs.nil _ (blank_append ha he)⟩
  | cons p l ih =>
    obtain ⟨ts, h1, h2⟩ := ih (fun q hq => h q (by simp [hq])) ['\n'] (by simp [OnlySpace])
    obtain ⟨s, hs1, hs2⟩ := h p (by simp)
    refine ⟨_, by simp only [mapRes, partExpr, hs1, h1]; rfl, ?_⟩
    have := Pairs.cons (a ++ (List.replicate 5 ' ' ++
        List.replicate (40 - (pyRepr pr p.1.toList).length) ' ')) _ [] [' '] _ [] _ _ _ _
      (blank_append ha (blank_append (blank_spaces _) (blank_spaces _))) blank_nil blank_space
      blank_nil (literal_pyRepr F pr p.1.toList) hs2 h2
    simpa [padLeft, List.append_assoc] using this

/-- C122. A transformation whose parts aren't animated is recreated: its angles exactly, and its
vectors to ten decimals. -/
theorem c122_transformation {F : Fl} (hF : F.Lawful) (pr : Char → Bool) (root : Option Attrs)
    (n : Node) (d : List (String × VCls × Node)) (offset angle skew scale : Node)
    (hd : compositeDict n = .ok d)
    (hp : d.Perm [("offset", .vector, offset), ("angle", .angle, angle),
      ("skew_angle", .angle, skew), ("scale", .vector, scale)])
    (x y a k u w : ℚ) (hv : ∀ v ∈ [offset, scale], v.name ≠ "animated" ∧
      ∀ t ∈ v.tagKids, t.name = "x" ∨ t.name = "y")
    (ho : vectorTuple F offset = .ok [x, y]) (hs : vectorTuple F scale = .ok [u, w])
    (ha : getFloat F angle = .ok a) (hk : getFloat F skew = .ok k) :
    ∃ s v m, valueExpr F pr root .composite n = .ok s ∧ LiteralFor F s v ∧
      newValue F .composite v = .ok m ∧
      (∃ p, compositeGet m "angle" = .ok (.angle, p) ∧ getFloat F p = .ok a) ∧
      (∃ p, compositeGet m "skew_angle" = .ok (.angle, p) ∧ getFloat F p = .ok k) ∧
      (∃ p x' y', compositeGet m "offset" = .ok (.vector, p) ∧ vectorTuple F p = .ok [x', y'] ∧
        NearTen x' x ∧ NearTen y' y) ∧
      (∃ p u' w', compositeGet m "scale" = .ok (.vector, p) ∧ vectorTuple F p = .ok [u', w'] ∧
        NearTen u' u ∧ NearTen w' w) := by
  let val : String × VCls × Node → PV := fun p =>
    if p.1 = "offset" then .tuple [.float x, .float y]
    else if p.1 = "angle" then .float a
    else if p.1 = "skew_angle" then .float k
    else .tuple [.float u, .float w]
  have hlit : ∀ p ∈ d, ∃ s, plainExpr F pr root p.2.1 p.2.2 = .ok s ∧ LiteralFor F s (val p) := by
    intro p hpm
    have := hp.mem_iff.1 hpm
    simp only [List.mem_cons, List.not_mem_nil, or_false] at this
    rcases this with rfl | rfl | rfl | rfl
    · refine ⟨tupleStr F [x, y], ?_, literal_tupleStr hF _ (vectorTuple_rep hF ho) (by simp)⟩
      obtain ⟨h1, h2⟩ := hv offset (by simp)
      simp [plainExpr, plainStr, h1, vectorStr_xy pr _ x y h2 ho]
    · exact ⟨reprF F a, by simp [plainExpr, ha], literal_reprF hF (getFloat_rep hF ha)⟩
    · exact ⟨reprF F k, by simp [plainExpr, hk], literal_reprF hF (getFloat_rep hF hk)⟩
    · refine ⟨tupleStr F [u, w], ?_, literal_tupleStr hF _ (vectorTuple_rep hF hs) (by simp)⟩
      obtain ⟨h1, h2⟩ := hv scale (by simp)
      simp [plainExpr, plainStr, h1, vectorStr_xy pr _ u w h2 hs]
  obtain ⟨ts, ht1, ht2⟩ := literal_parts pr root d val hlit ['\n'] (List.replicate 36 ' ')
    (by simp [OnlySpace]) (blank_spaces _)
  have hperm : (d.map fun p => (p.1, val p)).Perm (TransParts.mk (x, y) a k (u, w)).dict :=
    hp.map _
  obtain ⟨m, h1, h2⟩ := c28_transformation_roundtrip hF ⟨(x, y), a, k, (u, w)⟩ (getFloat_rep hF ha)
    (getFloat_rep hF hk) _ hperm (emptyTag .composite) rfl
  refine ⟨'{' :: ((['\n'] ++ (ts.flatten ++ List.replicate 36 ' ')) ++ ['}']),
    .dict (d.map fun p => (p.1, val p)), m, ?_, ?_, ?_, h2⟩
  · simp [valueExpr, hd, ht1]
  · refine .dict _ _ ?_ ?_
    · rw [List.map_map, show (Prod.fst ∘ fun p : String × VCls × Node => (p.1, val p)) = Prod.fst from
        rfl, (hp.map Prod.fst).nodup_iff]
      simp
    · rw [List.map_map]; exact ht2
  · simp only [newValue, construct, h1]

/-! ### Where there is no such expression -/

/-- Every literal begins in one of these ways. -/
theorem literal_head {F : Fl} {s : Str} {v : PV} (h : LiteralFor F s v) :
    ∃ c ∈ s.head?, c ∈ "0123456789-TF'\"({".toList := by
  have hdig : ∀ {ds r : Str}, Digits ds → ∃ c ∈ (ds ++ r).head?, c ∈ "0123456789-TF'\"({".toList := by
    intro ds r hd
    obtain ⟨h1, h2⟩ := hd
    cases ds with
    | nil => exact absurd rfl h1
    | cons c ds =>
      refine ⟨c, by simp, ?_⟩
      have := h2 c (by simp)
      clear * - this
      revert c; decide
  cases h with
  | int ds h h0 => simpa using hdig (r := []) h
  | float w f hw hf => exact hdig hw
  | floatExp w e neg hw he => exact hdig hw
  | floatFracExp w f e neg hw hf he => exact hdig hw
  | minusInt | minusFloat => exact ⟨'-', by simp, by decide⟩
  | true => exact ⟨'T', by decide, by decide⟩
  | false => exact ⟨'F', by decide, by decide⟩
  | str q t s hq h => rcases hq with rfl | rfl <;> exact ⟨_, rfl, by decide⟩
  | tuple | dict | stops => exact ⟨_, rfl, by decide⟩

/-- C122 is violated by every blend method: what it gives, such as `v.1`, isn't an expression. -/
theorem c122_blend_method_fails (F : Fl) (n : Node) (i : ℤ) (h : getInt n = .ok i) :
    ∃ s, blendExpr n = .ok s ∧ ∀ v, ¬ LiteralFor F s v := by
  refine ⟨'v' :: '.' :: intStr i, by simp [blendExpr, h], fun v hv => ?_⟩
  obtain ⟨c, hc, hm⟩ := literal_head hv
  simp only [List.head?_cons, Option.mem_def, Option.some.injEq] at hc
  subst hc
  exact absurd hm (by decide)

theorem items_comma {F : Fl} {t : Str} {l : List PV} (h : Items F t l) (h2 : 2 ≤ l.length) : ',' ∈ t := by
  cases h with
  | one => simp at h2
  | cons => simp

/-- C122 is violated by animated values: for these classes it gives `(animated)`, and for the
others nothing at all. -/
theorem c122_animated_fails (F : Fl) (pr : Char → Bool) (root : Option Attrs) (n : Node)
    (hn : n.name = "animated") :
    (∀ c ∈ [VCls.real, .integer, .bool, .vector, .canvas], ∃ s,
      valueExpr F pr root c n = .ok s ∧ ∀ v, ¬ LiteralFor F s v) ∧
    (n.attrs.get "value" = none → ∀ c ∈ [VCls.angle, .time], valueExpr F pr root c n = .error .value) := by
  constructor
  · intro c hc
    refine ⟨"(animated)".toList, ?_, fun v hv => ?_⟩
    · simp only [List.mem_cons, List.not_mem_nil, or_false] at hc
      rcases hc with rfl | rfl | rfl | rfl | rfl <;> simp [valueExpr, plainExpr, plainStr, hn]
    · generalize hs : "(animated)".toList = s at hv
      have hh : s.head? = some '(' := by rw [← hs]; rfl
      cases hv with
      | tuple t l h2 h =>
        have := items_comma h h2
        have : ',' ∈ "(animated)".toList := by rw [hs]; simp [this]
        exact absurd this (by decide)
      | int ds hd h0 =>
        obtain ⟨h1, h2⟩ := hd
        have := h2 '(' (List.mem_of_mem_head? hh)
        exact absurd this (by decide)
      | float w f hw hf =>
        obtain ⟨h1, h2⟩ := hw
        rw [head?_append_of_ne_nil h1] at hh
        exact absurd (h2 '(' (List.mem_of_mem_head? hh)) (by decide)
      | floatExp w e neg hw he =>
        obtain ⟨h1, h2⟩ := hw
        rw [head?_append_of_ne_nil h1] at hh
        exact absurd (h2 '(' (List.mem_of_mem_head? hh)) (by decide)
      | floatFracExp w f e neg hw hf he =>
        obtain ⟨h1, h2⟩ := hw
        rw [head?_append_of_ne_nil h1] at hh
        exact absurd (h2 '(' (List.mem_of_mem_head? hh)) (by decide)
      | minusInt | minusFloat | dict | stops => simp at hh
      | true | false => exact absurd hh (by decide)
      | str q t s hq h => rcases hq with rfl | rfl <;> simp at hh
  · intro h c hc
    simp only [List.mem_cons, List.not_mem_nil, or_false] at hc
    rcases hc with rfl | rfl
    · simp [valueExpr, plainExpr, getFloat, simpleText, h]
    · simp [valueExpr, plainExpr, timeExpr, getTime, simpleText, h]

/-- A transformation as Synfig writes it. -/
def exTransText : Node := .tag "composite" [("type", .str "transformation".toList)]
  [.text ['\n'], .tag "offset" [] [.tag "vector" [] [.tag "x" [] [.text "0.1".toList],
    .tag "y" [] [.text "-2".toList]]],
   .tag "angle" [] [.tag "angle" [("value", .str "90.000000".toList)] []],
   .tag "skew_angle" [] [.tag "angle" [("value", .str "0.000000".toList)] []],
   .tag "scale" [] [.tag "vector" [] [.tag "x" [] [.text "1".toList], .tag "y" [] [.text "1".toList]]]]

/-- It meets the hypotheses of `c122_transformation`. -/
example : let v := fun a b : String => Node.tag "vector" [] [.tag "x" [] [.text a.toList],
      .tag "y" [] [.text b.toList]]
    let w := fun a : String => Node.tag "angle" [("value", .str a.toList)] []
    compositeDict exTransText = .ok [("offset", .vector, v "0.1" "-2"), ("angle", .angle, w "90.000000"),
      ("skew_angle", .angle, w "0.000000"), ("scale", .vector, v "1" "1")] ∧
    (∀ m ∈ [v "0.1" "-2", v "1" "1"], m.name ≠ "animated" ∧
      ∀ t ∈ m.tagKids, t.name = "x" ∨ t.name = "y") ∧
    vectorTuple double (v "0.1" "-2") = .ok [double.rnd (1/10), -2] ∧
    vectorTuple double (v "1" "1") = .ok [1, 1] ∧
    getFloat double (w "90.000000") = .ok 90 ∧ getFloat double (w "0.000000") = .ok 0 := by
  decide +kernel

/-- The other hypotheses of C122 and C123 are met, and the expression for a text. No character
outside ASCII is taken to be printable. -/
example :
    let pr := fun _ : Char => false
    let x : String → String → Node := fun t s => .tag t [("value", .str s.toList)] []
    let fps : Option Attrs := some [("fps", .str "24.000".toList)]
    getFloat double (x "real" "-0.1000000000") = .ok (-double.rnd (1/10)) ∧
    getInt (x "integer" "-12") = .ok (-12) ∧ getBool (x "bool" "true") = .ok true ∧
    getTime double fps (x "time" "0f") = .ok ⟨0, some 24⟩ ∧
    getTime double fps (x "time" "12f") = .ok ⟨12, some 24⟩ ∧
    getTime double fps (x "time" "1s 12f") = .ok ⟨36, some 24⟩ ∧
    colorTuple double (colorNode 1 (1/2) 0 1) = .ok [1, 1/2, 0, 1] ∧
    (∀ q ∈ [1, 1/2, 0, 1], double.rnd (dec 6 q) = q) ∧
    valueStr double pr none .color (colorNode 1 (1/2) 0 1) = .ok "#ff8000".toList ∧
    valueExpr double pr none .string (.tag "string" [] [.text "it's \n \u00e9".toList]) =
      .ok "\"it's \\n \\xe9\"".toList := by
  decide +kernel

/-! ## C123: the text of a value -/

/-- C123. Numbers that aren't animated are shown in full: reading the text gives the same number. -/
theorem c123_real {F : Fl} (hF : F.Lawful) (pr : Char → Bool) (root : Option Attrs) (n : Node) (q : ℚ)
    (hn : n.name ≠ "animated") (hq : getFloat F n = .ok q) :
    ∃ s, valueStr F pr root .real n = .ok s ∧ pyFloat F s = .ok q :=
  ⟨reprF F q, by simp [valueStr, plainStr, hn, hq], pyFloat_reprF hF (getFloat_rep hF hq)⟩

/-- C123. Likewise for whole numbers. -/
theorem c123_integer (F : Fl) (pr : Char → Bool) (root : Option Attrs) (n : Node) (i : ℤ)
    (hn : n.name ≠ "animated") (hi : getInt n = .ok i) :
    ∃ s, valueStr F pr root .integer n = .ok s ∧ pyInt s = .ok i :=
  ⟨intStr i, by simp [valueStr, plainStr, hn, hi], pyInt_intStr i⟩

/-- C123. Booleans are shown as `True` and `False`, text as itself, and times as `str` of the
time. -/
theorem c123_others (F : Fl) (pr : Char → Bool) (root : Option Attrs) (n : Node)
    (hn : n.name ≠ "animated") :
    (getBool n = .ok true → valueStr F pr root .bool n = .ok "True".toList) ∧
    (getBool n = .ok false → valueStr F pr root .bool n = .ok "False".toList) ∧
    valueStr F pr root .string n = .ok (getString n) ∧
    (∀ t, getTime F root n = .ok t → valueStr F pr root .time n = .ok (t.str F)) := by
  refine ⟨fun h => ?_, fun h => ?_, ?_, fun t h => ?_⟩ <;> simp [valueStr, plainStr, *]

/-- C123. An angle is shown with a degree sign, after a number which is the angle to six significant
digits. -/
theorem c123_angle (F : Fl) (pr : Char → Bool) (root : Option Attrs) (n : Node) (q : ℚ)
    (hn : n.name ≠ "animated") (hq : getFloat F n = .ok q) :
    ∃ s, valueStr F pr root .angle n = .ok (s ++ ['°']) ∧ pyFloat F s = .ok (F.rnd (six q)) :=
  ⟨fmtG q, by simp [valueStr, plainStr, hn, hq], pyFloat_fmtG F q⟩

/-- C123. A vector with the coordinates x and y is shown as the tuple of them. -/
theorem c123_vector {F : Fl} (hF : F.Lawful) (pr : Char → Bool) (root : Option Attrs) (n : Node)
    (x y : ℚ) (hn : n.name ≠ "animated")
    (hk : ∀ t ∈ n.tagKids, t.name = "x" ∨ t.name = "y")
    (ht : vectorTuple F n = .ok [x, y]) :
    ∃ s, valueStr F pr root .vector n = .ok s ∧ LiteralFor F s (.tuple [.float x, .float y]) :=
  ⟨tupleStr F [x, y], by simp [valueStr, plainStr, hn, vectorStr_xy pr n x y hk ht],
    literal_tupleStr hF [x, y] (vectorTuple_rep hF ht) (by simp)⟩

theorem hex2_digits : ∀ x : Fin 256, ∃ c ∈ hexDigits, ∃ d ∈ hexDigits, hex2 (x.val : ℤ) = [c, d] ∧
    lowerC c = c ∧ lowerC d = d := by decide +kernel

theorem hex2_lowerDigits {i : ℤ} (h0 : 0 ≤ i ∧ i ≤ 255) : ∃ c ∈ hexDigits, ∃ d ∈ hexDigits, hex2 i = [c, d] ∧
    lowerC c = c ∧ lowerC d = d := by
  obtain ⟨k, rfl⟩ := Int.eq_ofNat_of_zero_le h0.1
  exact hex2_digits ⟨k, by omega⟩

/-- The text of a colour is canonical. -/
theorem colorHex_canonical {F : Fl} (hF : F.Lawful) (n : Node) (r g b a : ℚ)
    (ht : colorTuple F n = .ok [r, g, b, a]) (hin : ∀ x ∈ [r, g, b, a], 0 ≤ x ∧ x ≤ 1) :
    ∃ ds, IsColorDigits ds ∧ colorHex F n = .ok (written true ds) ∧ canonical ds = written true ds := by
  simp only [List.mem_cons, List.not_mem_nil, or_false, forall_eq_or_imp, forall_eq] at hin
  obtain ⟨i1, i2, i3, i4⟩ := hin
  have t := fun {x : ℚ} (h : 0 ≤ x ∧ x ≤ 1) => hex2_lowerDigits (level_range hF h.1 h.2)
  obtain ⟨c1, m1, d1, k1, e1, l1, o1⟩ := t i1
  obtain ⟨c2, m2, d2, k2, e2, l2, o2⟩ := t i2
  obtain ⟨c3, m3, d3, k3, e3, l3, o3⟩ := t i3
  obtain ⟨c4, m4, d4, k4, e4, l4, o4⟩ := t i4
  have hh : colorHex F n = .ok (dropFF ['#', c1, d1, c2, d2, c3, d3, c4, d4]) := by
    simp only [colorHex, ht, hexOf_four, e1, e2, e3, e4]
    rfl
  rw [dropFF_eight] at hh
  by_cases hff : c4 = 'f' ∧ d4 = 'f'
  · rw [if_pos hff] at hh
    refine ⟨[c1, d1, c2, d2, c3, d3], ⟨?_, Or.inl rfl⟩, hh, ?_⟩
    · simp [m1, k1, m2, k2, m3, k3]
    · simp [canonical, written, lower, *]
  · rw [if_neg hff] at hh
    refine ⟨[c1, d1, c2, d2, c3, d3, c4, d4], ⟨?_, Or.inr rfl⟩, hh, ?_⟩
    · simp [m1, k1, m2, k2, m3, k3, m4, k4]
    · simp only [canonical, written, lower, List.map, l1, o1, l2, o2, l3, o3, l4, o4, List.drop,
        if_true]
      rw [if_neg (by simpa using hff)]

/-- C123. A colour that isn't animated is shown as a hash and six or eight digits; it equals that
text, and it equals the colour made from that text. -/
theorem c123_color {F : Fl} (hF : F.Lawful) (pr : Char → Bool) (root : Option Attrs) (n : Node)
    (r g b a : ℚ) (hn : n.name ≠ "animated") (ht : colorTuple F n = .ok [r, g, b, a])
    (hin : ∀ x ∈ [r, g, b, a], 0 ≤ x ∧ x ≤ 1) :
    ∃ s m, valueStr F pr root .color n = .ok s ∧ (∃ ds, IsColorDigits ds ∧ s = '#' :: ds) ∧
      colorEqStr F n s = .ok true ∧ newValue F .color (.str s) = .ok m ∧ colorEq F n m = .ok true := by
  obtain ⟨ds, hd, hh, hc⟩ := colorHex_canonical hF n r g b a ht hin
  obtain ⟨h1, h2, -⟩ := c23_hex_roundtrip hF (emptyTag .color) rfl ds hd true
  refine ⟨written true ds, (setValue F .color (.str (written true ds)) (emptyTag .color)).1, ?_,
    ⟨ds, hd, rfl⟩, ?_, ?_, ?_⟩
  · simp [valueStr, plainStr, hn, hh]
  · simp [colorEqStr, colorStr, hn, hh, colorText_written true ds hd, hc]
  · simp only [newValue, construct, h1]
  · simp [colorEq, hh, h2, hc]

/-- C123. An animated value of any class but one is shown as `(animated)`. -/
theorem c123_animated (F : Fl) (pr : Char → Bool) (root : Option Attrs) (c : VCls) (n : Node)
    (hc : c ≠ .gradient) (hn : n.name = "animated") :
    valueStr F pr root c n = .ok "(animated)".toList := by
  simp [valueStr, plainStr, hc, hn]

/-- C123 is violated by animated gradients. If the waypoints have fewer than two colours, `str` raises
`ValueError`; otherwise the colours of all the waypoints are shown as if they were one gradient, since gradients
with the same colours anywhere inside them are shown alike. -/
theorem c123_animated_gradient_mixed (F : Fl) (pr : Char → Bool) (root : Option Attrs) (n : Node) :
    ((n.findAll "color").length < 2 → valueStr F pr root .gradient n = .error .value) ∧
    ∀ m : Node, m.findAll "color" = n.findAll "color" →
      valueStr F pr root .gradient n = valueStr F pr root .gradient m := by
  constructor
  · intro h
    simp [valueStr, plainStr, gradientStr, gradientStops, h]
  · intro m h
    simp [valueStr, plainStr, gradientStr, gradientStops, h]

/-- C123. So the text of an animated gradient is never "(animated)". -/
theorem c123_animated_gradient_fails (F : Fl) (pr : Char → Bool) (root : Option Attrs) (n : Node)
    (s : Str) (h : valueStr F pr root .gradient n = .ok s) : s ≠ "(animated)".toList := by
  simp only [valueStr, plainStr, gradientStr] at h
  intro hs
  simp only [reduceCtorEq, false_and, if_false, if_true] at h
  split at h
  · cases h
  · split at h
    · cases h
    · rw [Except.ok.injEq] at h
      rw [hs] at h
      exact absurd (congrArg List.head? h) (by simp)

/-- An animated colour is not equal to its own text, or to any other. -/
theorem c123_animated_color_eq_text (F : Fl) (n : Node) (s : Str) (hn : n.name = "animated") :
    colorEqStr F n s = .ok false := by
  have : colorText s ≠ "(animated)".toList := by
    have h : ∃ r, addHash (lower s) = '#' :: r := by
      unfold addHash
      split <;> exact ⟨_, rfl⟩
    obtain ⟨r, hr⟩ := h
    simp only [colorText, hr]
    intro he
    split at he
    · rename_i hl
      have : (dropFF ('#' :: r)).length ≤ 9 := by
        unfold dropFF
        split
        · simp only [List.length_dropLast]; omega
        · omega
      rw [he] at this
      exact absurd this (by decide)
    · exact absurd (congrArg List.head? he) (by simp)
  simp only [colorEqStr, colorStr, hn, if_true, Except.ok.injEq, decide_eq_false_iff_not]
  exact fun h => this h.symm

/-- C123. `repr` is the same text after the name of the class, in square brackets. -/
theorem c123_repr (F : Fl) (pr : Char → Bool) (root : Option Attrs) (c : VCls) (n : Node) (s : Str)
    (h : valueStr F pr root c n = .ok s) :
    valueRepr F pr root c n = .ok ("[".toList ++ valueClassName c ++ " ".toList ++ s ++ "]".toList) := by
  simp [valueRepr, h, reprOf]

end Sang
