import Verif.Props.Composites

/-! # Assigning gradients, vectors and layers: C73, C121 -/

namespace Sang

/-! ## C73: assigning a gradient or vector object -/

theorem gradientStops_nodup {F : Fl} {n : Node} {l : List (ℚ × Node)} (h : gradientStops F n = .ok l) :
    (l.map Prod.fst).Nodup := by
  simp only [gradientStops] at h
  split at h
  · cases h
  · split at h
    · cases h
    · simp only [Except.ok.injEq] at h
      rw [← h]
      exact (foldl_dictSet_keys _ [] (by simp)).1

/-- C73, gradients. Assigning another gradient object makes this gradient read the same as it: the
same positions, in increasing order, with the same colours. The positions must have at most six
significant digits, and the colours at most six decimals, as everything written by Synfig and by the
library has. -/
theorem c73_gradient {F : Fl} (hF : F.Lawful) (root : Option Attrs) (m n : Node)
    (hn : n.isTag = true) (l : List (ℚ × Node)) (hl : gradientStops F m = .ok l) (h2 : 2 ≤ l.length)
    (hpos : ∀ p ∈ l, F.rnd (six p.1) = p.1)
    (hcol : ∀ p ∈ l, ∃ r g b a, colorTuple F p.2 = .ok [r, g, b, a] ∧
      ∀ x ∈ [r, g, b, a], F.rnd (dec 6 x) = x) :
    ∃ n' stops, setValue F .gradient (.val .gradient root m) n = (n', .ok ()) ∧
      gradientStops F n' = .ok stops ∧ (stops.map Prod.fst).Pairwise (· < ·) ∧
      (stops.map fun s => (s.1, colorTuple F s.2)).Perm (l.map fun s => (s.1, colorTuple F s.2)) := by
  have hdist := gradientStops_nodup hl
  let col : PV → Node := fun v => match newValue F .color v with
    | .ok c => c
    | .error _ => .text []
  have hnew : ∀ p ∈ l, ∃ c, newValue F .color (.val .color none p.2) = .ok c ∧
      colorTuple F c = colorTuple F p.2 := by
    intro p hp
    obtain ⟨r, g, b, a, ht, hd⟩ := hcol p hp
    have e := setColor_ok (F := F) (n := emptyTag .color) rfl (v := .val .color none p.2) ht
    refine ⟨colorNode r g b a, by simp [newValue, construct, e], ?_⟩
    rw [colorTuple_node, ht, hd r (by simp), hd g (by simp), hd b (by simp), hd a (by simp)]
  have e : setValue F .gradient (.val .gradient root m) n =
      setValue F .gradient (.stops (l.map fun p => (p.1, .val .color none p.2))) n := by
    simp only [setValue, setGradient, gradientArg, hl]
  obtain ⟨n', stops, h1, h3, h4, h5⟩ := c30_gradient_roundtrip hF
    (l.map fun p => (p.1, .val .color none p.2)) col
    (by
      intro q hq
      obtain ⟨p, hp, rfl⟩ := List.mem_map.1 hq
      obtain ⟨c, hc, -⟩ := hnew p hp
      simp only [col, hc])
    (by simpa using h2)
    (by
      rw [List.map_map]
      rw [List.Nodup, List.pairwise_map] at hdist ⊢
      refine hdist.imp_of_mem fun {a b} ha hb hab he => hab ?_
      rw [← hpos a ha, ← hpos b hb]
      exact congrArg F.rnd he) n hn
  refine ⟨n', stops, e.trans h1, h3, h4, h5.trans (List.Perm.of_eq ?_)⟩
  rw [List.map_map]
  refine List.map_congr_left fun p hp => ?_
  obtain ⟨c, hc, ht⟩ := hnew p hp
  simp only [Function.comp, col, hc, ht, hpos p hp]

/-- A stop as Synfig writes it. -/
def exGradStop (pos r g b : String) : Node :=
  .tag "color" [("pos", .str pos.toList)] [.tag "r" [] [.text r.toList], .tag "g" [] [.text g.toList],
    .tag "b" [] [.text b.toList], .tag "a" [] [.text "1.000000".toList]]

/-- A gradient as Synfig writes it, with its stops out of order. -/
def exGradStops : Node := .tag "gradient" []
  [exGradStop "0.500000" "1.000000" "0.500000" "0.000000", .text ['\n'],
   exGradStop "0.000000" "0.200000" "0.000000" "0.000000"]

/-- It meets the hypotheses. -/
example : let l := [(1/2, exGradStop "0.500000" "1.000000" "0.500000" "0.000000"),
      ((0:ℚ), exGradStop "0.000000" "0.200000" "0.000000" "0.000000")]
    gradientStops double exGradStops = .ok l ∧ (∀ p ∈ l, double.rnd (six p.1) = p.1) ∧
    (l.map Prod.fst).Nodup ∧ ∀ p ∈ l, ∃ r g b a, colorTuple double p.2 = .ok [r, g, b, a] ∧
      ∀ x ∈ [r, g, b, a], double.rnd (dec 6 x) = x := by
  refine ⟨by decide +kernel, by decide +kernel, by decide +kernel, fun p hp => ?_⟩
  simp only [List.mem_cons, List.not_mem_nil, or_false] at hp
  rcases hp with rfl | rfl
  · exact ⟨1, 1/2, 0, 1, by decide +kernel, by decide +kernel⟩
  · exact ⟨double.rnd (2/10), 0, 0, 1, by decide +kernel, by decide +kernel⟩

/-- C73, vectors. A new vector made from another vector object has its coordinates, to ten
decimals, whatever order they were in. -/
theorem c73_vector {F : Fl} (hF : F.Lawful) (root : Option Attrs) (m : Node) (x y : ℚ)
    (hm : vectorItems F m = .ok [("x", x), ("y", y)] ∨ vectorItems F m = .ok [("y", y), ("x", x)]) :
    ∃ n x' y', newValue F .vector (.val .vector root m) = .ok n ∧
      vectorTuple F n = .ok [x', y'] ∧ NearTen x' x ∧ NearTen y' y := by
  have e2 : sortNames ["y", "x"] = ["x", "y"] := by decide
  rcases hm with hm | hm
  · refine ⟨.tag "vector" [] [coordTag "x" x, coordTag "y" y], F.rnd (dec 10 x), F.rnd (dec 10 y),
      ?_, vectorTuple_pair F [] [] (by simp) x y, fixed_read_err hF 10 x, fixed_read_err hF 10 y⟩
    simp [newValue, construct, setValue, setVector, vectorArg, hm, appendMembers, coordText,
      Node.setName, Node.setAttrs, Node.append, Node.new, Node.setString, Node.setKids, coordTag,
      emptyTag]
  · refine ⟨.tag "vector" [] [coordTag "y" y, coordTag "x" x], F.rnd (dec 10 x), F.rnd (dec 10 y),
      ?_, ?_, fixed_read_err hF 10 x, fixed_read_err hF 10 y⟩
    · simp [newValue, construct, setValue, setVector, vectorArg, hm, appendMembers, coordText,
        Node.setName, Node.setAttrs, Node.append, Node.new, Node.setString, Node.setKids, coordTag,
        emptyTag]
    · have hd : vectorDict (.tag "vector" [] [coordTag "y" y, coordTag "x" x]) =
          [("y", some (fixed 10 y)), ("x", some (fixed 10 x))] := rfl
      simp [vectorTuple, hd, e2, mapRes, List.lookup, floatOpt,
        pyFloat_fixed F 10 (by norm_num : (10:ℕ) ≠ 0)]

example : vectorItems double (.tag "vector" [] [.text ['\n'], coordTag "y" 4, coordTag "x" (1/2)]) =
    .ok [("y", 4), ("x", 1/2)] := by decide +kernel

/-! ## C121: assigning layers to a canvas -/

/-- C121 is violated. Whatever canvas it is done to, assigning a list of layers that isn't empty
raises `AttributeError`, and the canvas has lost everything it held; so has it after assigning
anything else that can't be put in a canvas, which raises `TypeError`. -/
theorem c121_canvas_assignment_fails (F : Fl) (n : Node) :
    (∀ r, (setValue F .canvas (.tuple (.other :: r)) n).2 = .error .attr) ∧
    (∀ v r, v ≠ .other → (setValue F .canvas (.tuple (v :: r)) n).2 = .error .type) ∧
    (∀ v r, canvasLayers (setValue F .canvas (.tuple (v :: r)) n).1 = .ok []) := by
  refine ⟨fun r => rfl, fun v r hv => ?_, fun v r => ?_⟩
  · cases v <;> first | rfl | exact absurd rfl hv
  · cases v <;> cases n <;> rfl

/-- C121, the part that holds: assigning an empty list empties the canvas. -/
theorem c121_empty_partial (F : Fl) (n : Node) :
    (setValue F .canvas (.tuple []) n).2 = .ok () ∧
    canvasLayers (setValue F .canvas (.tuple []) n).1 = .ok [] := by
  cases n <;> exact ⟨rfl, rfl⟩

/-- So a canvas can't even be assigned what it holds. -/
theorem c121_own_layers_lost (F : Fl) (root : Option Attrs) (n : Node) (x : Node) (r : List Node)
    (h : canvasLayers n = .ok (x :: r)) :
    ∃ v, getValue F root .canvas n = .ok v ∧ (setValue F .canvas v n).2 = .error .attr ∧
      canvasLayers (setValue F .canvas v n).1 = .ok [] := by
  refine ⟨.tuple (.other :: r.map fun _ => .other), by simp [getValue, h],
    (c121_canvas_assignment_fails F n).1 _, (c121_canvas_assignment_fails F n).2.2 _ _⟩

example : canvasLayers (.tag "canvas" [] [.text ['\n'], .tag "layer" [] []]) =
    .ok [.tag "layer" [] []] := by decide +kernel

end Sang
