import Verif.LayerIn
import Verif.Props.Find
import Verif.Props.Compare

/-!
# C175: asking whether a layer is in a group

One would expect `x in group` to be true exactly if `x` is one of the layers in the group. The code doesn't look
at the group's layers at all.
-/

namespace Sang

open Spec

theorem anySuits_true {f : Node → Res Bool} {l : List Node} :
    anySuits f l = .ok true ↔
      ∃ a p b, l = a ++ p :: b ∧ f p = .ok true ∧ ∀ q ∈ a, f q = .ok false := by
  induction l with
  | nil => simp [anySuits]
  | cons q r ih =>
    rw [anySuits]
    constructor
    · intro h
      cases hq : f q with
      | error e => rw [hq] at h; cases h
      | ok v =>
        rw [hq] at h
        cases v with
        | true => exact ⟨[], q, r, rfl, hq, by simp⟩
        | false =>
          obtain ⟨a, p, b, rfl, hp, ha⟩ := ih.1 h
          refine ⟨q :: a, p, b, rfl, hp, fun s hs => ?_⟩
          rcases List.mem_cons.1 hs with rfl | hs
          · exact hq
          · exact ha s hs
    · rintro ⟨a, p, b, h, hp, ha⟩
      cases a with
      | nil =>
        obtain ⟨rfl, rfl⟩ := List.cons.inj h
        rw [hp]
      | cons s a =>
        obtain ⟨rfl, rfl⟩ := List.cons.inj h
        rw [ha q (by simp)]
        exact ih.2 ⟨a, p, b, rfl, hp, fun t ht => ha t (by simp [ht])⟩

theorem anySuits_false {f : Node → Res Bool} {l : List Node} :
    anySuits f l = .ok false ↔ ∀ p ∈ l, f p = .ok false := by
  induction l with
  | nil => simp [anySuits]
  | cons q r ih =>
    rw [anySuits]
    cases hq : f q with
    | error e => simp [hq]
    | ok v => cases v <;> simp [hq, ih]

theorem posStr_targets (s : Str) :
    posArg { pos := [.str s] } = .ok (.none, [("type", .pv (.str s))]) ∧
    criteria { pos := [.str s] } [("type", .pv (.str s))] =
      .ok [("type_", .str (normaliseName s))] := by
  constructor <;> rfl

/-- What a search for a type finds is below the layer searched. -/
theorem findLayer_below {F : Fl} {d : Defaults} {s : Str} {x : Node} {y : LObj}
    (h : findLayer F d { pos := [.str s] } true x = .ok (some y)) : y.2 ∈ layersBelow x := by
  unfold findLayer at h
  cases hf : findAllLayers F d { pos := [.str s] } true x with
  | error e => rw [hf] at h; cases h
  | ok l =>
    rw [hf] at h
    cases l with
    | nil => cases h
    | cons z l =>
      simp only [List.head?_cons, Except.ok.injEq, Option.some.injEq] at h
      subst h
      have := ((search_ok (posStr_targets s).1 (posStr_targets s).2).1 hf).2.1
      have hm : z.2 ∈ (z :: l).map Prod.snd := by simp
      rw [this] at hm
      exact (List.mem_filter.1 hm).1

/-- A search of a layer that has no layers below it. -/
theorem findLayer_empty (F : Fl) (d : Defaults) (s : Str) (x : Node) (hx : layersBelow x = []) :
    findLayer F d { pos := [.str s] } true x = .ok none := by
  have : findAllLayers F d { pos := [.str s] } true x = .ok [] := by
    rw [search_ok (posStr_targets s).1 (posStr_targets s).2]
    simp [hx]
  simp [findLayer, this]

/-- C175, violated: a layer with no layers below it isn't `in` anything: whatever is asked, and so also the group
it is in, the answer is false. (Every `<param>` must have a name, as it has in any file.) -/
theorem c175_never_in (F : Fl) (d : Defaults) (x n : Node) (hx : layersBelow x = [])
    (hn : ∀ p ∈ n.descTags, p.name = "param" → ∃ s, p.attrs.get "name" = some (.str s)) :
    layerIn F d x n = .ok false := by
  rw [layerIn, anySuits_false]
  intro p hp
  obtain ⟨hp, hname⟩ := List.mem_filter.1 hp
  obtain ⟨s, hs⟩ := hn p hp (by simpa using hname)
  simp [nameSuits, hs, findLayer_empty F d s x hx]

/-- C175, violated: so `x in group` isn't whether `x` is in the group, for any group that has in it a layer with no
layers below it. -/
theorem c175_in_group_fails (F : Fl) (d : Defaults) (n : Node)
    (hn : ∀ p ∈ n.descTags, p.name = "param" → ∃ s, p.attrs.get "name" = some (.str s))
    (hl : ∃ x ∈ layersBelow n, layersBelow x = []) :
    ∃ x, ¬ (layerIn F d x n = .ok true ↔ x ∈ layersBelow n) := by
  obtain ⟨x, hx, he⟩ := hl
  refine ⟨x, fun h => ?_⟩
  have := h.2 hx
  rw [c175_never_in F d x n he hn] at this
  cases this

/-- C175: what `x in n` does say. It is true only if somewhere in `n` there's a parameter whose name, taken as a
type of layer, is such that the first layer of that type below `x` has layers below it. -/
theorem c175_in_is (F : Fl) (d : Defaults) (x n : Node) (h : layerIn F d x n = .ok true) :
    ∃ p ∈ n.descTags, p.name = "param" ∧ ∃ s, p.attrs.get "name" = some (.str s) ∧
      ∃ y, findLayer F d { pos := [.str s] } true x = .ok (some y) ∧ y.2 ∈ layersBelow x ∧
        layersBelow y.2 ≠ [] := by
  obtain ⟨a, p, b, hl, hp, -⟩ := anySuits_true.1 h
  have hm : p ∈ n.descTags.filter fun t => t.name = "param" := by rw [hl]; simp
  obtain ⟨hm, hname⟩ := List.mem_filter.1 hm
  refine ⟨p, hm, by simpa using hname, ?_⟩
  unfold nameSuits at hp
  split at hp
  · rename_i s hs
    refine ⟨s, hs, ?_⟩
    cases hf : findLayer F d { pos := [.str s] } true x with
    | error e => rw [hf] at hp; cases hp
    | ok o =>
      rw [hf] at hp
      cases o with
      | none => cases hp
      | some y =>
        simp only [Except.ok.injEq] at hp
        exact ⟨y, rfl, findLayer_below hf, (c99_leaf_layer_is_false y.2).1 hp⟩
  · cases hp

/-- C175: and it is true if there is one, provided that no search raises. -/
theorem c175_in_is_iff (F : Fl) (d : Defaults) (x n : Node)
    (hn : ∀ p ∈ n.descTags, p.name = "param" → ∃ s, p.attrs.get "name" = some (.str s) ∧
      ∃ o, findLayer F d { pos := [.str s] } true x = .ok o) :
    layerIn F d x n = .ok true ↔
    ∃ p ∈ n.descTags, p.name = "param" ∧ ∃ s, p.attrs.get "name" = some (.str s) ∧
      ∃ y, findLayer F d { pos := [.str s] } true x = .ok (some y) ∧ layersBelow y.2 ≠ [] := by
  constructor
  · intro h
    obtain ⟨p, hp, hname, s, hs, y, hy, -, hne⟩ := c175_in_is F d x n h
    exact ⟨p, hp, hname, s, hs, y, hy, hne⟩
  · rintro ⟨p, hp, hname, s, hs, y, hy, hne⟩
    have hsuit : nameSuits F d x p = .ok true := by
      simp only [nameSuits, hs, hy, (c99_leaf_layer_is_false y.2).2 hne]
    have hok : ∀ q ∈ n.descTags.filter (fun t => t.name = "param"), ∃ b, nameSuits F d x q = .ok b := by
      intro q hq
      obtain ⟨hq, hqn⟩ := List.mem_filter.1 hq
      obtain ⟨s, hs, o, ho⟩ := hn q hq (by simpa using hqn)
      cases o <;> simp [nameSuits, hs, ho]
    have hm : p ∈ n.descTags.filter (fun t => t.name = "param") :=
      List.mem_filter.2 ⟨hp, by simpa using hname⟩
    rw [layerIn]
    generalize n.descTags.filter (fun t => t.name = "param") = l at hok hm
    induction l with
    | nil => cases hm
    | cons q r ih =>
      obtain ⟨b, hb⟩ := hok q (by simp)
      rw [anySuits, hb]
      cases b with
      | true => rfl
      | false =>
        rcases List.mem_cons.1 hm with rfl | hm
        · rw [hsuit] at hb; cases hb
        · exact ih (fun t ht => hok t (by simp [ht])) hm

/-- C175: in particular the layers of a group in which no layer is itself a group that isn't empty — most groups
have no more — are never said to be in it, nor is that group itself said to be in anything. -/
theorem c175_flat_never_in (F : Fl) (d : Defaults) (x n : Node)
    (hx : ∀ y ∈ layersBelow x, layersBelow y = []) : layerIn F d x n ≠ .ok true := by
  intro h
  obtain ⟨p, -, -, s, -, y, -, hy, hne⟩ := c175_in_is F d x n h
  exact hne (hx y.2 hy)

/-- C175: `x in n` doesn't depend on the layers of `n` except through the parameters they have: two elements with
the same parameters below them get the same answer. -/
theorem c175_only_params (F : Fl) (d : Defaults) (x n m : Node)
    (h : (n.descTags.filter fun t => t.name = "param").map (fun t => t.attrs.get "name") =
      (m.descTags.filter fun t => t.name = "param").map (fun t => t.attrs.get "name")) :
    layerIn F d x n = layerIn F d x m := by
  unfold layerIn
  generalize (n.descTags.filter fun t => t.name = "param") = a at h ⊢
  generalize (m.descTags.filter fun t => t.name = "param") = b at h ⊢
  induction a generalizing b with
  | nil =>
    cases b with
    | nil => rfl
    | cons => simp at h
  | cons p a ih =>
    cases b with
    | nil => simp at h
    | cons q b =>
      simp only [List.map_cons, List.cons.injEq] at h
      have : nameSuits F d x p = nameSuits F d x q := by unfold nameSuits; rw [h.1]
      simp only [anySuits, this, ih b h.2]

/-- A layer of a type with a parameter of this name that has in it a canvas with these layers. -/
def lmGroup (p : String) (l : List Node) : Node :=
  .tag "layer" [("type", .str "group".toList)]
    [.tag "param" [("name", .str p.toList)] [.tag "canvas" [] l]]

/-- C175 at work: a group with a circle in it. The circle is in it, and `circle in group` is false. -/
example : exLayer "circle" ∈ layersBelow (lmGroup "canvas" [exLayer "circle"]) ∧
    layersBelow (exLayer "circle") = [] ∧
    layerIn double .initial (exLayer "circle") (lmGroup "canvas" [exLayer "circle"]) = .ok false := by
  decide +kernel

/-- The hypotheses of `c175_never_in` and `c175_in_group_fails` are met by it. -/
example : (∀ p ∈ (lmGroup "canvas" [exLayer "circle"]).descTags, p.name = "param" →
      ∃ s, p.attrs.get "name" = some (.str s)) ∧
    ∃ x ∈ layersBelow (lmGroup "canvas" [exLayer "circle"]), layersBelow x = [] := by
  refine ⟨?_, exLayer "circle", by decide +kernel, by decide +kernel⟩
  have : (lmGroup "canvas" [exLayer "circle"]).descTags =
      [.tag "param" [("name", .str "canvas".toList)] [.tag "canvas" [] [exLayer "circle"]],
        .tag "canvas" [] [exLayer "circle"], exLayer "circle"] := by decide +kernel
  intro p hp hname
  rw [this] at hp
  simp only [List.mem_cons, List.not_mem_nil, or_false] at hp
  rcases hp with rfl | rfl | rfl
  · exact ⟨_, rfl⟩
  · exact absurd hname (by decide)
  · exact absurd hname (by decide)

/-- The hypothesis of `c175_in_is` can be met, by a layer that isn't in `n`: the answer is true if `n` has a
parameter that happens to be called "group", and `x` has in it a group that isn't empty. -/
example : layerIn double .initial (lmGroup "canvas" [lmGroup "canvas" [exLayer "circle"]])
      (lmGroup "Group" []) = .ok true ∧
    layersBelow (lmGroup "Group" []) = [] := by
  decide +kernel

/-- The same found with the second parameter, so that the first isn't all that is looked at: the right side of
`c175_in_is_iff`. -/
example : layerIn double .initial (lmGroup "canvas" [lmGroup "canvas" [exLayer "circle"]])
      (lmGroup "canvas" [lmGroup "group" []]) = .ok true ∧
    findLayer double .initial { pos := [.str "canvas".toList] } true
      (lmGroup "canvas" [lmGroup "canvas" [exLayer "circle"]]) = .ok none := by
  decide +kernel

/-- And `c175_flat_never_in` is met by a group of circles. -/
example : ∀ y ∈ layersBelow (lmGroup "canvas" [exLayer "circle", exLayer "star"]), layersBelow y = [] := by
  decide +kernel

end Sang
