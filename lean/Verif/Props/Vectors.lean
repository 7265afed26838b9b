import Verif.Value
import Verif.Lemmas.ValueNum
import Verif.Props.Registry
import Verif.Props.Simple

/-! # Vectors and transformations: properties C26–C28, C75 -/

namespace Sang

/-! ## The element of a vector -/

/-- The element of one coordinate. -/
def coordTag (k : String) (x : ℚ) : Node := .tag k [] [.text (fixed 10 x)]

theorem setVector_pair (F : Fl) (nm : String) (a : Attrs) (ks : List Node) (x y : ℚ) :
    setValue F .vector (.tuple [.float x, .float y]) (.tag nm a ks) =
      (.tag "vector" [] (ks ++ [coordTag "x" x, coordTag "y" y]), .ok ()) := by
  simp [setValue, setVector, vectorArg, PV.isNumber, appendMembers, coordText, Node.setName,
    Node.setAttrs, Node.append, Node.new, Node.setString, Node.setKids, coordTag]

/-- Only the coordinates x and y, in any order. -/
def XYOnly (d : List (String × Option Str)) : Prop :=
  d.map Prod.fst ∈ [[], ["x"], ["y"], ["x", "y"], ["y", "x"]]

theorem xyOnly_cases {d : List (String × Option Str)} (h : XYOnly d) :
    d = [] ∨ (∃ a, d = [("x", a)]) ∨ (∃ a, d = [("y", a)]) ∨ (∃ a b, d = [("x", a), ("y", b)]) ∨
      (∃ a b, d = [("y", b), ("x", a)]) := by
  simp only [XYOnly, List.mem_cons, List.not_mem_nil, or_false] at h
  rcases h with h | h | h | h | h
  · left; simpa using h
  · right; left
    match d, h with
    | [(k, a)], h => simp at h; subst h; exact ⟨a, rfl⟩
  · right; right; left
    match d, h with
    | [(k, a)], h => simp at h; subst h; exact ⟨a, rfl⟩
  · right; right; right; left
    match d, h with
    | [(k, a), (l, b)], h => simp at h; obtain ⟨rfl, rfl⟩ := h; exact ⟨a, b, rfl⟩
  · right; right; right; right
    match d, h with
    | [(k, a), (l, b)], h => simp at h; obtain ⟨rfl, rfl⟩ := h; exact ⟨b, a, rfl⟩

theorem xyOnly_set {d : List (String × Option Str)} (h : XYOnly d) (k : String)
    (hk : k = "x" ∨ k = "y") (v : Option Str) : XYOnly (dictSet k v d) := by
  rcases xyOnly_cases h with rfl | ⟨a, rfl⟩ | ⟨a, rfl⟩ | ⟨a, b, rfl⟩ | ⟨a, b, rfl⟩ <;>
    rcases hk with rfl | rfl <;> simp [XYOnly, dictSet]

theorem xyOnly_fold (l : List Node) (hl : ∀ x ∈ l, x.name = "x" ∨ x.name = "y")
    (d : List (String × Option Str)) (h : XYOnly d) :
    XYOnly (l.foldl (fun d x => dictSet x.name x.string? d) d) := by
  induction l generalizing d with
  | nil => exact h
  | cons x l ih =>
    exact ih (fun y hy => hl y (by simp [hy])) _ (xyOnly_set h _ (hl x (by simp)) _)

/-- Reading the tuple when both coordinates have just been set. -/
theorem tuple_after_set {F : Fl} {d : List (String × Option Str)} (h : XYOnly d) (s t : Str)
    (x y : ℚ) (hx : pyFloat F s = .ok x) (hy : pyFloat F t = .ok y) :
    mapRes (fun k => floatOpt F (((dictSet "y" (some t) (dictSet "x" (some s) d)).lookup k).getD none))
      (sortNames ((dictSet "y" (some t) (dictSet "x" (some s) d)).map Prod.fst)) = .ok [x, y] := by
  have e1 : sortNames ["x", "y"] = ["x", "y"] := by decide
  have e2 : sortNames ["y", "x"] = ["x", "y"] := by decide
  rcases xyOnly_cases h with rfl | ⟨a, rfl⟩ | ⟨a, rfl⟩ | ⟨a, b, rfl⟩ | ⟨a, b, rfl⟩ <;>
    simp [dictSet, e1, e2, mapRes, List.lookup, floatOpt, hx, hy]

/-! ## C26: reading the whole vector -/

/-- Half of 1e-10, plus float rounding. -/
def NearTen (q x : ℚ) : Prop :=
  |q - x| ≤ 1 / (2 * 10 ^ 10) + (|x| + 1 / (2 * 10 ^ 10)) / 2 ^ 53

theorem vectorTuple_pair (F : Fl) (a : Attrs) (ks : List Node)
    (hk : ∀ k ∈ ks, k.isTag = true → k.name = "x" ∨ k.name = "y") (x y : ℚ) :
    vectorTuple F (.tag "vector" a (ks ++ [coordTag "x" x, coordTag "y" y])) =
      .ok [F.rnd (dec 10 x), F.rnd (dec 10 y)] := by
  have h : XYOnly ((ks.filter Node.isTag).foldl (fun d x => dictSet x.name x.string? d) []) :=
    xyOnly_fold _ (fun k hk' => hk k (List.mem_filter.1 hk').1 (List.mem_filter.1 hk').2) [] (by
      simp [XYOnly])
  have := tuple_after_set (F := F) h (fixed 10 x) (fixed 10 y) _ _
    (pyFloat_fixed F 10 (by norm_num) x) (pyFloat_fixed F 10 (by norm_num) y)
  simp only [vectorTuple, vectorDict, Node.tagKids, Node.kids, List.filter_append, List.foldl_append]
  exact this

/-- C26. After `vector.value = (x, y)`, the tuple reads as `(x, y)` to ten decimals, whatever
coordinates x and y the vector held before (and however many). -/
theorem c26_vector_tuple {F : Fl} (hF : F.Lawful) (n : Node) (hn : n.isTag = true)
    (hk : ∀ k ∈ n.kids, k.isTag = true → k.name = "x" ∨ k.name = "y") (x y : ℚ) :
    (setValue F .vector (.tuple [.float x, .float y]) n).2 = .ok () ∧
    ∃ x' y', vectorTuple F (setValue F .vector (.tuple [.float x, .float y]) n).1 = .ok [x', y'] ∧
      NearTen x' x ∧ NearTen y' y := by
  cases n with
  | text t => simp [Node.isTag] at hn
  | tag nm a ks =>
    rw [setVector_pair]
    exact ⟨rfl, _, _, vectorTuple_pair F [] ks hk x y, fixed_read_err hF 10 x, fixed_read_err hF 10 y⟩

/-- C26's hypotheses are met by a vector which already holds coordinates, in the other order. -/
example : vectorTuple double (setValue double .vector (.tuple [.float 3, .float 4])
    (.tag "vector" [] [.text ['\n'], coordTag "y" 2, coordTag "x" 1])).1 = .ok [3, 4] := by
  decide +kernel

/-! ## C27: reading one coordinate -/

theorem filter_name_append (l m : List Node) (k : String) :
    (l ++ m).filter (fun x => decide (x.name = k)) =
      l.filter (fun x => decide (x.name = k)) ++ m.filter (fun x => decide (x.name = k)) :=
  List.filter_append ..

/-- C27, the part that holds: if nothing in the vector is called x or y (as when it is new),
`vector['x']` and `vector.x` are x afterwards, to ten decimals, and likewise y. -/
theorem c27_coordinate_partial {F : Fl} (hF : F.Lawful) (n : Node) (hn : n.isTag = true)
    (hfree : ∀ t ∈ Node.nodesIn n.kids, t.name ≠ "x" ∧ t.name ≠ "y")
    (hfree' : ∀ k ∈ n.kids, k.name ≠ "x" ∧ k.name ≠ "y") (x y : ℚ) :
    ∃ x' y', NearTen x' x ∧ NearTen y' y ∧
      vectorGet F (setValue F .vector (.tuple [.float x, .float y]) n).1 "x" = .ok x' ∧
      vectorGet F (setValue F .vector (.tuple [.float x, .float y]) n).1 "y" = .ok y' ∧
      vectorAttr F (setValue F .vector (.tuple [.float x, .float y]) n).1 "x" = .ok x' ∧
      vectorAttr F (setValue F .vector (.tuple [.float x, .float y]) n).1 "y" = .ok y' := by
  cases n with
  | text t => simp [Node.isTag] at hn
  | tag nm a ks =>
    rw [setVector_pair]
    refine ⟨_, _, fixed_read_err hF 10 x, fixed_read_err hF 10 y, ?_⟩
    simp only [Node.kids] at hfree hfree'
    have f1 : ∀ k, (k = "x" ∨ k = "y") →
        (ks.filter Node.isTag).filter (fun t => decide (t.name = k)) = [] := by
      intro k hk
      rw [List.filter_eq_nil_iff]
      intro t ht
      have := hfree' t (List.mem_filter.1 ht).1
      rcases hk with rfl | rfl <;> simp [this]
    have f2 : ∀ k, (k = "x" ∨ k = "y") →
        ((Node.nodesIn ks).filter Node.isTag).filter (fun t => decide (t.name = k)) = [] := by
      intro k hk
      rw [List.filter_eq_nil_iff]
      intro t ht
      have := hfree t (List.mem_filter.1 ht).1
      rcases hk with rfl | rfl <;> simp [this]
    have hin : ∀ l m, Node.nodesIn (l ++ m) = Node.nodesIn l ++ Node.nodesIn m := by
      intro l m
      induction l with
      | nil => rfl
      | cons c l ih => simp [Node.nodesIn, ih]
    have hp := fun q => pyFloat_fixed F 10 (by norm_num : (10:ℕ) ≠ 0) q
    have g : ∀ k, (k = "x" ∨ k = "y") → vectorGet F (.tag "vector" []
        (ks ++ [coordTag "x" x, coordTag "y" y])) k =
        if k = "x" then .ok (F.rnd (dec 10 x)) else .ok (F.rnd (dec 10 y)) := by
      intro k hk
      simp only [vectorGet, Node.tagKids, Node.kids, List.filter_append, f1 k hk, List.nil_append]
      rcases hk with rfl | rfl <;>
        simp [coordTag, Node.isTag, Node.name, floatOpt, Node.string?, Node.stringKids?, hp]
    have h : ∀ k, (k = "x" ∨ k = "y") → vectorAttr F (.tag "vector" []
        (ks ++ [coordTag "x" x, coordTag "y" y])) k =
        if k = "x" then .ok (F.rnd (dec 10 x)) else .ok (F.rnd (dec 10 y)) := by
      intro k hk
      simp only [vectorAttr, Node.find, Node.findAll, Node.descTags, Node.kids, hin,
        List.filter_append, f2 k hk, List.nil_append]
      rcases hk with rfl | rfl <;>
        simp [coordTag, Node.nodesIn, Node.subtree, Node.isTag, Node.name, Node.allText,
          Node.allTextKids, hp]
    refine ⟨g "x" (.inl rfl), g "y" (.inr rfl), h "x" (.inl rfl), h "y" (.inr rfl)⟩

/-- C27's hypotheses are met by a new vector. -/
example : vectorGet double (setValue double .vector (.tuple [.float 3, .float 4])
    (emptyTag .vector)).1 "x" = .ok 3 := by
  decide +kernel

/-- C27, violated: if the vector already had a coordinate of that name, then setting the vector
never changes what `vector['x']` reads. -/
theorem c27_old_coordinate_stays (F : Fl) (n : Node) (hn : n.isTag = true) (k : String)
    (hk : ∃ t ∈ n.tagKids, t.name = k) (x y : ℚ) :
    (setValue F .vector (.tuple [.float x, .float y]) n).2 = .ok () ∧
    vectorGet F (setValue F .vector (.tuple [.float x, .float y]) n).1 k = vectorGet F n k := by
  cases n with
  | text t => simp [Node.isTag] at hn
  | tag nm a ks =>
    rw [setVector_pair]
    refine ⟨rfl, ?_⟩
    obtain ⟨t, ht, hname⟩ := hk
    have hne : (Node.tag nm a ks).tagKids.filter (fun x => decide (x.name = k)) ≠ [] := by
      apply List.ne_nil_of_mem (a := t)
      rw [List.mem_filter]; exact ⟨ht, by simpa using hname⟩
    simp only [Node.tagKids, Node.kids] at hne
    simp only [vectorGet, Node.tagKids, Node.kids, List.filter_append]
    cases hc : (ks.filter Node.isTag).filter (fun x => decide (x.name = k)) with
    | nil => exact absurd hc hne
    | cons c r => rfl

/-- C27 violated, concretely: the vector (1, 2) set to (3, 4) has x = 1, though its tuple is
(3, 4). -/
example : vectorGet double (setValue double .vector (.tuple [.float 3, .float 4])
    (.tag "vector" [] [coordTag "x" 1, coordTag "y" 2])).1 "x" = .ok 1 := by
  decide +kernel

end Sang
