import Verif.Group

/-! # Lemmas about finding and changing elements in place -/

namespace Sang

theorem nodesIn_append (l m : List Node) :
    Node.nodesIn (l ++ m) = Node.nodesIn l ++ Node.nodesIn m := by
  induction l with
  | nil => simp [Node.nodesIn]
  | cons x l ih => simp [Node.nodesIn, ih]

theorem nodesIn_cons (x : Node) (l : List Node) :
    Node.nodesIn (x :: l) = x.subtree ++ Node.nodesIn l := rfl

theorem subtree_tag (n : String) (a : Attrs) (ks : List Node) :
    (Node.tag n a ks).subtree = .tag n a ks :: Node.nodesIn ks := rfl

theorem mem_nodesIn_of_mem {x : Node} {l : List Node} (h : x ∈ l) : x ∈ Node.nodesIn l := by
  induction l with
  | nil => simp at h
  | cons y l ih =>
    rw [nodesIn_cons]
    rcases List.mem_cons.1 h with rfl | h
    · cases x <;> simp [Node.subtree]
    · simp [ih h]

/-- Something that matches elements only. -/
def TagOnly (p : Node → Bool) : Prop := ∀ s, p (.text s) = false

theorem tagOnly_isParam (f : Str) : TagOnly (isParam f) := by
  intro s; simp [isParam, Node.name]

theorem filter_isTag {p : Node → Bool} (hp : TagOnly p) (l : List Node) :
    (l.filter Node.isTag).filter p = l.filter p := by
  rw [List.filter_filter]
  apply List.filter_congr
  intro x _
  cases x with
  | text s => simp [hp s]
  | tag n a ks => simp [Node.isTag]

/-- Nothing in `l` or below matches. -/
def NoneIn (p : Node → Bool) (l : List Node) : Prop := ∀ y ∈ Node.nodesIn l, p y = false

theorem NoneIn.filter {p : Node → Bool} {l : List Node} (h : NoneIn p l) :
    (Node.nodesIn l).filter p = [] := by
  rw [List.filter_eq_nil_iff]; intro y hy; simp [h y hy]

mutual
theorem updNode_none (p : Node → Bool) (g : Node → Node) (n : Node)
    (h : ∀ y ∈ n.subtree, p y = false) : updNode p g n = none := by
  match n, h with
  | .text s, _ => simp [updNode]
  | .tag nm a ks, h =>
    simp only [updNode]
    rw [if_neg (by simp [h (.tag nm a ks) (by simp [Node.subtree])]),
      updKids_none p g ks fun y hy => h y (by simp [Node.subtree, hy])]
    rfl

theorem updKids_none (p : Node → Bool) (g : Node → Node) (l : List Node) (h : NoneIn p l) :
    updKids p g l = none := by
  match l, h with
  | [], _ => simp [updKids]
  | x :: r, h =>
    simp only [updKids]
    rw [updNode_none p g x fun y hy => h y (by simp [nodesIn_cons, hy]),
      updKids_none p g r fun y hy => h y (by simp [nodesIn_cons, hy])]
    rfl
end

theorem updKids_at (p : Node → Bool) (g : Node → Node) (pre post : List Node) (n : String) (a : Attrs)
    (ks : List Node) (h : NoneIn p pre) (hx : p (.tag n a ks) = true) :
    updKids p g (pre ++ .tag n a ks :: post) = some (pre ++ g (.tag n a ks) :: post) := by
  induction pre with
  | nil => simp [updKids, updNode, hx]
  | cons y pre ih =>
    have h1 : ∀ z ∈ y.subtree, p z = false := fun z hz => h z (by simp [nodesIn_cons, hz])
    have h2 : NoneIn p pre := fun z hz => h z (by simp [nodesIn_cons, hz])
    simp [updKids, updNode_none p g y h1, ih h2]

/-- The element found is changed; the rest stays. -/
theorem updFirst_at (p : Node → Bool) (g : Node → Node) (m : String) (b : Attrs) (pre post : List Node)
    (n : String) (a : Attrs) (ks : List Node) (h : NoneIn p pre) (hx : p (.tag n a ks) = true) :
    updFirst p g (.tag m b (pre ++ .tag n a ks :: post)) =
      .tag m b (pre ++ g (.tag n a ks) :: post) := by
  simp [updFirst, updKids_at p g pre post n a ks h hx]

theorem findParam_at (f : Str) (m : String) (b : Attrs) (pre post : List Node) (n : String) (a : Attrs)
    (ks : List Node) (h : NoneIn (isParam f) pre) (hx : isParam f (.tag n a ks) = true) :
    findParam f (.tag m b (pre ++ .tag n a ks :: post)) = some (.tag n a ks) := by
  simp [findParam, Node.descTags, Node.kids, filter_isTag (tagOnly_isParam f), nodesIn_append,
    nodesIn_cons, subtree_tag, h.filter, hx]

theorem findParam_none (f : Str) (n : Node) (h : NoneIn (isParam f) n.kids) : findParam f n = none := by
  simp [findParam, Node.descTags, filter_isTag (tagOnly_isParam f), h.filter]

theorem findParam_some {f : Str} {n p : Node} (h : findParam f n = some p) :
    isParam f p = true ∧ p.isTag = true ∧ p ∈ Node.nodesIn n.kids := by
  have := List.mem_of_mem_head? (by rw [← findParam, h]; rfl : p ∈ (n.descTags.filter (isParam f)).head?)
  rw [List.mem_filter, Node.descTags, List.mem_filter] at this
  exact ⟨this.2, this.1.2, this.1.1⟩

theorem find_at (s : String) (hs : s ≠ "") (m : String) (b : Attrs) (pre post : List Node) (a : Attrs)
    (ks : List Node) (h : ∀ y ∈ Node.nodesIn pre, y.name ≠ s) :
    (Node.tag m b (pre ++ .tag s a ks :: post)).find s = some (.tag s a ks) := by
  have ht : TagOnly (fun x => decide (x.name = s)) := by
    intro t; simpa [Node.name] using hs.symm
  have h' : NoneIn (fun x => decide (x.name = s)) pre := fun y hy => by simp [h y hy]
  rw [Node.find, Node.findAll, Node.descTags, filter_isTag ht]
  show ((Node.nodesIn (pre ++ .tag s a ks :: post)).filter _).head? = _
  rw [nodesIn_append, List.filter_append, h'.filter, nodesIn_cons, subtree_tag, List.nil_append,
    List.cons_append, List.filter_cons_of_pos (by simp [Node.name])]
  rfl

end Sang
