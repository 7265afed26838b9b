import Verif.Props.Frame
import Verif.Props.Program
import Verif.Lemmas.XmlParse

/-!
# C138: what a change does to the text of the file

The text of the document is what `save` writes (`docText`). A statement about one thing changes a single
stretch of it.
-/

namespace Sang
open Spec

/-! ## The text of a document around one element -/

theorem xmlKids_append (F : Fl) (e : Node → Bool) (l r : List Node) :
    Node.xmlKids F e (l ++ r) = Node.xmlKids F e l ++ Node.xmlKids F e r := by
  induction l with
  | nil => simp [Node.xmlKids]
  | cons x l ih => simp [Node.xmlKids, ih]

theorem xml_around (F : Fl) (e : Node → Bool) (n : String) (a : Attrs) {ks : List Node} {i : ℕ} {x : Node}
    (h : ks[i]? = some x) :
    ∃ A B, ∀ y, Node.xml F e (.tag n a (ks.set i y)) = A ++ Node.xml F e y ++ B := by
  obtain ⟨hi, hx⟩ := List.getElem?_eq_some_iff.1 h
  refine ⟨'<' :: n.toList ++ (sortAttrs a).flatMap (attrText F) ++ '>' :: Node.xmlKids F e (ks.take i),
    Node.xmlKids F e (ks.drop (i + 1)) ++ '<' :: '/' :: n.toList ++ ['>'], fun y => ?_⟩
  have hs : ks.set i y = ks.take i ++ y :: ks.drop (i + 1) := List.set_eq_take_append_cons_drop.trans (if_pos hi)
  have hne : (ks.set i y).isEmpty = false := by rw [hs]; simp
  rw [Node.xml, hne, Bool.false_and, if_neg (by decide), hs, xmlKids_append, Node.xmlKids]
  simp

theorem xml_actAt (F : Fl) (e : Node → Bool) : ∀ {p : Place} {d x : Node}, nodeAt p d = some x →
    ∃ A B, ∀ g, Node.xml F e (actAt g p d).1 = A ++ Node.xml F e (g x).1 ++ B
  | [], d, x, h => by
    rw [nodeAt] at h
    injection h with h
    subst h
    exact ⟨[], [], fun g => by simp [actAt]⟩
  | i :: p, .text s, x, h => by simp [nodeAt, Node.kids] at h
  | i :: p, .tag n a ks, x, h => by
    rw [nodeAt_cons, Node.kids] at h
    cases hk : ks[i]? with
    | none => rw [hk] at h; cases h
    | some y =>
      rw [hk] at h
      obtain ⟨A, B, hAB⟩ := xml_actAt F e (p := p) (d := y) (x := x) h
      obtain ⟨C, D, hCD⟩ := xml_around F e n a hk
      refine ⟨C ++ A, B ++ D, fun g => ?_⟩
      rw [actAt, hk]
      simp only [hCD, hAB, List.append_assoc]

theorem actAt_keep {p : Place} {d x : Node} (h : nodeAt p d = some x) :
    (actAt (fun n => (n, .ok ())) p d).1 = d := by
  induction p generalizing d with
  | nil => rfl
  | cons i p ih =>
    cases d with
    | text s => simp [nodeAt, Node.kids] at h
    | tag n a ks =>
      rw [nodeAt_cons, Node.kids] at h
      cases hk : ks[i]? with
      | none => rw [hk] at h; cases h
      | some y =>
        rw [hk] at h
        rw [actAt, hk]
        simp only [ih h]
        obtain ⟨hi, rfl⟩ := List.getElem?_eq_some_iff.1 hk
        simp

/-- C138. Whatever is done to the element at some place of a document, however often: what `save` writes
before it and after it stays, character for character. -/
theorem c138_only_that_element (F : Fl) (e : Node → Bool) {p : Place} {d x : Node} (h : nodeAt p d = some x) :
    ∃ A B, docText F e d = A ++ x.xml F e ++ B ∧
      ∀ g, docText F e (actAt g p d).1 = A ++ (g x).1.xml F e ++ B := by
  obtain ⟨A, B, hAB⟩ := xml_actAt F e h
  obtain ⟨H, hH⟩ : ∃ H, ∀ n, docText F e n = H ++ n.xml F e := ⟨_, fun _ => rfl⟩
  refine ⟨H ++ A, B, ?_, fun g => ?_⟩
  · have := hAB fun n => (n, .ok ())
    rw [actAt_keep h] at this
    simp [hH, this]
  · simp [hH, hAB g]

/-! ## Params -/

/-- What statements about a param do to its value, in any layer. -/
theorem step_value (F : Fl) {f : Str} {n p : Node} (hp : findParam f n = some p) {s : Str} {c : VCls} {v : Node}
    (hv : nameAndValue p = .ok (s, c, v)) (st : Step) (ha : st.about = .param f) :
    ∃ v', (st.run F n).1 = updFirst (isParam f) (replaceValue v') n := by
  have hself : n = updFirst (isParam f) (replaceValue v) n := by
    obtain ⟨q, i, -, hat, -, hg⟩ := value_place hp hv
    rw [hg v]
    have := actAt_congr (g := fun _ => (v, .ok ())) (g' := fun n => (n, .ok ())) hat rfl
    rw [this, actAt_keep hat]
  have hkid : p.tagKids = [v] ∧ fromTag v = .ok c := by
    rw [nameAndValue] at hv
    split at hv
    · cases hv
    · split at hv
      · cases hv
      · split at hv
        · split at hv
          · cases hv
          · rename_i w hw _ c' hc
            injection hv with hv; injection hv with _ hv; injection hv with h1 h2
            subst h1; subst h2
            exact ⟨hw, hc⟩
        · cases hv
      · cases hv
  cases st with
  | subscript g x =>
    simp only [Step.about, Thing.param.injEq] at ha
    subst ha
    simp only [Step.run, setParam, hp, hv]
    cases newItem F c x with
    | error e => exact ⟨v, hself⟩
    | ok m => exact ⟨m, rfl⟩
  | field k c' d x =>
    simp only [Step.about, Thing.param.injEq] at ha
    subst ha
    simp only [Step.run, setField, fieldValue, hp, hkid.1, hkid.2]
    exact ⟨_, rfl⟩
  | value g act =>
    simp only [Step.about, Thing.param.injEq] at ha
    subst ha
    simp only [Step.run, onParam, hp, hv]
    exact ⟨_, rfl⟩
  | desc x => cases ha
  | active x => cases ha
  | exclude x => cases ha
  | version x => cases ha

/-- C138. Whatever statement sets, animates or otherwise changes the parameter `f` of a layer anywhere in
a document (and whether or not it raises an exception): of what `save` writes, only the stretch that was
the text of the parameter's value is replaced, by the text of another element. -/
theorem c138_only_the_value (F : Fl) (e : Node → Bool) {p : Place} {d n : Node} (h : nodeAt p d = some n)
    {f : Str} {c : VCls} {v : Node} (hv : getParam f n = .ok (c, v)) :
    ∃ A B, docText F e d = A ++ v.xml F e ++ B ∧
      ∀ s : Step, s.about = .param f →
        ∃ v' : Node, docText F e (actAt (s.run F) p d).1 = A ++ v'.xml F e ++ B := by
  rw [getParam] at hv
  cases hp : findParam f n with
  | none => rw [hp] at hv; cases hv
  | some q =>
    rw [hp] at hv
    cases hq : nameAndValue q with
    | error er => simp only [hq] at hv; cases hv
    | ok r =>
      obtain ⟨t, c', v'⟩ := r
      simp only [hq] at hv
      injection hv with hv; injection hv with h1 h2; subst h1; subst h2
      obtain ⟨w, i, -, hat, -, hg⟩ := value_place hp hq
      have hat' : nodeAt (p ++ (w ++ [i])) d = some v' := by
        rw [nodeAt_append, h]; exact hat
      obtain ⟨A, B, h0, hAB⟩ := c138_only_that_element F e hat'
      refine ⟨A, B, h0, fun s hs => ?_⟩
      obtain ⟨m, hm⟩ := step_value F hp hq s hs
      refine ⟨m, ?_⟩
      have := hAB fun _ => (m, .ok ())
      rw [actAt_append p (w ++ [i]) h] at this
      rw [← this]
      congr 1
      refine actAt_congr h ?_
      rw [hm, hg m]

/-! ## Attributes -/

theorem sortAttrs_congr {a b : Attrs} (h : a.Perm b) (ha : (a.map Prod.fst).Nodup) : sortAttrs a = sortAttrs b := by
  refine List.Perm.eq_of_pairwise (le := fun p q : String × AttrV => p.1 ≤ q.1) ?_
    (List.pairwise_insertionSort _ a) (List.pairwise_insertionSort _ b)
    ((sortAttrs_perm a).trans (h.trans (sortAttrs_perm b).symm))
  intro x y hx hy h1 h2
  have hx' : x ∈ a := (sortAttrs_perm a).mem_iff.1 hx
  have hy' : y ∈ a := h.mem_iff.2 ((sortAttrs_perm b).mem_iff.1 hy)
  exact List.inj_on_of_nodup_map ha hx' hy' (le_antisymm h1 h2)

/-- Attributes in order, around one of them. -/
theorem sortAttrs_around {a : Attrs} (ha : (a.map Prod.fst).Nodup) (k : String) :
    sortAttrs a = sortAttrs (a.filter fun p => p.1 < k) ++ (a.filter fun p => p.1 = k) ++
      sortAttrs (a.filter fun p => k < p.1) := by
  refine List.Perm.eq_of_pairwise (le := fun p q : String × AttrV => p.1 ≤ q.1) ?_
    (List.pairwise_insertionSort _ a) ?_ ?_
  · intro x y hx hy h1 h2
    have hx' : x ∈ a := (sortAttrs_perm a).mem_iff.1 hx
    have hy' : y ∈ a := by
      rcases List.mem_append.1 hy with hy | hy
      · rcases List.mem_append.1 hy with hy | hy
        · exact List.mem_of_mem_filter ((sortAttrs_perm _).mem_iff.1 hy)
        · exact List.mem_of_mem_filter hy
      · exact List.mem_of_mem_filter ((sortAttrs_perm _).mem_iff.1 hy)
    exact List.inj_on_of_nodup_map ha hx' hy' (le_antisymm h1 h2)
  · have m1 : ∀ x ∈ sortAttrs (a.filter fun p => p.1 < k), x.1 < k := fun x hx => by
      simpa using List.of_mem_filter ((sortAttrs_perm _).mem_iff.1 hx)
    have m2 : ∀ x ∈ a.filter (fun p => p.1 = k), x.1 = k := fun x hx => by
      simpa using List.of_mem_filter hx
    have m3 : ∀ x ∈ sortAttrs (a.filter fun p => k < p.1), k < x.1 := fun x hx => by
      simpa using List.of_mem_filter ((sortAttrs_perm _).mem_iff.1 hx)
    rw [List.pairwise_append, List.pairwise_append]
    refine ⟨⟨List.pairwise_insertionSort _ _, ?_, ?_⟩, List.pairwise_insertionSort _ _, ?_⟩
    · refine List.Pairwise.imp_of_mem ?_ (List.pairwise_of_forall (R := fun _ _ => True) fun _ _ => trivial)
      intro x y hx hy _
      rw [m2 x hx, m2 y hy]
    · intro x hx y hy
      rw [m2 y hy]; exact (m1 x hx).le
    · intro x hx y hy
      rcases List.mem_append.1 hx with hx | hx
      · exact ((m1 x hx).trans (m3 y hy)).le
      · rw [m2 x hx]; exact (m3 y hy).le
  · refine (sortAttrs_perm a).trans ?_
    refine List.Perm.trans ?_ (((sortAttrs_perm _).symm.append_right _).append (sortAttrs_perm _).symm)
    clear ha
    induction a with
    | nil => simp
    | cons x r ih =>
      rcases lt_trichotomy x.1 k with hx | hx | hx
      · rw [List.filter_cons_of_pos (by simpa using hx), List.filter_cons_of_neg (by simpa using hx.ne),
          List.filter_cons_of_neg (by simp only [decide_eq_true_eq]; exact not_lt.2 hx.le)]
        exact ih.cons x
      · rw [List.filter_cons_of_neg (by simp [hx]), List.filter_cons_of_pos (by simpa using hx),
          List.filter_cons_of_neg (by simp [hx])]
        refine (ih.cons x).trans ?_
        simp only [List.append_assoc, List.cons_append]
        exact (List.perm_middle).symm
      · rw [List.filter_cons_of_neg (by simp only [decide_eq_true_eq]; exact not_lt.2 hx.le), List.filter_cons_of_neg (by simpa using hx.ne'),
          List.filter_cons_of_pos (by simpa using hx)]
        refine (ih.cons x).trans ?_
        exact (List.perm_middle).symm

/-- The text of an attribute, with the space before it; nothing if there isn't one. -/
def attrStretch (F : Fl) (a : Attrs) (k : String) : Str :=
  match a.get k with
  | none => []
  | some v => attrText F (k, v)

theorem filter_key {a : Attrs} (ha : (a.map Prod.fst).Nodup) (k : String) :
    (a.filter fun p => p.1 = k) = match a.get k with
      | none => []
      | some v => [(k, v)] := by
  induction a with
  | nil => rfl
  | cons x r ih =>
    obtain ⟨j, w⟩ := x
    simp only [List.map_cons, List.nodup_cons] at ha
    by_cases hj : j = k
    · subst hj
      have hnone : r.filter (fun p => p.1 = j) = [] := by
        rw [List.filter_eq_nil_iff]
        intro p hp hpj
        exact ha.1 (List.mem_map.2 ⟨p, hp, by simpa using hpj⟩)
      rw [List.filter_cons_of_pos (by simp), hnone]
      simp [Attrs.get]
    · rw [List.filter_cons_of_neg (by simpa using hj), ih ha.2]
      have : Attrs.get ((j, w) :: r) k = Attrs.get r k := by
        have hkj : (k == j) = false := by simpa using Ne.symm hj
        simp [Attrs.get, List.lookup, hkj]
      rw [this]

theorem attrs_around (F : Fl) {a b : Attrs} (ha : (a.map Prod.fst).Nodup) (hb : (b.map Prod.fst).Nodup)
    {k : String} (h : ∀ q : String → Bool, q k = false → (a.filter fun p => q p.1).Perm (b.filter fun p => q p.1)) :
    ∃ A B, (sortAttrs a).flatMap (attrText F) = A ++ attrStretch F a k ++ B ∧
      (sortAttrs b).flatMap (attrText F) = A ++ attrStretch F b k ++ B := by
  have hnd : ∀ q : String → Bool, ((a.filter fun p => q p.1).map Prod.fst).Nodup := fun q =>
    ha.sublist (List.filter_sublist.map _)
  have e1 := sortAttrs_congr (h (fun s => s < k) (by simp)) (hnd fun s => s < k)
  have e2 := sortAttrs_congr (h (fun s => k < s) (by simp)) (hnd fun s => k < s)
  refine ⟨(sortAttrs (a.filter fun p => p.1 < k)).flatMap (attrText F),
    (sortAttrs (a.filter fun p => k < p.1)).flatMap (attrText F), ?_, ?_⟩
  · rw [sortAttrs_around ha k, filter_key ha]
    simp only [List.flatMap_append, attrStretch]
    cases a.get k <;> simp
  · rw [sortAttrs_around hb k, filter_key hb]
    rw [e1, e2]
    simp only [List.flatMap_append, attrStretch]
    cases b.get k <;> simp

theorem filter_dictSet {q : String → Bool} {k : String} (hq : q k = false) (v : AttrV) (a : Attrs) :
    (dictSet k v a).filter (fun p => q p.1) = a.filter (fun p => q p.1) := by
  induction a with
  | nil => simp [dictSet, hq]
  | cons x r ih =>
    obtain ⟨j, w⟩ := x
    rw [dictSet]
    by_cases hj : j = k
    · subst hj
      simp [hq]
    · rw [if_neg hj]
      by_cases hqj : q j = true
      · rw [List.filter_cons_of_pos (by simpa using hqj), List.filter_cons_of_pos (by simpa using hqj), ih]
      · rw [List.filter_cons_of_neg (by simpa using hqj), List.filter_cons_of_neg (by simpa using hqj), ih]

/-- Setting or removing an attribute of the element at some place replaces the text of that attribute. -/
theorem attr_stretch (F : Fl) (e : Node → Bool) {p : Place} {d n : Node} (h : nodeAt p d = some n)
    (hnd : (n.attrs.map Prod.fst).Nodup) (he : ∀ a b : Attrs, ∀ m ks, e (.tag m a ks) = e (.tag m b ks))
    {g : Node → Node × Res Unit} {k : String} (hact : ActsOnAttr g k) :
    ∃ A B, docText F e d = A ++ attrStretch F n.attrs k ++ B ∧
      docText F e (actAt g p d).1 = A ++ attrStretch F (g n).1.attrs k ++ B := by
  obtain ⟨C, D, h0, hCD⟩ := c138_only_that_element F e h
  rw [h0, hCD]
  cases n with
  | text t =>
    have : (g (.text t)).1 = .text t := by
      rcases hact with ⟨er, h⟩ | ⟨a, h⟩ | h <;> rw [h] <;> rfl
    rw [this]
    exact ⟨C ++ Node.xml F e (.text t), D, by simp [attrStretch, Node.attrs, Attrs.get], by
      simp [attrStretch, Node.attrs, Attrs.get]⟩
  | tag nm a ks =>
    obtain ⟨b, hb, hbn, hperm⟩ : ∃ b, (g (.tag nm a ks)).1 = .tag nm b ks ∧ (b.map Prod.fst).Nodup ∧
        ∀ q : String → Bool, q k = false → (a.filter fun p => q p.1).Perm (b.filter fun p => q p.1) := by
      rcases hact with ⟨er, h⟩ | ⟨v, h⟩ | h
      · exact ⟨a, by rw [h], hnd, fun _ _ => .refl _⟩
      · exact ⟨dictSet k v a, by rw [h]; rfl, (dictSet_keys_nodup k v a hnd).1, fun q hq => by
          rw [filter_dictSet hq]⟩
      · refine ⟨a.filter fun p => p.1 ≠ k, by rw [h]; rfl, List.Nodup.sublist (List.filter_sublist.map _) hnd,
          fun q hq => ?_⟩
        rw [List.filter_filter]
        refine List.Perm.of_eq (List.filter_congr fun p _ => ?_)
        by_cases hpk : p.1 = k
        · simp [hpk, hq]
        · simp [hpk]
    obtain ⟨A, B, hA, hB⟩ := attrs_around F (k := k) hnd hbn hperm
    rw [hb]
    refine ⟨C ++ ('<' :: nm.toList ++ A), B ++ (if ks.isEmpty && e (.tag nm a ks) then "/>".toList
      else '>' :: Node.xmlKids F e ks ++ '<' :: '/' :: nm.toList ++ ['>']) ++ D, ?_, ?_⟩
    · simp only [Node.attrs] at hA ⊢
      rw [Node.xml, hA]
      simp only [List.append_assoc, List.cons_append]
    · simp only [Node.attrs]
      rw [Node.xml, hB, he b a]
      simp only [List.append_assoc, List.cons_append]

/-- C138. Whatever statement sets or removes an attribute of a layer anywhere in a document -- its
description, whether it is active or excluded from rendering, its version: of what `save` writes, only the
stretch that was the text of that attribute is replaced (or removed, or put in if there was none), by that of
the attribute as it is now. The layer has at most one attribute of each name. -/
theorem c138_only_the_attribute (F : Fl) (e : Node → Bool) {p : Place} {d n : Node} (h : nodeAt p d = some n)
    (hnd : (n.attrs.map Prod.fst).Nodup) (he : ∀ a b : Attrs, ∀ m ks, e (.tag m a ks) = e (.tag m b ks))
    (s : Step) (k : String) (hs : s.about = .attr k) :
    ∃ A B, docText F e d = A ++ attrStretch F n.attrs k ++ B ∧
      docText F e (actAt (s.run F) p d).1 = A ++ attrStretch F (s.run F n).1.attrs k ++ B := by
  have hact : ActsOnAttr (s.run F) k := by
    cases s with
    | desc x => cases hs; exact acts_desc F x
    | active x => cases hs; exact acts_bool F _ x
    | exclude x => cases hs; exact acts_bool F _ x
    | version x => cases hs; exact acts_version F x
    | _ => cases hs
  exact attr_stretch F e h hnd he hact

/-- C138. Setting a field of the animation's header (or its end time) replaces, or puts in, the text of that attribute of the root
only. The root has at most one attribute of each name. -/
theorem c138_header (F : Fl) (e : Node → Bool) {d : Node} (hnd : (d.attrs.map Prod.fst).Nodup)
    (he : ∀ a b : Attrs, ∀ m ks, e (.tag m a ks) = e (.tag m b ks)) (v : PV) :
    (∀ f ∈ headerFields, ∃ A B, docText F e d = A ++ attrStretch F d.attrs f.name ++ B ∧
      docText F e (setHeader F f v d).1 = A ++ attrStretch F (setHeader F f v d).1.attrs f.name ++ B) ∧
    ∃ A B, docText F e d = A ++ attrStretch F d.attrs "end_time" ++ B ∧
      docText F e (setEndTime F v d).1 = A ++ attrStretch F (setEndTime F v d).1.attrs "end_time" ++ B := by
  refine ⟨fun f _ => attr_stretch F e (p := []) rfl hnd he (g := setHeader F f v) ?_,
    attr_stretch F e (p := []) rfl hnd he (g := setEndTime F v) ?_⟩
  · cases hw : f.type.write F v with
    | error er => exact .inl ⟨er, fun n => by simp [setHeader, hw]⟩
    | ok a => exact .inr (.inl ⟨a, fun n => by simp [setHeader, hw]⟩)
  · cases hw : v.toStr F with
    | error er => exact .inl ⟨er, fun n => by simp [setEndTime, hw]⟩
    | ok a => exact .inr (.inl ⟨.str a, fun n => by simp [setEndTime, hw]⟩)

/-- A root with a width, which is set. -/
example : ∃ A B : Str,
    docText double (fun _ => true) (.tag "canvas" [("fps", .str "24".toList), ("width", .str "480".toList)] []) =
      A ++ " width=\"480\"".toList ++ B ∧
    docText double (fun _ => true) (setHeader double ⟨"width", .int, .int 480⟩ (.int 640)
      (.tag "canvas" [("fps", .str "24".toList), ("width", .str "480".toList)] [])).1 = A ++ " width=\"640\"".toList ++ B :=
  (c138_header double (fun _ => true) (d := .tag "canvas" [("fps", .str "24".toList), ("width", .str "480".toList)] [])
    (by decide) (fun _ _ _ _ => rfl) (.int 640)).1 ⟨"width", .int, .int 480⟩ (by simp [headerFields])

/-! ## Layers -/

theorem xml_nonempty (F : Fl) (e : Node → Bool) (n : String) (a : Attrs) :
    ∃ A B, ∀ ks, ks ≠ [] → Node.xml F e (.tag n a ks) = A ++ Node.xmlKids F e ks ++ B := by
  refine ⟨'<' :: n.toList ++ (sortAttrs a).flatMap (attrText F) ++ ['>'],
    '<' :: '/' :: n.toList ++ ['>'], fun ks hks => ?_⟩
  have : ks.isEmpty = false := by cases ks with
    | nil => exact absurd rfl hks
    | cons => rfl
  rw [Node.xml, this, Bool.false_and, if_neg (by decide)]
  simp

theorem xml_holder (F : Fl) (e : Node → Bool) (h : Holder) :
    ∃ A B, ∀ ks, ks ≠ [] → Node.xml F e (h.plug ks) = A ++ Node.xmlKids F e ks ++ B := by
  cases h with
  | animation n a => exact xml_nonempty F e n a
  | group f =>
    obtain ⟨A1, B1, h1⟩ := xml_nonempty F e f.name f.attrs
    obtain ⟨A2, B2, h2⟩ := xml_nonempty F e "param" f.pattrs
    obtain ⟨A3, B3, h3⟩ := xml_nonempty F e "canvas" f.cattrs
    refine ⟨A1 ++ (Node.xmlKids F e f.pre ++ (A2 ++ (Node.xmlKids F e f.ppre ++ A3))),
      B3 ++ (Node.xmlKids F e f.ppost ++ B2) ++ (Node.xmlKids F e f.post ++ B1), fun ks hks => ?_⟩
    simp only [Holder.plug, Frame.plug]
    rw [h1 _ (by simp), xmlKids_append, Node.xmlKids, h2 _ (by simp), xmlKids_append, Node.xmlKids, h3 _ hks]
    simp only [List.append_assoc]

/-- C138. Appending or inserting a layer, at a group anywhere in a document or at the animation itself,
which isn't quite empty: in what `save` writes the text of the layer (and for `insert` a line break on
either side) is put in at one point, and nothing else changes. -/
theorem c138_layer_is_put_in (F : Fl) (e : Node → Bool) {p : Place} {d : Node} {h : Holder} (hok : h.Ok)
    {ks : List Node} (hks : ks ≠ []) (hat : nodeAt p d = some (h.plug ks)) (l : List LObj)
    (hl : children h.kind (h.plug ks) = .ok l) (x : Node) (hx : isLayerElt x = true) (c : LClass)
    (hc : layerOf x = .ok c) :
    (∃ A B, docText F e d = A ++ B ∧
      docText F e (actAt (groupAppend h.kind (.layer x)) p d).1 = A ++ x.xml F e ++ B) ∧
    ∀ i : ℤ, (0 ≤ position l.length i ∧ position l.length i < l.length) →
      ∃ A B, docText F e d = A ++ B ∧
        docText F e (actAt (groupInsert h.kind i (.layer x)) p d).1 =
          A ++ (['\n'] ++ x.xml F e ++ ['\n']) ++ B := by
  obtain ⟨C, D, h0, hCD⟩ := c138_only_that_element F e hat
  obtain ⟨P, Q, hPQ⟩ := xml_holder F e h
  have key : ∀ (a ys b : List Node), ks = a ++ b → ys ≠ [] →
      ∃ A B, docText F e d = A ++ B ∧
        C ++ Node.xml F e (h.plug (a ++ ys ++ b)) ++ D = A ++ Node.xmlKids F e ys ++ B := by
    intro a ys b hab hys
    refine ⟨C ++ P ++ Node.xmlKids F e a, Node.xmlKids F e b ++ Q ++ D, ?_, ?_⟩
    · rw [h0, hPQ ks hks, hab, xmlKids_append]
      simp only [List.append_assoc]
    · rw [hPQ _ (by simp [hys]), xmlKids_append, xmlKids_append]
      simp only [List.append_assoc]
  constructor
  · obtain ⟨a, b, hab, hrun, -⟩ := c45_append_puts_last hok ks l hl x hx c hc
    obtain ⟨A, B, h1, h2⟩ := key a [x] b hab (by simp)
    refine ⟨A, B, h1, ?_⟩
    rw [hCD, hrun]
    simp only [List.append_assoc, List.cons_append, List.nil_append] at h2
    simp only [List.append_assoc, h2, Node.xmlKids, List.append_nil]
  · rintro i ⟨hi0, hi1⟩
    obtain ⟨j, hj⟩ := Int.eq_ofNat_of_zero_le hi0
    obtain ⟨a, b, hab, hrun, -⟩ := c46_insert hok ks l hl x hx c hc i j (by omega) hj
    obtain ⟨A, B, h1, h2⟩ := key a [.text ['\n'], x, .text ['\n']] b hab (by simp)
    refine ⟨A, B, h1, ?_⟩
    rw [hCD, hrun, h2]
    have e1 : escapeXml ['\n'] = ['\n'] := by decide
    simp only [Node.xmlKids, Node.xml, e1, List.append_assoc, List.append_nil]

/-- A document with a circle in it. -/
def exDoc : Node := .tag "canvas" [] [.text ['\n'], exCircle]

/-- The hypotheses of the first three are met by that circle and its radius, description and activity; and
of the last by the document as a whole. -/
example : nodeAt [1] exDoc = some exCircle ∧
    (getParam "radius".toList exCircle).map Prod.snd = .ok (exRealTag "2.0") ∧
    Step.about (.subscript "radius".toList (.float 3)) = .param "radius".toList ∧
    (exCircle.attrs.map Prod.fst).Nodup ∧ Step.about (.active (.bool false)) = .attr "active" ∧
    exDoc = Holder.plug (.animation "canvas" []) [.text ['\n'], exCircle] ∧
    (children .animation exDoc).isOk = true := by
  refine ⟨by decide +kernel, by decide +kernel, rfl, by decide +kernel, rfl, rfl, by decide +kernel⟩

/-- And the text does change. -/
example : exCircle.xml double (fun _ => true) ≠
    ((Step.subscript "radius".toList (.float 3)).run double exCircle).1.xml double (fun _ => true) ∧
    attrStretch double ((Step.active (.bool false)).run double exCircle).1.attrs "active" =
      " active=\"false\"".toList := by
  constructor <;> decide +kernel

end Sang
