import Verif.DomSearch
import Verif.Props.AttrLoops
import Verif.Props.OwnLoops
import Verif.Props.FindAttr

/-!
# C182: changing what has been searched for

`for x in group.find_all(...): ...`, whatever it is that is looked for.
-/

namespace Sang

open Spec Relation

theorem filterRes_over {α β : Type} (f : α → β) (p : β → Res Bool) : ∀ l : List α,
    filterRes p (l.map f) = (filterRes (fun x => p (f x)) l).map (List.map f) := by
  intro l
  induction l with
  | nil => rfl
  | cons x r ih =>
    rw [List.map_cons, filterRes, filterRes, ih]
    cases p (f x) with
    | error e => rfl
    | ok b =>
      simp only
      cases filterRes (fun x => p (f x)) r with
      | error e => rfl
      | ok l => cases b <;> rfl

theorem filterRes_some {α : Type} {p : α → Res Bool} : ∀ {l m : List α}, filterRes p l = .ok m →
    m.Sublist l ∧ ∀ x ∈ m, p x = .ok true := by
  intro l
  induction l with
  | nil => intro m h; cases h; exact ⟨.slnil, by simp⟩
  | cons x r ih =>
    intro m h
    rw [filterRes] at h
    cases hb : p x with
    | error e => rw [hb] at h; cases h
    | ok b =>
      rw [hb] at h
      simp only at h
      cases hr : filterRes p r with
      | error e => rw [hr] at h; cases h
      | ok l =>
        rw [hr] at h
        simp only [Except.ok.injEq] at h
        obtain ⟨i1, i2⟩ := ih hr
        cases b with
        | true =>
          simp only [if_true] at h
          subst h
          refine ⟨i1.cons_cons x, fun y hy => ?_⟩
          rcases List.mem_cons.1 hy with rfl | hy
          · exact hb
          · exact i2 y hy
        | false =>
          simp only [Bool.false_eq_true, if_false] at h
          subst h
          exact ⟨i1.cons x, i2⟩

theorem asLayers_map {α : Type} (f : α → Node) : ∀ l : List α,
    (mapRes asLayer (l.map f)).map (List.map Prod.snd) = (mapRes (fun x => layerOf (f x)) l).map fun _ => l.map f := by
  intro l
  induction l with
  | nil => rfl
  | cons x r ih =>
    rw [List.map_cons, mapRes, mapRes, asLayer]
    cases layerOf (f x) with
    | error e => rfl
    | ok c =>
      simp only
      cases h1 : mapRes asLayer (r.map f) with
      | error e =>
        rw [h1] at ih
        cases h2 : mapRes (fun x => layerOf (f x)) r with
        | error e' => rw [h2] at ih; simpa [Except.map] using ih
        | ok l' => rw [h2] at ih; cases ih
      | ok l =>
        rw [h1] at ih
        cases h2 : mapRes (fun x => layerOf (f x)) r with
        | error e' => rw [h2] at ih; cases ih
        | ok l' =>
          rw [h2] at ih
          simp only [Except.map, Except.ok.injEq] at ih
          simp [Except.map, ih]

namespace Dom

/-- C182. What is found in memory is what is found in the document, in the same order; or the exception is the same. -/
theorem c182_finds (F : Fl) (d : Defaults) (a : FindArgs) (recursive : Bool) {h : Dom} (hf : Forest h) (z : ℕ) :
    (h.search F d a recursive z).map (List.map h.node) = (findAllLayers F d a recursive (h.node z)).map (List.map Prod.snd) := by
  have htags : ((if recursive then h.desc z else h.kids z).filter fun x => (h.bare x).isTag).map h.node =
      if recursive then (h.node z).descTags else (h.node z).tagKids := by
    have key : ∀ l : List ℕ, (l.filter fun x => (h.bare x).isTag).map h.node = (l.map h.node).filter Node.isTag := by
      intro l
      rw [List.filter_map]
      congr 1
      exact List.filter_congr fun x _ => (bare_shallow hf x).1
    rw [key]
    cases recursive with
    | true => simp only [if_true, Node.descTags]; rw [desc_node hf]
    | false => simp only [Bool.false_eq_true, if_false, Node.tagKids]; rw [node_kids hf]
  rw [search, findAllLayers]
  cases posArg a with
  | error e => rfl
  | ok r =>
    obtain ⟨sp, kw⟩ := r
    simp only
    cases criteria a kw with
    | error e => rfl
    | ok ts =>
      simp only
      rw [← htags, filterRes_over]
      cases filterRes (fun x => matcher F d sp ts (h.node x))
        ((if recursive then h.desc z else h.kids z).filter fun x => (h.bare x).isTag) with
      | error e => rfl
      | ok l =>
        simp only [Except.map]
        have := asLayers_map h.node l
        simp only [← layerOf_bare hf] at this
        cases h2 : mapRes (fun x => layerOf (h.bare x)) l with
        | error e => rw [h2] at this; simpa [Except.map] using this.symm
        | ok l' => rw [h2] at this; simpa [Except.map] using this.symm

/-- C182. What is found is some of the layers below, in the order of the file. -/
theorem c182_some {F : Fl} {d : Defaults} {a : FindArgs} {recursive : Bool} {h : Dom} (hf : Forest h) {z : ℕ} {l : List ℕ}
    (hl : h.search F d a recursive z = .ok l) :
    l.Sublist (h.findLayers z) ∧ ∀ x ∈ l, ∃ cl, layerOf (h.bare x) = .ok cl := by
  rw [search] at hl
  cases h1 : posArg a with
  | error e => rw [h1] at hl; cases hl
  | ok r =>
    obtain ⟨sp, kw⟩ := r
    rw [h1] at hl
    simp only at hl
    cases h2 : criteria a kw with
    | error e => rw [h2] at hl; cases hl
    | ok ts =>
      rw [h2] at hl
      simp only at hl
      cases h3 : filterRes (fun x => matcher F d sp ts (h.node x))
        ((if recursive then h.desc z else h.kids z).filter fun x => (h.bare x).isTag) with
      | error e => rw [h3] at hl; cases hl
      | ok l0 =>
        rw [h3] at hl
        simp only at hl
        cases h4 : mapRes (fun x => layerOf (h.bare x)) l0 with
        | error e => rw [h4] at hl; cases hl
        | ok cs =>
          rw [h4] at hl
          obtain rfl : l0 = l := by simpa using hl
          obtain ⟨f1, f2⟩ := filterRes_some h3
          have hlay : ∀ x ∈ l0, isLayer (h.bare x) = true := fun x hx => by
            have ht := (List.mem_filter.1 (f1.subset hx)).2
            have hm := f2 x hx
            rw [matcher] at hm
            split at hm
            · cases hm
            · next hn =>
              rw [isLayer, ht, (bare_shallow hf x).2.1]
              simpa using hn
          refine ⟨?_, fun x hx => ?_⟩
          · have hsub : (if recursive then h.desc z else h.kids z).Sublist (h.desc z) := by
              cases recursive with
              | true => exact .refl _
              | false => exact kids_sublist hf z
            have : l0.filter (fun x => isLayer (h.bare x)) = l0 := List.filter_eq_self.2 hlay
            rw [← this, findLayers]
            exact ((f1.trans List.filter_sublist).trans hsub).filter _
          · have hm := f2 x hx
            rw [matcher] at hm
            split at hm
            · cases hm
            · rw [layerOf_bare hf]
              cases hc : layerOf (h.node x) with
              | ok cl => exact ⟨cl, rfl⟩
              | error e => simp only [asLayer, hc] at hm; cases hm

section
variable {F : Fl} {d : Defaults} {a : FindArgs} {recursive : Bool} {h : Dom} {z : ℕ} {l : List ℕ}

/-- C182. The loop goes through what was found when it began, whatever is done in it. -/
theorem c182_loop (hl : h.search F d a recursive z = .ok l) (body : ℕ → Dom → Dom × Res Unit) :
    forSearch F d a recursive z body h = forList body l h := by
  rw [forSearch, hl]
  exact overList_eq body l h

/-- C182. If the search raises, so does the loop, and nothing has changed. -/
theorem c182_raises {e : Err} (hl : h.search F d a recursive z = .error e) (body : ℕ → Dom → Dom × Res Unit) :
    forSearch F d a recursive z body h = (h, .error e) := by
  rw [forSearch, hl]

/-- C182. `for x in z.find_all(...): group.append(x)`, for a group or animation that isn't in `z`: `group` has what it had, and after that
what was found, in the order of the file. Others have lost what was found, and nothing else. -/
theorem c182_moved (hf : Forest h) (hl : h.search F d a recursive z = .ok l) {H : Set (GKind × ℕ × ℕ)}
    (hH : ∀ a ∈ H, HolderAt h a.1 a.2.1 a.2.2) {st : ℕ → List ℕ} (hst : ∀ a ∈ H, h.children a.1 a.2.1 = .ok (st a.2.1)) {k : GKind} {g t : ℕ}
    (hg : (k, g, t) ∈ H) (hout : ¬ Within h t z) :
    ∃ h', forSearch F d a recursive z (fun x => Dom.groupAppend k g x) h = (h', .ok ()) ∧ h'.children k g = .ok (st g ++ l) ∧
      ∀ b ∈ H, b.2.1 ≠ g → h'.children b.1 b.2.1 = .ok ((st b.2.1).filter (· ∉ l)) := by
  obtain ⟨s1, s2⟩ := c182_some hf hl
  have hnot : ∀ x ∈ l, x ∉ st g := fun x hx hm => by
    obtain ⟨p1, p2⟩ := child_par hf (hH _ hg) (hst _ hg) hm
    exact hout ((child_found hf p1 p2).1 (s1.subset hx))
  obtain ⟨h', e, hch⟩ := append_each hg l h st hf hH hst (s1.nodup (findLayers_nodup hf z)) fun x hx => by
    obtain ⟨h1, h2⟩ := (mem_findLayers hf).1 (s1.subset hx)
    obtain ⟨d', hd, -⟩ := TransGen.head'_iff.1 h1
    exact ⟨(hf.made d' x hd).2, h2, s2 x hx, hnot x hx, fun hw => hout (hw.trans h1.to_reflTransGen)⟩
  refine ⟨h', (c182_loop hl _).trans e, ?_, fun b hb hne => ?_⟩
  · have := hch _ hg
    simp only [if_true] at this
    rw [this, List.filter_eq_self.2 fun x hx => by simpa using fun hm => hnot x hm hx]
  · rw [hch b hb, if_neg hne, List.append_nil]

/-- C182. `for x in z.find_all(...): x.desc = v`, or `x.active`, `x.exclude_from_rendering`, `x.version`: each of those found is as if it
alone had been assigned to, and nothing else has changed, even if it is by that very field that they were found. -/
theorem c182_assigned (hl : h.search F d a recursive z = .ok l) {at' : EAttr} {v : PV} (hv : ∀ n, (at'.set F v n).2 = .ok ()) :
    ∃ h', forSearch F d a recursive z (fun x => assignAttr F at' v x) h = (h', .ok ()) ∧ Assigned F at' v l h h' := by
  obtain ⟨h', e, as⟩ := assign_each F at' v hv l h
  exact ⟨h', (c182_loop hl _).trans e, as⟩

/-- C181, in part. `for x in z.find_all(...): x[f] = v`, with any arguments, for layers with a parameter `f` of their own, before those
of the layers in them, and with no layer in it that was found. Each has the new value, and nothing has changed that none of the
parameters is in. What is missing is layers without a parameter of their own (C54). -/
theorem c181_search_partial (hf : Forest h) (hl : h.search F d a recursive z = .ok l) {f : Str} {v : PV}
    (hown : ∀ x ∈ l, ∃ p, OwnFirst h x f p ∧ ∀ y ∈ l, ¬ Within h y p)
    (ht : ∀ x ∈ l, ∃ c m, TakesParam F h x f v c m ∧ fromTag m = .ok c) :
    ∃ h', forSearch F d a recursive z (fun x => setPlain F x f v) h = (h', .ok ()) ∧
      (∀ x ∈ l, ∀ c m, TakesParam F h x f v c m → ShowsParam h' x f c m) ∧
      ∀ b, b < h.size → (∀ x ∈ l, ∀ p, OwnFirst h x f p → ¬ Within h p b) → h'.node b = h.node b := by
  obtain ⟨h', e, e1, e2⟩ := own_list hf ((c182_some hf hl).1.nodup (findLayers_nodup hf z)) hown ht
  exact ⟨h', (c182_loop hl _).trans e, e1, e2⟩

end

theorem matcher_desc {F : Fl} {d : Defaults} {x : Node} {c : LClass} (hx : isLayerElt x = true) (hc : layerOf x = .ok c) (s : Str) :
    matcher F d .none [("desc", .str s)] x = .ok (decide (getDesc F x = some s)) := by
  have hl : layerAttr F d "desc" (c, x) = .ok (match getDesc F x with
      | none => .none
      | some s => .str s) := by
    simp only [layerAttr, general_free c (layerOf_class hc) "desc" (by decide)]
    rfl
  rw [matcher_layer hx, hc]
  show meetsAny F d (c, x) [("desc", .str s)] = _
  have ht : tryAttr F d "desc" (.str s) (c, x) = .ok (match getDesc F x with
      | none => .none
      | some s => .str s) := by
    rw [tryAttr, hl]
    cases getDesc F x <;> rfl
  rw [meetsAny, ht]
  cases getDesc F x with
  | none => simp [attrEq, meetsAny]
  | some a => by_cases ha : a = s <;> simp [attrEq, meetsAny, ha]

/-- What a search by one field finds in memory, if the field is just about the attributes of the element. -/
theorem search_by {F : Fl} {d : Defaults} {k : String} {v : PV} {P : Node → Bool} (hk : k ≠ "type")
    (hP : ∀ n m : Node, n.attrs = m.attrs → P n = P m)
    (hmatch : ∀ x c, isLayerElt x = true → layerOf x = .ok c → matcher F d .none [(k, v)] x = .ok (P x))
    {h : Dom} (hf : Forest h) {z : ℕ} (hcl : ∀ x ∈ h.findLayers z, ∃ cl, layerOf (h.bare x) = .ok cl) :
    h.search F d {kw := [(k, .pv v)]} true z = .ok ((h.findLayers z).filter fun x => P (h.bare x)) := by
  have hattr : ∀ x, P (h.bare x) = P (h.node x) := fun x => hP _ _ (bare_shallow hf x).2.2
  have hm : ∀ x ∈ (h.desc z).filter (fun x => (h.bare x).isTag), matcher F d .none [(k, v)] (h.node x) =
      .ok (isLayer (h.bare x) && P (h.bare x)) := by
    intro x hx
    obtain ⟨hx1, hx2⟩ := List.mem_filter.1 hx
    by_cases hn : (h.node x).name = "layer"
    · have hl : isLayer (h.bare x) = true := by
        rw [isLayer, (bare_shallow hf x).2.1, hn]
        simpa using hx2
      obtain ⟨c, hc⟩ := hcl x (List.mem_filter.2 ⟨hx1, hl⟩)
      rw [layerOf_bare hf] at hc
      rw [hl, hattr, Bool.true_and]
      refine hmatch _ c ?_ hc
      have ht : (h.node x).isTag = true := (bare_shallow hf x).1 ▸ hx2
      revert hn ht
      cases h.node x with
      | text _ => intro _ ht; cases ht
      | tag n _ _ => intro hn _; exact decide_eq_true hn
    · have hl : isLayer (h.bare x) = false := by
        rw [isLayer, (bare_shallow hf x).2.1]
        simp [hn]
      rw [matcher, if_pos hn, hl]
      rfl
  have hfr : filterRes (fun x => matcher F d .none [(k, v)] (h.node x)) ((h.desc z).filter fun x => (h.bare x).isTag) =
      .ok ((h.findLayers z).filter fun x => P (h.bare x)) := by
    rw [filterRes_ok]
    refine ⟨fun x hx => ⟨_, hm x hx⟩, ?_⟩
    rw [findLayers, List.filter_filter, List.filter_filter]
    refine List.filter_congr fun x hx => ?_
    by_cases ht : (h.bare x).isTag = true
    · have := hm x (List.mem_filter.2 ⟨hx, ht⟩)
      by_cases hl : isLayer (h.bare x) = true
      · simp [this, ht, hl]
      · simp [this, ht, hl]
    · have hl : ¬ isLayer (h.bare x) = true := fun hl => ht (isTag_of_layer hl)
      simp [ht, hl]
  obtain ⟨t1, t2⟩ := value_targets hk v
  obtain ⟨cs, hcs⟩ := mapRes_total (f := fun x => layerOf (h.bare x))
    (l := (h.findLayers z).filter fun x => P (h.bare x)) fun x hx => hcl x (List.mem_filter.1 hx).1
  rw [search, t1]
  simp only [t2, if_true, hfr, hcs]

/-- What `find_all(desc=s)` finds in memory. -/
theorem search_desc (F : Fl) (d : Defaults) {h : Dom} (hf : Forest h) {z : ℕ}
    (hcl : ∀ x ∈ h.findLayers z, ∃ cl, layerOf (h.bare x) = .ok cl) (s : Str) :
    h.search F d {kw := [("desc", .pv (.str s))]} true z = .ok ((h.findLayers z).filter fun x => getDesc F (h.bare x) = some s) :=
  search_by (P := fun n => decide (getDesc F n = some s)) (by decide) (fun n m e => by
    have : getDesc F n = getDesc F m := by rw [getDesc, getDesc, e]
    rw [this])
    (fun _ _ hx hc => matcher_desc hx hc s) hf hcl

theorem matcher_flag {F : Fl} {d : Defaults} {x : Node} {c : LClass} (hx : isLayerElt x = true) (hc : layerOf x = .ok c) (b : Bool) :
    matcher F d .none [("active", .bool b)] x = .ok (getActive F x == b) ∧
    matcher F d .none [("exclude_from_rendering", .bool b)] x = .ok (getExclude F x == b) := by
  have key : ∀ k y, layerAttr F d k (c, x) = .ok (.bool y) → matcher F d .none [(k, .bool b)] x = .ok (y == b) := fun k y e => by
    rw [matcher_layer hx, hc]
    show meetsAny F d (c, x) [(k, .bool b)] = _
    have ht : tryAttr F d k (.bool b) (c, x) = .ok (.bool y) := by
      rw [tryAttr, e]
      rfl
    rw [meetsAny, ht]
    cases y <;> cases b <;> simp [attrEq, meetsAny]
  exact ⟨key _ _ (by simp only [layerAttr, general_free c (layerOf_class hc) "active" (by decide)]; rfl),
    key _ _ (by simp only [layerAttr, general_free c (layerOf_class hc) "exclude_from_rendering" (by decide)]; rfl)⟩

theorem search_active (F : Fl) (d : Defaults) {h : Dom} (hf : Forest h) {z : ℕ}
    (hcl : ∀ x ∈ h.findLayers z, ∃ cl, layerOf (h.bare x) = .ok cl) (b : Bool) :
    h.search F d {kw := [("active", .pv (.bool b))]} true z = .ok ((h.findLayers z).filter fun x => getActive F (h.bare x) == b) :=
  search_by (P := fun n => getActive F n == b) (by decide) (fun n m e => by simp only [getActive, getBoolAttr, e])
    (fun _ _ hx hc => (matcher_flag hx hc b).1) hf hcl

theorem search_exclude (F : Fl) (d : Defaults) {h : Dom} (hf : Forest h) {z : ℕ}
    (hcl : ∀ x ∈ h.findLayers z, ∃ cl, layerOf (h.bare x) = .ok cl) (b : Bool) :
    h.search F d {kw := [("exclude_from_rendering", .pv (.bool b))]} true z =
      .ok ((h.findLayers z).filter fun x => getExclude F (h.bare x) == b) :=
  search_by (P := fun n => getExclude F n == b) (by decide) (fun n m e => by simp only [getExclude, getBoolAttr, e])
    (fun _ _ hx hc => (matcher_flag hx hc b).2) hf hcl

theorem SameShape.forest {h h' : Dom} (hs : SameShape h h') (hf : Forest h) : Forest h' := by
  have hp : ∀ x y, Par h' x y ↔ Par h x y := fun x y => by rw [Par, Par, hs.parent]
  have hpp : Par h' = Par h := funext fun x => funext fun y => propext (hp x y)
  refine ⟨fun p c => by rw [hs.kids, hpp]; exact hf.child p c, fun p => by rw [hs.kids]; exact hf.nodup p, by rw [hpp]; exact hf.acyclic,
    fun p c => by rw [hpp, hs.size]; exact hf.made p c, fun p u hu => ?_⟩
  have hb := (hs.bare p).isTag
  rw [Dom.bare, Dom.bare, hu] at hb
  rw [hs.kids]
  cases hl : h.lbl p with
  | text w => exact hf.text p w hl
  | tag n a => rw [hl] at hb; cases hb

theorem assigned_shape {F : Fl} {d : Defaults} {a : FindArgs} {recursive : Bool} {h h' : Dom} {z : ℕ} {l : List ℕ}
    (hl : h.search F d a recursive z = .ok l) {at' : EAttr} {v : PV} {r : Res Unit}
    (e : forSearch F d a recursive z (fun x => assignAttr F at' v x) h = (h', r)) : SameShape h h' := by
  have := forList_shape (assign_keeps F at' v h) l h (.refl h)
  rw [← c182_loop hl, e] at this
  exact this

/-- C182. `for x in z.find_all(desc=s): x.desc = t` renames what is called `s`: afterwards nothing below `z` is found by `s`, and what is
found by `t` is what was called `s` or `t` before, in the order of the file. What is found by others is what it was. -/
theorem c182_renamed (F : Fl) (d : Defaults) {h : Dom} (hf : Forest h) {z : ℕ}
    (hcl : ∀ x ∈ h.findLayers z, ∃ cl, layerOf (h.bare x) = .ok cl) {s t : Str} (hst : s ≠ t) :
    ∃ h', forSearch F d {kw := [("desc", .pv (.str s))]} true z (fun x => assignAttr F .desc (.str t) x) h = (h', .ok ()) ∧
      h'.search F d {kw := [("desc", .pv (.str s))]} true z = .ok [] ∧
      h'.search F d {kw := [("desc", .pv (.str t))]} true z =
        .ok ((h.findLayers z).filter fun x => getDesc F (h.bare x) = some s ∨ getDesc F (h.bare x) = some t) ∧
      ∀ u, u ≠ s → u ≠ t → h'.search F d {kw := [("desc", .pv (.str u))]} true z = h.search F d {kw := [("desc", .pv (.str u))]} true z := by
  obtain ⟨h', e, as⟩ := c182_assigned (search_desc F d hf hcl s) (at' := .desc) (v := .str t) fun n => rfl
  have hs := assigned_shape (search_desc F d hf hcl s) e
  have hf' := hs.forest hf
  have hcl' : ∀ x ∈ h'.findLayers z, ∃ cl, layerOf (h'.bare x) = .ok cl := fun x hx => by
    rw [hs.findLayers] at hx
    rw [(hs.bare x).layerOf]
    exact hcl x hx
  have hd : ∀ x ∈ h.findLayers z, getDesc F (h'.bare x) = if getDesc F (h.bare x) = some s then some t else getDesc F (h.bare x) := by
    intro x hx
    by_cases hg : getDesc F (h.bare x) = some s
    · rw [if_pos hg, as.2.2.2.1 x (List.mem_filter.2 ⟨hx, by simpa using hg⟩)]
      exact (c57_desc_string F _ (isTag_of_layer (List.mem_filter.1 hx).2) t).2.1
    · rw [if_neg hg, bare_congr (as.2.2.2.2 x fun hm => hg (by simpa using (List.mem_filter.1 hm).2))]
  refine ⟨h', e, ?_, ?_, fun u hus hut => ?_⟩
  · rw [search_desc F d hf' hcl', hs.findLayers]
    congr 1
    rw [List.filter_eq_nil_iff]
    intro x hx
    rw [hd x hx]
    split
    · simpa using Ne.symm hst
    · next hg => simpa using hg
  · rw [search_desc F d hf' hcl', hs.findLayers]
    congr 1
    refine List.filter_congr fun x hx => ?_
    rw [hd x hx]
    by_cases hg : getDesc F (h.bare x) = some s <;> simp [hg]
  · rw [search_desc F d hf' hcl', search_desc F d hf hcl, hs.findLayers]
    congr 1
    refine List.filter_congr fun x hx => ?_
    rw [hd x hx]
    by_cases hg : getDesc F (h.bare x) = some s
    · simp [hg, Ne.symm hus, Ne.symm hut]
    · simp [hg]

/-- C182. `for x in z.find_all(active=b): x.active = not b` leaves nothing below `z` with `active=b`: all that is below is
found the other way. What is found by descriptions is what it was. -/
theorem c182_switched (F : Fl) (d : Defaults) {h : Dom} (hf : Forest h) {z : ℕ}
    (hcl : ∀ x ∈ h.findLayers z, ∃ cl, layerOf (h.bare x) = .ok cl) (b : Bool) :
    ∃ h', forSearch F d {kw := [("active", .pv (.bool b))]} true z (fun x => assignAttr F .active (.bool !b) x) h = (h', .ok ()) ∧
      h'.search F d {kw := [("active", .pv (.bool b))]} true z = .ok [] ∧
      h'.search F d {kw := [("active", .pv (.bool !b))]} true z = .ok (h.findLayers z) ∧
      ∀ u, h'.search F d {kw := [("desc", .pv (.str u))]} true z = h.search F d {kw := [("desc", .pv (.str u))]} true z := by
  obtain ⟨h', e, as⟩ := c182_assigned (search_active F d hf hcl b) (at' := .active) (v := .bool !b) fun n => rfl
  have hs := assigned_shape (search_active F d hf hcl b) e
  have hf' := hs.forest hf
  have hcl' : ∀ x ∈ h'.findLayers z, ∃ cl, layerOf (h'.bare x) = .ok cl := fun x hx => by
    rw [hs.findLayers] at hx
    rw [(hs.bare x).layerOf]
    exact hcl x hx
  have hd : ∀ x ∈ h.findLayers z, getActive F (h'.bare x) = (!b) ∧ getDesc F (h'.bare x) = getDesc F (h.bare x) := by
    intro x hx
    by_cases hg : getActive F (h.bare x) = b
    · rw [as.2.2.2.1 x (List.mem_filter.2 ⟨hx, by simpa using hg⟩)]
      obtain ⟨-, g1, g2⟩ := c57_active F (h.bare x) (isTag_of_layer (List.mem_filter.1 hx).2) (.bool !b) (!b) rfl
      refine ⟨g1, ?_⟩
      show getDesc F (setActive F (.bool !b) (h.bare x)).1 = _
      rw [getDesc, getDesc, g2.2.2 "desc" (by decide)]
    · rw [bare_congr (as.2.2.2.2 x fun hm => hg (by simpa using (List.mem_filter.1 hm).2))]
      exact ⟨by revert hg; cases getActive F (h.bare x) <;> cases b <;> decide, rfl⟩
  refine ⟨h', e, ?_, ?_, fun u => ?_⟩
  · rw [search_active F d hf' hcl', hs.findLayers]
    congr 1
    rw [List.filter_eq_nil_iff]
    intro x hx
    rw [(hd x hx).1]
    cases b <;> decide
  · rw [search_active F d hf' hcl', hs.findLayers]
    congr 1
    rw [List.filter_eq_self]
    intro x hx
    rw [(hd x hx).1]
    simp
  · rw [search_desc F d hf' hcl', search_desc F d hf hcl, hs.findLayers]
    congr 1
    exact List.filter_congr fun x hx => by rw [(hd x hx).2]

/-- C182. `for x in z.find_all(exclude_from_rendering=b): x.exclude_from_rendering = not b` leaves nothing below `z` with `exclude_from_rendering=b`: all that is below is
found the other way. What is found by descriptions is what it was. -/
theorem c182_excluded (F : Fl) (d : Defaults) {h : Dom} (hf : Forest h) {z : ℕ}
    (hcl : ∀ x ∈ h.findLayers z, ∃ cl, layerOf (h.bare x) = .ok cl) (b : Bool) :
    ∃ h', forSearch F d {kw := [("exclude_from_rendering", .pv (.bool b))]} true z (fun x => assignAttr F .exclude (.bool !b) x) h = (h', .ok ()) ∧
      h'.search F d {kw := [("exclude_from_rendering", .pv (.bool b))]} true z = .ok [] ∧
      h'.search F d {kw := [("exclude_from_rendering", .pv (.bool !b))]} true z = .ok (h.findLayers z) ∧
      ∀ u, h'.search F d {kw := [("desc", .pv (.str u))]} true z = h.search F d {kw := [("desc", .pv (.str u))]} true z := by
  obtain ⟨h', e, as⟩ := c182_assigned (search_exclude F d hf hcl b) (at' := .exclude) (v := .bool !b) fun n => rfl
  have hs := assigned_shape (search_exclude F d hf hcl b) e
  have hf' := hs.forest hf
  have hcl' : ∀ x ∈ h'.findLayers z, ∃ cl, layerOf (h'.bare x) = .ok cl := fun x hx => by
    rw [hs.findLayers] at hx
    rw [(hs.bare x).layerOf]
    exact hcl x hx
  have hd : ∀ x ∈ h.findLayers z, getExclude F (h'.bare x) = (!b) ∧ getDesc F (h'.bare x) = getDesc F (h.bare x) := by
    intro x hx
    by_cases hg : getExclude F (h.bare x) = b
    · rw [as.2.2.2.1 x (List.mem_filter.2 ⟨hx, by simpa using hg⟩)]
      obtain ⟨-, g1, g2⟩ := c57_exclude_from_rendering F (h.bare x) (isTag_of_layer (List.mem_filter.1 hx).2) (.bool !b) (!b) rfl
      refine ⟨g1, ?_⟩
      show getDesc F (setExclude F (.bool !b) (h.bare x)).1 = _
      rw [getDesc, getDesc, g2.2.2 "desc" (by decide)]
    · rw [bare_congr (as.2.2.2.2 x fun hm => hg (by simpa using (List.mem_filter.1 hm).2))]
      exact ⟨by revert hg; cases getExclude F (h.bare x) <;> cases b <;> decide, rfl⟩
  refine ⟨h', e, ?_, ?_, fun u => ?_⟩
  · rw [search_exclude F d hf' hcl', hs.findLayers]
    congr 1
    rw [List.filter_eq_nil_iff]
    intro x hx
    rw [(hd x hx).1]
    cases b <;> decide
  · rw [search_exclude F d hf' hcl', hs.findLayers]
    congr 1
    rw [List.filter_eq_self]
    intro x hx
    rw [(hd x hx).1]
    simp
  · rw [search_desc F d hf' hcl', search_desc F d hf hcl, hs.findLayers]
    congr 1
    exact List.filter_congr fun x hx => by rw [(hd x hx).2]

/-- C182. After `for x in z.find_all(desc=s): group.append(x)`, for a group or animation that isn't in `z`, nothing below `z` is found by `s`. -/
theorem c182_moved_again (F : Fl) (d : Defaults) {h : Dom} (hf : Forest h) {z : ℕ} (hz : z < h.size)
    (hcl : ∀ x ∈ h.findLayers z, ∃ cl, layerOf (h.bare x) = .ok cl) (s : Str) {H : Set (GKind × ℕ × ℕ)}
    (hH : ∀ a ∈ H, HolderAt h a.1 a.2.1 a.2.2) {st : ℕ → List ℕ} (hst : ∀ a ∈ H, h.children a.1 a.2.1 = .ok (st a.2.1)) {k : GKind} {g t : ℕ}
    (hg : (k, g, t) ∈ H) (hout : ¬ Within h t z) :
    ∃ h', forSearch F d {kw := [("desc", .pv (.str s))]} true z (fun x => Dom.groupAppend k g x) h = (h', .ok ()) ∧
      h'.search F d {kw := [("desc", .pv (.str s))]} true z = .ok [] ∧
      (∀ x, x ∈ h'.findLayers z → x ∈ h.findLayers z ∧ getDesc F (h.bare x) ≠ some s) ∧
      ∀ x ∈ h.findLayers z, (∀ y ∈ h.findLayers z, getDesc F (h.bare y) = some s → ¬ Within h x y) → x ∈ h'.findLayers z := by
  have hl := search_desc F d hf hcl s
  set l := (h.findLayers z).filter fun x => getDesc F (h.bare x) = some s with hldef
  obtain ⟨s1, s2⟩ := c182_some hf hl
  have hnot : ∀ x ∈ l, x ∉ st g := fun x hx hm => by
    obtain ⟨p1, p2⟩ := child_par hf (hH _ hg) (hst _ hg) hm
    exact hout ((child_found hf p1 p2).1 (s1.subset hx))
  obtain ⟨h', e, E⟩ := append_each_more hg l h st hf hH hst (s1.nodup (findLayers_nodup hf z)) fun x hx => by
    obtain ⟨h1, h2⟩ := (mem_findLayers hf).1 (s1.subset hx)
    obtain ⟨d', hd, -⟩ := TransGen.head'_iff.1 h1
    exact ⟨(hf.made d' x hd).2, h2, s2 x hx, hnot x hx, fun hw => hout (hw.trans h1.to_reflTransGen)⟩
  have hzt : z ≠ t := fun e => hout (e ▸ .refl)
  have hback : ∀ w, TransGen (Par h') w z → TransGen (Par h) w z ∧ w ∉ l := by
    have one : ∀ w p, p < h.size → p ≠ t → Par h' w p → Par h w p ∧ w ∉ l := fun w p hp hpt hw => by
      have := (E.forest.child p w).2 hw
      rw [E.there p hpt hp, List.mem_filter] at this
      exact ⟨(hf.child p w).1 this.1, by simpa using this.2⟩
    intro w hw
    induction hw using TransGen.head_induction_on with
    | single hw =>
      obtain ⟨a1, a2⟩ := one _ _ hz hzt hw
      exact ⟨.single a1, a2⟩
    | head hw hp ih =>
      obtain ⟨d', hd, -⟩ := TransGen.head'_iff.1 ih.1
      obtain ⟨a1, a2⟩ := one _ _ (hf.made d' _ hd).2 (fun e => hout (E.target z (e ▸ hp.to_reflTransGen))) hw
      exact ⟨.head a1 ih.1, a2⟩
  have hsz : ∀ w, TransGen (Par h) w z → w < h.size := fun w hw => by
    obtain ⟨d', hd, -⟩ := TransGen.head'_iff.1 hw
    exact (hf.made d' _ hd).2
  have hsub : ∀ x, x ∈ h'.findLayers z → x ∈ h.findLayers z ∧ x ∉ l := fun x hx => by
    obtain ⟨h1, h2⟩ := (mem_findLayers E.forest).1 hx
    obtain ⟨b1, b2⟩ := hback x h1
    exact ⟨(mem_findLayers hf).2 ⟨b1, by rw [← E.bare x (hsz x b1)]; exact h2⟩, b2⟩
  have hbare : ∀ x ∈ h.findLayers z, h'.bare x = h.bare x := fun x hx => E.bare x (hsz x ((mem_findLayers hf).1 hx).1)
  have hno : ∀ x, x ∈ h'.findLayers z → x ∈ h.findLayers z ∧ getDesc F (h.bare x) ≠ some s := fun x hx => by
    obtain ⟨b1, b2⟩ := hsub x hx
    exact ⟨b1, fun hd => b2 (List.mem_filter.2 ⟨b1, by simpa using hd⟩)⟩
  refine ⟨h', (c182_loop hl _).trans e, ?_, hno, fun x hx hy => ?_⟩
  · rw [search_desc F d E.forest fun x hx => by rw [hbare x (hsub x hx).1]; exact hcl x (hsub x hx).1]
    congr 1
    rw [List.filter_eq_nil_iff]
    intro x hx
    obtain ⟨b1, b2⟩ := hno x hx
    rw [hbare x b1]
    simpa using b2
  · obtain ⟨h1, h2⟩ := (mem_findLayers hf).1 hx
    refine (mem_findLayers E.forest).2 ⟨?_, by rw [hbare x hx]; exact h2⟩
    have key : ∀ w, TransGen (Par h) w z → (∀ y ∈ l, ¬ Within h w y) → TransGen (Par h') w z := by
      have one : ∀ w p, p < h.size → p ≠ t → Par h w p → w ∉ l → Par h' w p := fun w p hp hpt hw hwl => by
        refine (E.forest.child p w).1 ?_
        rw [E.there p hpt hp, List.mem_filter]
        exact ⟨(hf.child p w).2 hw, by simpa using hwl⟩
      intro w hw
      induction hw using TransGen.head_induction_on with
      | single hw => exact fun hy => .single (one _ _ hz hzt hw fun hm => hy _ hm .refl)
      | head hw hp ih =>
        exact fun hy => .head (one _ _ (hsz _ hp) (fun e => hout (e ▸ hp.to_reflTransGen)) hw fun hm => hy _ hm .refl)
          (ih fun y hm hw' => hy y hm (.head hw hw'))
    refine key x h1 fun y hym => hy y (List.mem_filter.1 hym).1 ?_
    simpa using (List.mem_filter.1 hym).2

end Dom

open Dom

/-- What is searched for: circles. -/
def exCircles : FindArgs := { pos := [.str "Circle".toList] }

theorem exCircles_found : exDom.search double .initial exCircles true 1 = .ok [4] ∧
    exDom.search double .initial exCircles false 1 = .ok [] := ⟨by decide +kernel, by decide +kernel⟩

/-- Two positional arguments are refused before anything is moved. -/
example : forSearch double .initial { pos := [.str "Circle".toList, .str "Star".toList] } true 1 (fun x => Dom.groupAppend .animation 0 x) exDom =
    (exDom, .error .unbound) := c182_raises (by decide +kernel) _

/-- The circles in the group are moved to the animation. -/
example : ∃ h', forSearch double .initial exCircles true 1 (fun x => Dom.groupAppend .animation 0 x) exDom = (h', .ok ()) ∧
    h'.children .animation 0 = .ok [9, 1, 4] ∧ h'.children .group 1 = .ok [] := by
  obtain ⟨h', e, e1, e2⟩ := c182_moved exDom_forest exCircles_found.1 exHolders_ok exLists_ok (k := .animation) (g := 0) (t := 0)
    (.inl rfl) (exDom_outside (by decide +kernel))
  refine ⟨h', e, e1, ?_⟩
  have := e2 (.group, 1, 3) (.inr rfl) (by decide)
  simpa [exLists] using this

/-- They are given a description, and a z-depth. -/
example : (∃ h', forSearch double .initial exCircles true 1 (fun x => assignAttr double .desc (.str "round".toList) x) exDom = (h', .ok ()) ∧
      Assigned double .desc (.str "round".toList) [4] exDom h') ∧
    ∃ h', forSearch double .initial exCircles true 1 (fun x => setPlain double x "z_depth".toList (.float 3)) exDom = (h', .ok ()) ∧
      ShowsParam h' 4 "z_depth".toList .real (exRealTag "3.0000000000") ∧ h'.node 9 = exDom.node 9 := by
  refine ⟨c182_assigned exCircles_found.1 fun n => rfl, ?_⟩
  have t4 : TakesParam double exDom 4 "z_depth".toList (.float 3) .real (exRealTag "3.0000000000") := ⟨⟨7, by decide +kernel⟩, three_real⟩
  have own : OwnFirst exDom 4 "z_depth".toList 5 := ⟨by decide +kernel, by decide +kernel⟩
  obtain ⟨h', e, e1, e2⟩ := c181_search_partial exDom_forest exCircles_found.1 (f := "z_depth".toList) (v := .float 3)
    (fun x hx => by
      obtain rfl : x = 4 := by simpa using hx
      exact ⟨5, own, fun y hy => by
        obtain rfl : y = 4 := by simpa using hy
        exact exDom_outside (by decide +kernel)⟩)
    (fun x hx => by
      obtain rfl : x = 4 := by simpa using hx
      exact ⟨_, _, t4, three_class⟩)
  refine ⟨h', e, e1 4 (by simp) _ _ t4, e2 9 (by decide +kernel) fun x hx p hp => ?_⟩
  obtain rfl : x = 4 := by simpa using hx
  obtain rfl : 5 = p := Option.some.inj (own.1.symm.trans hp.1)
  exact exDom_outside (by decide +kernel)

/-- Three circles, of which two are called `head`. -/
def exNamedDom : Dom := (Dom.empty.alloc (.tag "canvas" []
  [.tag "layer" [("type", .str "circle".toList), ("desc", .str "head".toList)] [],
   .tag "layer" [("type", .str "circle".toList), ("desc", .str "top".toList)] [],
   .tag "layer" [("type", .str "circle".toList), ("desc", .str "head".toList)] []])).1

/-- What is called `head` is called `top` instead. -/
example : exNamedDom.search double .initial {kw := [("desc", .pv (.str "head".toList))]} true 0 = .ok [1, 3] ∧
    ∃ h', forSearch double .initial {kw := [("desc", .pv (.str "head".toList))]} true 0
        (fun x => assignAttr double .desc (.str "top".toList) x) exNamedDom = (h', .ok ()) ∧
      h'.search double .initial {kw := [("desc", .pv (.str "head".toList))]} true 0 = .ok [] ∧
      h'.search double .initial {kw := [("desc", .pv (.str "top".toList))]} true 0 = .ok [1, 2, 3] := by
  have hl : exNamedDom.findLayers 0 = [1, 2, 3] := by decide +kernel
  have hc : ∀ x ∈ ([1, 2, 3] : List ℕ), (layerOf (exNamedDom.bare x)).isOk = true := by decide +kernel
  obtain ⟨h', e, e1, e2, _⟩ := c182_renamed double .initial (alloc_made forest_empty _).forest (h := exNamedDom) (z := 0)
    (fun x hx => by
      have := hc x (hl ▸ hx)
      cases hr : layerOf (exNamedDom.bare x) with
      | ok cl => exact ⟨cl, rfl⟩
      | error e => rw [hr] at this; cases this)
    (s := "head".toList) (t := "top".toList) (by decide)
  exact ⟨by decide +kernel, h', e, e1, e2.trans (by decide +kernel)⟩

theorem exNamed_classes : ∀ x ∈ exNamedDom.findLayers 0, ∃ cl, layerOf (exNamedDom.bare x) = .ok cl := fun x hx => by
  have hl : exNamedDom.findLayers 0 = [1, 2, 3] := by decide +kernel
  have hc : ∀ x ∈ ([1, 2, 3] : List ℕ), (layerOf (exNamedDom.bare x)).isOk = true := by decide +kernel
  have := hc x (hl ▸ hx)
  cases hr : layerOf (exNamedDom.bare x) with
  | ok cl => exact ⟨cl, rfl⟩
  | error e => rw [hr] at this; cases this

/-- All of them are turned off. -/
example : exNamedDom.search double .initial {kw := [("active", .pv (.bool true))]} true 0 = .ok [1, 2, 3] ∧
    ∃ h', forSearch double .initial {kw := [("active", .pv (.bool true))]} true 0
        (fun x => assignAttr double .active (.bool false) x) exNamedDom = (h', .ok ()) ∧
      h'.search double .initial {kw := [("active", .pv (.bool true))]} true 0 = .ok [] ∧
      h'.search double .initial {kw := [("active", .pv (.bool false))]} true 0 = .ok [1, 2, 3] := by
  obtain ⟨h', e, e1, e2, _⟩ := c182_switched double .initial (alloc_made forest_empty _).forest exNamed_classes true
  exact ⟨by decide +kernel, h', e, e1, e2.trans (by decide +kernel)⟩

/-- A group, 1, with two circles, of which one is called `head`. -/
def exGroupedDom : Dom := (Dom.empty.alloc (.tag "canvas" [] [.tag "layer" [("type", .str "group".toList)] [
  .tag "param" [("name", .str "canvas".toList)] [.tag "canvas" []
    [.tag "layer" [("type", .str "circle".toList), ("desc", .str "head".toList)] [],
     .tag "layer" [("type", .str "circle".toList), ("desc", .str "top".toList)] []]]]])).1

/-- What is called `head` is moved from the group to the animation. The group hasn't got it any more, but has the other. -/
example : exGroupedDom.search double .initial {kw := [("desc", .pv (.str "head".toList))]} true 1 = .ok [4] ∧
    ∃ h', forSearch double .initial {kw := [("desc", .pv (.str "head".toList))]} true 1
        (fun x => Dom.groupAppend .animation 0 x) exGroupedDom = (h', .ok ()) ∧
      h'.search double .initial {kw := [("desc", .pv (.str "head".toList))]} true 1 = .ok [] ∧ 5 ∈ h'.findLayers 1 := by
  have hf : Forest exGroupedDom := (alloc_made forest_empty _).forest
  have hl : exGroupedDom.findLayers 1 = [4, 5] := by decide +kernel
  have hc : ∀ x ∈ ([4, 5] : List ℕ), (layerOf (exGroupedDom.bare x)).isOk = true := by decide +kernel
  obtain ⟨h', e, e1, -, e2⟩ := c182_moved_again double .initial hf (z := 1) (by decide +kernel)
    (fun x hx => by
      have := hc x (hl ▸ hx)
      cases hr : layerOf (exGroupedDom.bare x) with
      | ok cl => exact ⟨cl, rfl⟩
      | error e => rw [hr] at this; cases this)
    "head".toList (H := {(GKind.animation, 0, 0)}) (st := fun _ => [1])
    (by rintro a rfl; exact ⟨by decide +kernel, by decide +kernel, rfl, by decide +kernel⟩)
    (by rintro a rfl; decide +kernel) (k := .animation) (g := 0) (t := 0) (by simp)
    (fun hw => by
      have := (within_iff hf).1 hw
      revert this
      decide +kernel)
  refine ⟨by decide +kernel, h', e, e1, e2 5 (by rw [hl]; decide) fun y hy hd hw => ?_⟩
  rw [hl] at hy
  have := (within_iff hf).1 hw
  revert this hd
  have : y = 4 ∨ y = 5 := by simpa using hy
  rcases this with rfl | rfl <;> decide +kernel

end Sang
