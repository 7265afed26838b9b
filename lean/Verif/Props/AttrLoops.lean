import Verif.Spec.AttrLoops
import Verif.Props.DescLoops

/-!
# C180: loops that assign to the description, and the like, of layers
-/

namespace Sang

open Spec

namespace Dom

/-- The same to those who look for layers and canvases. -/
structure Alike (n m : Node) : Prop where
  isTag : m.isTag = n.isTag
  name : m.name = n.name
  type : m.attrs.get "type" = n.attrs.get "type"
  param : m.attrs.get "name" = n.attrs.get "name"

theorem Alike.isLayer {n m : Node} (h : Alike n m) : isLayer m = isLayer n := by
  rw [Sang.isLayer, Sang.isLayer, h.isTag, h.name]

theorem Alike.layerOf {n m : Node} (h : Alike n m) : layerOf m = layerOf n := by
  rw [Sang.layerOf, Sang.layerOf, h.type]

theorem Alike.isParam {n m : Node} (h : Alike n m) (f : Str) : isParam f m = isParam f n := by
  rw [Sang.isParam, Sang.isParam, h.name, h.param]

/-- Only what elements are has changed, and not whether they are layers, of what type, and so on. -/
structure SameShape (h h' : Dom) : Prop where
  size : h'.size = h.size
  kids : h'.kids = h.kids
  parent : h'.parent = h.parent
  bare : ∀ z, Alike (h.bare z) (h'.bare z)

theorem SameShape.refl (h : Dom) : SameShape h h := ⟨rfl, rfl, rfl, fun _ => ⟨rfl, rfl, rfl, rfl⟩⟩

theorem SameShape.trans {h h' h'' : Dom} (a : SameShape h h') (b : SameShape h' h'') : SameShape h h'' :=
  ⟨b.size.trans a.size, b.kids.trans a.kids, b.parent.trans a.parent, fun z =>
    ⟨(b.bare z).isTag.trans (a.bare z).isTag, (b.bare z).name.trans (a.bare z).name, (b.bare z).type.trans (a.bare z).type,
      (b.bare z).param.trans (a.bare z).param⟩⟩

theorem SameShape.desc {h h' : Dom} (s : SameShape h h') (x : ℕ) : h'.desc x = h.desc x := by
  have : ∀ fuel x, h'.descTo fuel x = h.descTo fuel x := by
    intro fuel
    induction fuel with
    | zero => intro _; rfl
    | succ n ih => intro x; simp only [descTo, s.kids, ih]
  rw [Dom.desc, Dom.desc, s.size, this]

theorem SameShape.find {h h' : Dom} (s : SameShape h h') {p : Node → Bool} (hp : ∀ n m, Alike n m → p m = p n) (x : ℕ) :
    h'.find? p x = h.find? p x := by
  rw [find?, find?, s.desc]
  congr 1
  funext y
  exact hp _ _ (s.bare y)

theorem SameShape.canvas {h h' : Dom} (s : SameShape h h') (k : GKind) (g : ℕ) : h'.canvas k g = h.canvas k g := by
  cases k with
  | animation => rfl
  | group =>
    rw [Dom.canvas, Dom.canvas, s.find fun n m a => a.isParam _]
    cases h.find? (isParam "canvas".toList) g with
    | none => rfl
    | some p => simp only [s.find (p := fun n => n.isTag && n.name = "canvas") fun n m a => by rw [a.isTag, a.name]]

theorem SameShape.findLayers {h h' : Dom} (s : SameShape h h') (x : ℕ) : h'.findLayers x = h.findLayers x := by
  rw [Dom.findLayers, Dom.findLayers, s.desc]
  exact List.filter_congr fun y _ => (s.bare y).isLayer

/-- A loop over the contents of a canvas, by something that leaves the shape alone. -/
theorem loop_shape {h0 : Dom} {c : ℕ} {body : ℕ → Dom → Dom × Res Unit}
    (hbody : ∀ h x, SameShape h0 h → SameShape h0 (body x h).1)
    (hcl : ∀ z ∈ h0.kids c, isLayer (h0.bare z) = true → ∃ cl, layerOf (h0.bare z) = .ok cl) :
    ∀ (i : ℕ) (h : Dom), i ≤ (h0.kids c).length → SameShape h0 h →
    loopFrom c body i h = forList body (((h0.kids c).take i).filter fun z => isLayer (h0.bare z)).reverse h := by
  intro i
  induction i with
  | zero => intro h _ _; rfl
  | succ i ih =>
    intro h hi s
    have hx : (h0.kids c)[i]? = some ((h0.kids c)[i]'(by omega)) := List.getElem?_eq_getElem (by omega)
    have hm : (h0.kids c)[i]'(by omega) ∈ h0.kids c := List.getElem_mem _
    simp only [loopFrom, s.kids, hx, (s.bare _).isLayer, (s.bare _).layerOf]
    rw [List.take_succ_eq_append_getElem (by omega), List.filter_append, List.reverse_append]
    by_cases hl : isLayer (h0.bare ((h0.kids c)[i]'(by omega))) = true
    · obtain ⟨cl, hcl'⟩ := hcl _ hm hl
      rw [if_pos hl, List.filter_cons_of_pos (by exact hl)]
      simp only [hcl', List.filter_nil, List.reverse_singleton, List.singleton_append, forList]
      have := hbody h ((h0.kids c)[i]'(by omega)) s
      cases hr : body ((h0.kids c)[i]'(by omega)) h with
      | mk h' r =>
        rw [hr] at this
        cases r with
        | error e => rfl
        | ok u => exact ih h' (by omega) this
    · rw [if_neg hl, List.filter_cons_of_neg (by exact hl)]
      simp only [List.filter_nil, List.reverse_nil, List.nil_append]
      exact ih h (by omega) s

section
variable {h0 : Dom} {body : ℕ → Dom → Dom × Res Unit} (hbody : ∀ h x, SameShape h0 h → SameShape h0 (body x h).1)
include hbody

theorem children_shape {k : GKind} {g : ℕ} {l : List ℕ} (hl : h0.children k g = .ok l) {h : Dom} (s : SameShape h0 h) :
    forChildren k g body h = forList body l h := by
  rw [forChildren, s.canvas]
  rcases hc : h0.canvas k g with e | (_ | c)
  · rw [children, hc] at hl; simp at hl
  · rw [children, hc] at hl; simp at hl
  · obtain ⟨e, hall⟩ := (children_iff hc _).1 hl
    simp only [s.kids]
    rw [loop_shape hbody (fun z hz hlz => hall z (by rw [e, List.mem_reverse, layersOf_eq]; exact List.mem_filter.2 ⟨hz, hlz⟩)) _ h
      le_rfl s, List.take_length, e, layersOf_eq]

theorem forList_shape (l : List ℕ) : ∀ h, SameShape h0 h → SameShape h0 (forList body l h).1 := by
  induction l with
  | nil => intro h s; exact s
  | cons x l ih =>
    intro h s
    have := hbody h x s
    rw [forList]
    rcases hr : body x h with ⟨h', e | ⟨⟩⟩
    · rw [hr] at this; exact this
    · rw [hr] at this; exact ih h' this

theorem forChildren_keeps {k : GKind} {g : ℕ} {h : Dom} (s : SameShape h0 h) : SameShape h0 (forChildren k g body h).1 := by
  have key : ∀ c i h, SameShape h0 h → SameShape h0 (loopFrom c body i h).1 := by
    intro c i
    induction i with
    | zero => intro h s; exact s
    | succ i ih =>
      intro h s
      rw [loopFrom]
      cases (h.kids c)[i]? with
      | none => exact s
      | some x =>
        simp only
        split
        · cases layerOf (h.bare x) with
          | error e => exact s
          | ok cl =>
            have := hbody h x s
            simp only
            rcases hr : body x h with ⟨h', e | ⟨⟩⟩
            · rw [hr] at this; exact this
            · rw [hr] at this; exact ih h' this
        · exact ih h s
  rw [forChildren]
  rcases h.canvas k g with e | (_ | c)
  · exact s
  · exact s
  · exact key c _ h s

theorem inner_shape {st : ℕ → List ℕ} {x : ℕ} (hcl : ∃ cl, layerOf (h0.bare x) = .ok cl)
    (hst : isGroupAt h0 x = true → h0.children .group x = .ok (st x)) {h : Dom} (s : SameShape h0 h) :
    withInner body x h = forList body (x :: if isGroupAt h0 x then st x else []) h := by
  obtain ⟨cl, hcl⟩ := hcl
  have hgi : isGroupAt h0 x = cl.isGroup := by rw [isGroupAt, hcl]
  have := hbody h x s
  rw [withInner, (s.bare x).layerOf, hcl, forList]
  simp only
  rcases hr : body x h with ⟨h', e | ⟨⟩⟩
  · rfl
  · rw [hr] at this
    simp only
    rw [hgi] at hst ⊢
    cases hg : cl.isGroup with
    | false => rfl
    | true => simp only [if_true]; exact children_shape hbody (hst hg) this

theorem descendants_shape {st : ℕ → List ℕ} {k : GKind} {g : ℕ} {l : List ℕ} (hl : h0.children k g = .ok l)
    (hst : ∀ x ∈ l, isGroupAt h0 x = true → h0.children .group x = .ok (st x)) {h : Dom} (s : SameShape h0 h) :
    forDescendants k g body h = forList body (l.flatMap fun x => x :: if isGroupAt h0 x then st x else []) h := by
  have hall : ∀ x ∈ l, ∃ cl, layerOf (h0.bare x) = .ok cl := by
    rcases hc : h0.canvas k g with e | (_ | c)
    · rw [children, hc] at hl; simp at hl
    · rw [children, hc] at hl; simp at hl
    · exact ((children_iff hc _).1 hl).2
  have hin : ∀ h x, SameShape h0 h → SameShape h0 (withInner body x h).1 := by
    intro h x s
    rw [withInner]
    cases layerOf (h.bare x) with
    | error e => exact s
    | ok cl =>
      have := hbody h x s
      simp only
      rcases hr : body x h with ⟨h', e | ⟨⟩⟩
      · rw [hr] at this; exact this
      · rw [hr] at this
        simp only
        split
        · exact forChildren_keeps hbody this
        · exact this
  rw [forDescendants, children_shape hin hl s]
  clear hl
  induction l generalizing h with
  | nil => rfl
  | cons x l ih =>
    rw [List.flatMap_cons, forList_append, forList, inner_shape hbody (hall x (by simp)) (hst x (by simp)) s]
    have := forList_shape hbody (x :: if isGroupAt h0 x then st x else []) h s
    rcases hr : forList body (x :: if isGroupAt h0 x then st x else []) h with ⟨h', e | ⟨⟩⟩
    · rfl
    · rw [hr] at this
      exact ih (fun y hy => hst y (List.mem_cons_of_mem _ hy)) this (fun y hy => hall y (List.mem_cons_of_mem _ hy))

end

/-! ## The assignments -/

theorem dictSet_twice (k : String) (v : AttrV) : ∀ as : Attrs, dictSet k v (dictSet k v as) = dictSet k v as
  | [] => by simp [dictSet]
  | (k', v') :: r => by
    by_cases h : k' = k
    · simp [dictSet, h]
    · simp [dictSet, h, dictSet_twice k v r]

/-- What assigning does is the same for all layers: it raises, or it changes the attributes, but not the type. -/
theorem set_cases (F : Fl) (a : EAttr) (v : PV) :
    (∃ e, ∀ n, a.set F v n = (n, .error e)) ∨
    ∃ f : Attrs → Attrs, (∀ as, f (f as) = f as) ∧ (∀ as, (f as).get "type" = as.get "type" ∧ (f as).get "name" = as.get "name") ∧
      (∀ n as ks, a.set F v (.tag n as ks) = (.tag n (f as) ks, .ok ())) ∧ ∀ s, a.set F v (.text s) = (.text s, .ok ()) := by
  have put : ∀ (k : String) (x : AttrV), "type" ≠ k → "name" ≠ k → (∀ n, a.set F v n = (n.setAttr k x, .ok ())) → ∃ f : Attrs → Attrs,
      (∀ as, f (f as) = f as) ∧ (∀ as, (f as).get "type" = as.get "type" ∧ (f as).get "name" = as.get "name") ∧
      (∀ n as ks, a.set F v (.tag n as ks) = (.tag n (f as) ks, .ok ())) ∧ ∀ s, a.set F v (.text s) = (.text s, .ok ()) := by
    intro k x h1 h2 h3
    refine ⟨dictSet k x, dictSet_twice k x, fun as => ⟨?_, ?_⟩, fun n as ks => h3 _, fun s => h3 _⟩
    · have := lookup_dictSet k "type" x as
      rw [if_neg h1] at this
      exact this
    · have := lookup_dictSet k "name" x as
      rw [if_neg h2] at this
      exact this
  cases a with
  | desc =>
    by_cases hn : v.isNone = true
    · refine .inr ⟨fun as => as.filter fun p => p.1 ≠ "desc", fun as => by simp [List.filter_filter], fun as => ?_, fun n as ks => ?_, fun s => ?_⟩
      · have key : ∀ k, k ≠ "desc" → (as.filter fun p => p.1 ≠ "desc").lookup k = as.lookup k := by
          intro k hk
          induction as with
          | nil => rfl
          | cons p r ih =>
            obtain ⟨k', x⟩ := p
            by_cases h : k' = "desc"
            · subst h
              rw [List.filter_cons_of_neg (by simp), ih, List.lookup_cons]
              have : (k == "desc") = false := by simpa using hk
              rw [this]
            · rw [List.filter_cons_of_pos (by simpa using h), List.lookup_cons, List.lookup_cons, ih]
        exact ⟨key _ (by decide), key _ (by decide)⟩
      · simp only [EAttr.set, setDesc, if_pos hn, Node.delAttr]
      · simp only [EAttr.set, setDesc, if_pos hn, Node.delAttr]
    · cases hs : v.toStr F with
      | error e => exact .inl ⟨e, fun n => by simp only [EAttr.set, setDesc, if_neg hn, hs]⟩
      | ok s => exact .inr (put "desc" (.str s) (by decide) (by decide) fun n => by simp only [EAttr.set, setDesc, if_neg hn, hs])
  | active =>
    cases hs : v.toBool F with
    | error e => exact .inl ⟨e, fun n => by simp only [EAttr.set, setActive, setBoolAttr, hs]⟩
    | ok s => exact .inr (put "active" (.str (boolStr s)) (by decide) (by decide) fun n => by simp only [EAttr.set, setActive, setBoolAttr, hs])
  | exclude =>
    cases hs : v.toBool F with
    | error e => exact .inl ⟨e, fun n => by simp only [EAttr.set, setExclude, setBoolAttr, hs]⟩
    | ok s => exact .inr (put "exclude_from_rendering" (.str (boolStr s)) (by decide) (by decide) fun n => by
        simp only [EAttr.set, setExclude, setBoolAttr, hs])
  | version =>
    cases hs : v.toFloat F with
    | error e => exact .inl ⟨e, fun n => by simp only [EAttr.set, setVersion, hs]⟩
    | ok s => exact .inr (put "version" (.num s) (by decide) (by decide) fun n => by simp only [EAttr.set, setVersion, hs])

/-- One assignment in memory. -/
theorem assignAttr_once (F : Fl) (a : EAttr) (v : PV) (x : ℕ) (h : Dom) :
    (h.assignAttr F a v x).2 = (a.set F v (h.bare x)).2 ∧ SameShape h (h.assignAttr F a v x).1 ∧
      (h.assignAttr F a v x).1.bare x = (a.set F v (h.bare x)).1 ∧ ∀ z, z ≠ x → (h.assignAttr F a v x).1.lbl z = h.lbl z := by
  rcases hl : h.lbl x with s | ⟨n, as⟩
  · have hb : h.bare x = .text s := by rw [bare, hl]
    rcases set_cases F a v with ⟨e, he⟩ | ⟨f, -, -, -, ht⟩
    · simp only [assignAttr, hb, he]
      simp [SameShape.refl]
    · simp only [assignAttr, hb, ht]
      simp [SameShape.refl]
  · have hb : h.bare x = .tag n as [] := by rw [bare, hl]
    rcases set_cases F a v with ⟨e, he⟩ | ⟨f, -, hf, ht, -⟩
    · have hsame : Function.update h.lbl x (.tag n as) = h.lbl := by rw [← hl, Function.update_eq_self]
      simp only [assignAttr, hb, he, hsame]
      exact ⟨trivial, .refl h, trivial, fun _ _ => trivial⟩
    · simp only [assignAttr, hb, ht]
      have hx : bare { h with lbl := Function.update h.lbl x (.tag n (f as)) } x = .tag n (f as) [] := by
        simp only [bare, Function.update_self]
      have hz : ∀ z, z ≠ x → bare { h with lbl := Function.update h.lbl x (.tag n (f as)) } z = h.bare z := fun z hzx => by
        simp only [bare, Function.update_of_ne hzx]
      refine ⟨trivial, ⟨rfl, rfl, rfl, fun z => ?_⟩, hx, fun z hzx => Function.update_of_ne hzx _ _⟩
      by_cases hzx : z = x
      · subst hzx
        rw [hx, hb]
        exact ⟨rfl, rfl, (hf as).1, (hf as).2⟩
      · rw [hz z hzx]
        exact ⟨rfl, rfl, rfl, rfl⟩

theorem assign_keeps (F : Fl) (a : EAttr) (v : PV) (h0 : Dom) :
    ∀ h x, SameShape h0 h → SameShape h0 (h.assignAttr F a v x).1 :=
  fun h x s => s.trans (assignAttr_once F a v x h).2.1

/-- Assigning to each of a list. -/
theorem assign_each (F : Fl) (a : EAttr) (v : PV) (hv : ∀ n, (a.set F v n).2 = .ok ()) : ∀ (l : List ℕ) (h : Dom),
    ∃ h', forList (fun x => assignAttr F a v x) l h = (h', .ok ()) ∧ Assigned F a v l h h' := by
  have twice : ∀ n, (a.set F v (a.set F v n).1).1 = (a.set F v n).1 := by
    intro n
    rcases set_cases F a v with ⟨e, he⟩ | ⟨f, hf, -, ht, hs⟩
    · rw [he, he]
    · cases n with
      | text s => rw [hs, hs]
      | tag n as ks => rw [ht, ht, hf]
  intro l
  induction l with
  | nil => intro h; exact ⟨h, rfl, rfl, rfl, rfl, by simp, fun _ _ => rfl⟩
  | cons x l ih =>
    intro h
    obtain ⟨o1, o2, o3, o4⟩ := assignAttr_once F a v x h
    obtain ⟨h', e, i1, i2, i3, i4, i5⟩ := ih (h.assignAttr F a v x).1
    refine ⟨h', ?_, i1.trans o2.size, i2.trans o2.kids, i3.trans o2.parent, ?_, ?_⟩
    · rw [forList]
      rw [hv] at o1
      rw [show h.assignAttr F a v x = ((h.assignAttr F a v x).1, .ok ()) from Prod.ext rfl o1]
      exact e
    · intro y hy
      by_cases hyx : y = x
      · subst hyx
        by_cases hm : y ∈ l
        · rw [i4 y hm, o3, twice]
        · rw [bare_congr (i5 y hm), o3]
      · have hm : y ∈ l := by
          rcases List.mem_cons.1 hy with h | h
          · exact absurd h hyx
          · exact h
        rw [i4 y hm, bare_congr (o4 y hyx)]
    · intro z hz
      rw [List.mem_cons, not_or] at hz
      rw [i5 z hz.2, o4 z hz.1]

theorem assign_refused {F : Fl} {a : EAttr} {v : PV} {e : Err} (hv : ∀ n, (a.set F v n).2 = .error e) {l : List ℕ} (hl : l ≠ [])
    (h : Dom) : forList (fun x => assignAttr F a v x) l h = (h, .error e) := by
  obtain ⟨x, r, rfl⟩ := List.exists_cons_of_ne_nil hl
  have hs : ∀ n, a.set F v n = (n, .error e) := by
    rcases set_cases F a v with ⟨e', he⟩ | ⟨f, -, -, -, hs⟩
    · have := hv (.text [])
      rw [he] at this
      simp only [Except.error.injEq] at this
      rw [← this]
      exact he
    · have := hv (.text [])
      rw [hs] at this
      simp at this
  have : h.assignAttr F a v x = (h, .error e) := by
    rw [assignAttr, hs]
    rcases hl : h.lbl x with s | ⟨n, as⟩
    · simp only [bare, hl]
    · simp only [bare, hl]
      rw [show Function.update h.lbl x (.tag n as) = h.lbl by rw [← hl, Function.update_eq_self]]
  rw [forList, this]

theorem child_isTag {h : Dom} {k : GKind} {g : ℕ} {l : List ℕ} (hl : h.children k g = .ok l) {x : ℕ} (hx : x ∈ l) :
    (h.bare x).isTag = true := by
  rcases hc : h.canvas k g with er | (_ | c)
  · rw [children, hc] at hl; simp at hl
  · rw [children, hc] at hl; simp at hl
  · rw [((children_iff hc _).1 hl).1, List.mem_reverse, layersOf_eq] at hx
    exact isTag_of_layer (List.mem_filter.1 hx).2

section
variable {F : Fl} {a : EAttr} {v : PV} {h : Dom} {k : GKind} {g : ℕ} {l : List ℕ}

/-- C180. `for x in group.children: x.desc = v`, or `x.active`, `x.exclude_from_rendering`, `x.version`: each of the children is as if
it alone had been assigned to, and nothing else has changed. -/
theorem c180_children (hl : h.children k g = .ok l) (hv : ∀ n, (a.set F v n).2 = .ok ()) :
    ∃ h', forChildren k g (fun x => assignAttr F a v x) h = (h', .ok ()) ∧ Assigned F a v l h h' ∧ h'.children k g = .ok l := by
  obtain ⟨h', e, as⟩ := assign_each F a v hv l h
  have hs := forList_shape (assign_keeps F a v h) l h (.refl h)
  rw [e] at hs
  refine ⟨h', (children_shape (assign_keeps F a v h) hl (.refl h)).trans e, as, ?_⟩
  rcases hc : h.canvas k g with er | (_ | c)
  · rw [children, hc] at hl; simp at hl
  · rw [children, hc] at hl; simp at hl
  · obtain ⟨e1, e2⟩ := (children_iff hc _).1 hl
    refine (children_iff ((hs.canvas k g).trans hc) _).2 ⟨?_, fun x hx => by rw [(hs.bare x).layerOf]; exact e2 x hx⟩
    rw [e1, layersOf_eq, layersOf_eq, hs.kids]
    congr 1
    exact List.filter_congr fun z _ => ((hs.bare z).isLayer).symm

/-- C180. The same for all that are found: `for x in layer.find_all(True): x.desc = v`. -/
theorem c180_found {z : ℕ} (hcl : ∀ x ∈ h.findLayers z, ∃ cl, layerOf (h.bare x) = .ok cl) (hv : ∀ n, (a.set F v n).2 = .ok ()) :
    ∃ h', forFound z (fun x => assignAttr F a v x) h = (h', .ok ()) ∧ Assigned F a v (h.findLayers z) h h' ∧
      h'.findLayers z = h.findLayers z := by
  obtain ⟨h', e, as⟩ := assign_each F a v hv (h.findLayers z) h
  have hs := forList_shape (assign_keeps F a v h) (h.findLayers z) h (.refl h)
  rw [e] at hs
  exact ⟨h', (c176_loop hcl _).trans e, as, hs.findLayers z⟩

/-- C180, in part. `for x in group.descendants: x.desc = v` comes to the children and theirs, and not to those further down. -/
theorem c180_descendants_partial {st : ℕ → List ℕ} (hl : h.children k g = .ok l)
    (hst : ∀ x ∈ l, isGroupAt h x = true → h.children .group x = .ok (st x)) (hv : ∀ n, (a.set F v n).2 = .ok ()) :
    ∃ h', forDescendants k g (fun x => assignAttr F a v x) h = (h', .ok ()) ∧
      Assigned F a v (l.flatMap fun x => x :: if isGroupAt h x then st x else []) h h' := by
  obtain ⟨h', e, as⟩ := assign_each F a v hv (l.flatMap fun x => x :: if isGroupAt h x then st x else []) h
  exact ⟨h', (descendants_shape (assign_keeps F a v h) hl hst (.refl h)).trans e, as⟩

/-- C180. If the value is refused, the loop raises at the first layer and nothing has changed. -/
theorem c180_refused {e : Err} (hl : h.children k g = .ok l) (hne : l ≠ []) (hv : ∀ n, (a.set F v n).2 = .error e) :
    forChildren k g (fun x => assignAttr F a v x) h = (h, .error e) :=
  (children_shape (assign_keeps F a v h) hl (.refl h)).trans (assign_refused hv hne h)

/-- C180. The same for all that are found. -/
theorem c180_found_refused {e : Err} {z : ℕ} (hcl : ∀ x ∈ h.findLayers z, ∃ cl, layerOf (h.bare x) = .ok cl)
    (hne : h.findLayers z ≠ []) (hv : ∀ n, (a.set F v n).2 = .error e) :
    forFound z (fun x => assignAttr F a v x) h = (h, .error e) :=
  (c176_loop hcl _).trans (assign_refused hv hne h)

/-- C180. For instance: after `for x in group.children: x.active = b` each child's `active` is `b`. -/
theorem c180_read_active (hl : h.children k g = .ok l) (b : Bool) :
    ∃ h', forChildren k g (fun x => assignAttr F .active (.bool b) x) h = (h', .ok ()) ∧
      ∀ x ∈ l, getActive F (h'.bare x) = b := by
  obtain ⟨h', e, as, -⟩ := c180_children (F := F) (a := .active) (v := .bool b) hl fun n => rfl
  refine ⟨h', e, fun x hx => ?_⟩
  rw [as.2.2.2.1 x hx]
  exact (c57_active F _ (child_isTag hl hx) (.bool b) b rfl).2.1

/-- C180. And after `for x in group.children: x.desc = s` each child's `desc` is `s`. -/
theorem c180_read_desc (hl : h.children k g = .ok l) (s : Str) :
    ∃ h', forChildren k g (fun x => assignAttr F .desc (.str s) x) h = (h', .ok ()) ∧
      ∀ x ∈ l, getDesc F (h'.bare x) = some s := by
  obtain ⟨h', e, as, -⟩ := c180_children (F := F) (a := .desc) (v := .str s) hl fun n => rfl
  refine ⟨h', e, fun x hx => ?_⟩
  rw [as.2.2.2.1 x hx]
  exact (c57_desc_string F _ (child_isTag hl hx) s).2.1

/-- C180. A value is accepted for all layers or for none. -/
theorem c180_all_or_none (F : Fl) (a : EAttr) (v : PV) : ∃ r, ∀ n, (a.set F v n).2 = r := by
  rcases set_cases F a v with ⟨e, he⟩ | ⟨f, -, -, ht, hs⟩
  · exact ⟨_, fun n => by rw [he]⟩
  · refine ⟨.ok (), fun n => ?_⟩
    cases n with
    | text s => rw [hs]
    | tag n as ks => rw [ht]

end

end Dom

open Dom

/-- C180, violated: the circle, a descendant of the animation but three levels down, keeps what it has. -/
theorem c180_deep_unchanged (F : Fl) (s : Str) :
    ∃ h', forDescendants .animation 0 (fun x => assignAttr F .desc (.str s) x) exNest = (h', .ok ()) ∧
      getDesc F (h'.bare 1) = some s ∧ getDesc F (h'.bare 4) = some s ∧ 7 ∈ h'.findLayers 0 ∧ getDesc F (h'.bare 7) = none := by
  obtain ⟨h', e, as⟩ := c180_descendants_partial (F := F) (a := .desc) (v := .str s) (h := exNest) (k := .animation) (g := 0)
    (l := [1]) (st := fun _ => [4]) (by decide +kernel) (by
      intro x hx _
      rw [List.mem_singleton] at hx
      subst hx
      decide +kernel) fun n => rfl
  have hL : ([1].flatMap fun x => x :: if isGroupAt exNest x then [4] else []) = [1, 4] := by decide +kernel
  rw [hL] at as
  have hs := forList_shape (assign_keeps F .desc (.str s) exNest) [1, 4] exNest (.refl _)
  have e' := descendants_shape (assign_keeps F .desc (.str s) exNest) (st := fun _ => [4]) (k := .animation) (g := 0) (l := [1])
    (by decide +kernel) (by
      intro x hx _
      rw [List.mem_singleton] at hx
      subst hx
      decide +kernel) (.refl exNest)
  rw [hL, e] at e'
  rw [← e'] at hs
  refine ⟨h', e, ?_, ?_, ?_, ?_⟩
  · rw [as.2.2.2.1 1 (by simp)]
    exact (c57_desc_string F _ (by decide +kernel) s).2.1
  · rw [as.2.2.2.1 4 (by simp)]
    exact (c57_desc_string F _ (by decide +kernel) s).2.1
  · rw [hs.findLayers]
    decide +kernel
  · rw [bare_congr (as.2.2.2.2 7 (by simp))]
    rfl

/-! ## Examples -/

/-- Both layers of the first animation described. -/
example : ∃ h', forChildren .animation 0 (fun x => assignAttr double .desc (.str "x".toList) x) exPair = (h', .ok ()) ∧
    getDesc double (h'.bare 1) = some "x".toList ∧ getDesc double (h'.bare 2) = some "x".toList := by
  obtain ⟨h', e, hr⟩ := c180_read_desc (F := double) (h := exPair) (k := .animation) (g := 0) (l := [2, 1]) (by decide +kernel) "x".toList
  exact ⟨h', e, hr 1 (by simp), hr 2 (by simp)⟩

/-- All that are found made inactive. -/
example : ∃ h', forFound 0 (fun x => assignAttr double .active (.bool false) x) exPair = (h', .ok ()) ∧
    getActive double (h'.bare 1) = false := by
  have hfound : exPair.findLayers 0 = [1, 2] := by decide +kernel
  obtain ⟨h', e, as, -⟩ := c180_found (F := double) (a := .active) (v := .bool false) (h := exPair) (z := 0) (by
    intro x hx
    rw [hfound] at hx
    simp only [List.mem_cons, List.not_mem_nil, or_false] at hx
    rcases hx with rfl | rfl
    · exact ⟨lcCircle, by decide +kernel⟩
    · exact ⟨lcStar, by decide +kernel⟩) fun n => rfl
  refine ⟨h', e, ?_⟩
  rw [as.2.2.2.1 1 (by rw [hfound]; simp)]
  decide +kernel

/-- A version that isn't a number. -/
example : forChildren .animation 0 (fun x => assignAttr double .version (.str "x".toList) x) exPair = (exPair, .error .value) :=
  c180_refused (l := [2, 1]) (by decide +kernel) (by simp) fun n => by
    have : (PV.str "x".toList).toFloat double = .error .value := by decide +kernel
    simp only [EAttr.set, setVersion, this]

end Sang
