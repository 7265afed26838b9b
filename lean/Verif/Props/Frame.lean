import Verif.Lemmas.Nameless
import Verif.Spec.Frame
import Verif.Props.Layers
import Verif.Props.Groups

/-!
# C127-C129: setting one thing about a layer leaves the others alone, the order doesn't matter, and the last
assignment counts
-/

namespace Sang
open Spec

/-! ## Two params of one layer -/

theorem tagsOnly_noNames {l : List Node} (h : ∀ x ∈ l, x.isTag = false) : ∀ k ∈ l, NoNames k := by
  intro k hk
  cases k with
  | text s => exact noNames_text s
  | tag n a ks => exact absurd (h _ hk) (by simp [Node.isTag])

theorem noneIn_noNames {g : Str} {l : List Node} (h : ∀ k ∈ l, NoNames k) : NoneIn (isParam g) l := by
  intro y hy
  obtain ⟨k, hk, hy⟩ := mem_nodesIn'.1 hy
  simp [isParam, h k hk y hy]

theorem noneIn_param {f g : Str} (hne : f ≠ g) {a : Attrs} (ha : a.get "name" = some (.str f)) {ks : List Node}
    (h : ∀ k ∈ ks, NoNames k) : NoneIn (isParam g) [.tag "param" a ks] := by
  intro y hy
  simp only [Node.nodesIn, Node.subtree, List.append_nil, List.mem_cons] at hy
  rcases hy with rfl | hy
  · simp [isParam, Node.attrs, ha, hne]
  · exact noneIn_noNames h y hy

theorem slot_value_noNames {s : Slot} {f : Str} (h : s.Ok f) {v : Node} (hv : NoNames v) :
    ∀ k ∈ s.wpre ++ v :: s.wpost, NoNames k := by
  intro k hk
  rcases List.mem_append.1 hk with hk | hk
  · exact tagsOnly_noNames h.wpre k hk
  · rcases List.mem_cons.1 hk with rfl | hk
    · exact hv
    · exact tagsOnly_noNames h.wpost k hk

theorem noneIn_append {p : Node → Bool} {l r : List Node} : NoneIn p (l ++ r) ↔ NoneIn p l ∧ NoneIn p r := by
  simp only [NoneIn, nodesIn_append, List.mem_append]
  exact ⟨fun h => ⟨fun y hy => h y (.inl hy), fun y hy => h y (.inr hy)⟩,
    fun h y hy => hy.elim (h.1 y) (h.2 y)⟩

theorem first_iff {s : Slot} {f : Str} :
    (∀ x ∈ Node.nodesIn s.pre, ¬ (x.name = "param" ∧ x.attrs.get "name" = some (.str f))) ↔
      NoneIn (isParam f) s.pre := by
  simp only [NoneIn, isParam, Bool.and_eq_false_iff, decide_eq_false_iff_not, not_and_or]

/-- What a search for another param finds doesn't depend on a value without names. -/
theorem slot_findOther {s : Slot} {f g : Str} (h : s.Ok f) (hne : g ≠ f) {v m : Node} (hv : NoNames v)
    (hm : NoNames m) : findParam g (s.plug m) = findParam g (s.plug v) := by
  have e : ∀ v, NoNames v → (s.plug v).descTags.filter (isParam g) =
      (Node.nodesIn (s.pre ++ s.post)).filter (isParam g) := by
    intro v hv
    have := (noneIn_param (g := g) (Ne.symm hne) h.named (slot_value_noNames h hv)).filter
    simp only [Node.nodesIn, List.append_nil] at this
    simp only [Slot.plug, Node.descTags, Node.kids, filter_isTag (tagOnly_isParam g), nodesIn_append,
      nodesIn_cons, List.filter_append, this, List.nil_append]
  rw [findParam, findParam, e m hm, e v hv]

/-- Two own params of a layer, the first before the second: both can be changed, in either order. -/
theorem slots_before {sf sg : Slot} {f g : Str} (hf : sf.Ok f) (hg : sg.Ok g) (hne : f ≠ g) {v w : Node}
    {mid : List Node} (hn : sf.name = sg.name) (ha : sf.attrs = sg.attrs)
    (e1 : sg.pre = sf.pre ++ .tag "param" sf.pattrs (sf.wpre ++ v :: sf.wpost) :: mid)
    (e2 : sf.post = mid ++ .tag "param" sg.pattrs (sg.wpre ++ w :: sg.wpost) :: sg.post) :
    ∃ Sg Sf : Node → Slot, (∀ m, sf.plug m = (Sg m).plug w) ∧ (∀ m, sg.plug m = (Sf m).plug v) ∧
      (∀ m m', (Sg m).plug m' = (Sf m').plug m) ∧ (∀ m, NoNames m → (Sg m).Ok g) ∧
      (∀ m, NoNames m → (Sf m).Ok f) := by
  refine ⟨fun m => {sg with pre := sf.pre ++ .tag "param" sf.pattrs (sf.wpre ++ m :: sf.wpost) :: mid},
    fun m => {sf with post := mid ++ .tag "param" sg.pattrs (sg.wpre ++ m :: sg.wpost) :: sg.post}, ?_, ?_, ?_, ?_, ?_⟩
  · intro m
    simp [Slot.plug, hn, ha, e2]
  · intro m
    simp [Slot.plug, hn, ha, e1]
  · intro m m'
    simp [Slot.plug, hn, ha]
  · intro m hm
    refine ⟨hg.named, hg.wpre, hg.wpost, ?_⟩
    refine first_iff.2 ?_
    have := first_iff.1 hg.first
    rw [e1, ← List.singleton_append, noneIn_append, noneIn_append] at this
    simp only
    rw [← List.singleton_append, noneIn_append, noneIn_append]
    exact ⟨this.1, noneIn_param hne hf.named (slot_value_noNames hf hm), this.2.2⟩
  · intro m _
    exact ⟨hf.named, hf.wpre, hf.wpost, hf.first⟩

/-- Two own params of a layer: both can be changed, in either order. -/
theorem slots_both {sf sg : Slot} {f g : Str} (hf : sf.Ok f) (hg : sg.Ok g) (hne : f ≠ g) {v w : Node}
    (e : sf.plug v = sg.plug w) :
    ∃ Sg Sf : Node → Slot, (∀ m, sf.plug m = (Sg m).plug w) ∧ (∀ m, sg.plug m = (Sf m).plug v) ∧
      (∀ m m', (Sg m).plug m' = (Sf m').plug m) ∧ (∀ m, NoNames m → (Sg m).Ok g) ∧
      (∀ m, NoNames m → (Sf m).Ok f) := by
  simp only [Slot.plug, Node.tag.injEq] at e
  obtain ⟨hn, ha, e⟩ := e
  rcases List.append_eq_append_iff.1 e with ⟨as, e1, e2⟩ | ⟨as, e1, e2⟩
  · cases as with
    | nil =>
      simp only [List.nil_append, List.cons.injEq, Node.tag.injEq] at e2
      have := hf.named
      rw [e2.1.2.1, hg.named] at this
      simp only [Option.some.injEq, AttrV.str.injEq] at this
      exact absurd this.symm hne
    | cons x mid =>
      simp only [List.cons_append, List.cons.injEq] at e2
      obtain ⟨rfl, e2⟩ := e2
      exact slots_before hf hg hne hn ha e1 e2
  · cases as with
    | nil =>
      simp only [List.nil_append, List.cons.injEq, Node.tag.injEq] at e2
      have := hf.named
      rw [← e2.1.2.1, hg.named] at this
      simp only [Option.some.injEq, AttrV.str.injEq] at this
      exact absurd this.symm hne
    | cons x mid =>
      simp only [List.cons_append, List.cons.injEq] at e2
      obtain ⟨rfl, e2⟩ := e2
      obtain ⟨Sf, Sg, h1, h2, h3, h4, h5⟩ := slots_before hg hf (Ne.symm hne) hn.symm ha.symm e1 e2
      exact ⟨Sg, Sf, h2, h1, fun m m' => (h3 m' m).symm, h5, h4⟩

/-! ## What each statement does -/

/-- A statement about a param does something to its value. -/
def ActsOn (run : Node → Node × Res Unit) (f : Str) : Prop :=
  ∃ h : Node → Node × Res Unit, (∀ v, Nameless v → Nameless (h v).1) ∧
    ∀ s v, Slot.Ok s f → Nameless v → run (s.plug v) = (s.plug (h v).1, (h v).2)

/-- A statement about an attribute raises an exception, or sets it, or removes it. -/
def ActsOnAttr (run : Node → Node × Res Unit) (k : String) : Prop :=
  (∃ e, ∀ n, run n = (n, .error e)) ∨ (∃ a, ∀ n, run n = (n.setAttr k a, .ok ())) ∨
    ∀ n, run n = (n.delAttr k, .ok ())

theorem nameAndValue_slot {s : Slot} {f : Str} (h : s.Ok f) {v : Node} (hv : v.isTag = true) :
    nameAndValue (.tag "param" s.pattrs (s.wpre ++ v :: s.wpost)) = (fromTag v).map fun c => (f, c, v) := by
  have hh := slot_holds h hv
  rw [nameAndValue, if_neg (by simp [Node.name]), hh.2.1, hh.2.2]
  simp only
  cases fromTag v <;> rfl

theorem acts_subscript (F : Fl) (f : Str) (x : PV) (hx : NamelessArg x) : ActsOn (setParam F f x) f := by
  refine ⟨fun v => match fromTag v with
    | .error e => (v, .error e)
    | .ok c => match newItem F c x with
      | .error e => (v, .error e)
      | .ok m => (m, .ok ()), ?_, ?_⟩
  · intro v hv
    simp only
    split
    · exact hv
    · split
      · exact hv
      · rename_i hm; exact newItem_nameless hx hm
  · intro s v h hv
    rw [setParam, slot_findParam h]
    simp only [nameAndValue_slot h hv.1]
    cases fromTag v with
    | error e => rfl
    | ok c =>
      simp only [Except.map]
      cases newItem F c x with
      | error e => rfl
      | ok m => simp only [slot_replace h hv.1]

theorem acts_field (F : Fl) (k : String) (c : VCls) (d : Lit) (x : PV) :
    ActsOn (setField F k (.param c d) x) k.toList := by
  refine ⟨fun v => match fromTag v with
    | .error e => (v, .error e)
    | .ok c => setValue F c x v, ?_, ?_⟩
  · intro v hv
    simp only
    split
    · exact hv
    · exact setValue_nameless hv
  · intro s v h hv
    simp only [setField, fieldValue, slot_findParam h, slot_tagKids h hv.1]
    cases fromTag v with
    | error e => rfl
    | ok c' => simp only [slot_replace h hv.1]

theorem acts_value (F : Fl) (f : Str) (g : VCls → Change) (hg : ∀ c, (g c).OnValue) :
    ActsOn (onParam f fun c => (g c).run F) f := by
  refine ⟨fun v => match fromTag v with
    | .error e => (v, .error e)
    | .ok c => (g c).run F v, ?_, ?_⟩
  · intro v hv
    simp only
    split
    · exact hv
    · exact change_nameless (hg _) hv
  · intro s v h hv
    rw [onParam, slot_findParam h]
    simp only [nameAndValue_slot h hv.1]
    cases fromTag v with
    | error e => rfl
    | ok c => simp only [Except.map, slot_replace h hv.1]

theorem acts_bool (F : Fl) (k : String) (x : PV) : ActsOnAttr (setBoolAttr F k x) k := by
  cases h : x.toBool F with
  | error e => exact .inl ⟨e, fun n => by simp only [setBoolAttr, h]⟩
  | ok b => exact .inr (.inl ⟨.str (boolStr b), fun n => by simp only [setBoolAttr, h]⟩)

theorem acts_version (F : Fl) (x : PV) : ActsOnAttr (setVersion F x) "version" := by
  cases h : x.toFloat F with
  | error e => exact .inl ⟨e, fun n => by simp only [setVersion, h]⟩
  | ok b => exact .inr (.inl ⟨.num b, fun n => by simp only [setVersion, h]⟩)

theorem acts_desc (F : Fl) (x : PV) : ActsOnAttr (setDesc F x) "desc" := by
  cases hn : x.isNone with
  | true => exact .inr (.inr fun n => by rw [setDesc, if_pos hn])
  | false =>
    cases h : x.toStr F with
    | error e => exact .inl ⟨e, fun n => by simp only [setDesc, hn, h]; rfl⟩
    | ok b => exact .inr (.inl ⟨.str b, fun n => by simp only [setDesc, hn, h]; rfl⟩)

/-- What each statement does. -/
theorem step_acts (F : Fl) {n : Node} (s : Step) (h : s.Fits n) :
    (∃ f, s.about = .param f ∧ Own f n ∧ ActsOn (s.run F) f) ∨
      ∃ k, s.about = .attr k ∧ k ≠ "type" ∧ n.isTag = true ∧ ActsOnAttr (s.run F) k := by
  cases s with
  | subscript f x => exact .inl ⟨f, rfl, h.1, acts_subscript F f x h.2⟩
  | field k c d x => exact .inl ⟨_, rfl, h.1, acts_field F k c d x⟩
  | value f g => exact .inl ⟨f, rfl, h.1, acts_value F f g h.2⟩
  | desc x => exact .inr ⟨_, rfl, by decide, h, acts_desc F x⟩
  | active x => exact .inr ⟨_, rfl, by decide, h, acts_bool F _ x⟩
  | exclude x => exact .inr ⟨_, rfl, by decide, h, acts_bool F _ x⟩
  | version x => exact .inr ⟨_, rfl, by decide, h, acts_version F x⟩

theorem own_isTag {f : Str} {n : Node} (h : Own f n) : n.isTag = true := by
  obtain ⟨s, v, -, -, rfl⟩ := h; rfl

theorem fits_isTag {n : Node} {s : Step} (h : s.Fits n) : n.isTag = true := by
  cases s with
  | subscript | field | value => exact own_isTag h.1
  | _ => exact h

/-- A change of attributes. -/
theorem own_attrs {f : Str} {nm : String} {a b : Attrs} {ks : List Node} (h : Own f (.tag nm a ks)) :
    Own f (.tag nm b ks) := by
  obtain ⟨s, v, hs, hv, e⟩ := h
  simp only [Slot.plug, Node.tag.injEq] at e
  refine ⟨{s with attrs := b}, v, ⟨hs.named, hs.wpre, hs.wpost, hs.first⟩, hv, ?_⟩
  simp [Slot.plug, e.1, e.2.2]

/-- A statement about an attribute, on an element. -/
theorem actsAttr_tag {run : Node → Node × Res Unit} {k : String} (h : ActsOnAttr run k) (nm : String) (a : Attrs)
    (ks : List Node) : ∃ b, (run (.tag nm a ks)).1 = .tag nm b ks ∧ ∀ j, j ≠ k → b.get j = a.get j := by
  rcases h with ⟨e, h⟩ | ⟨c, h⟩ | h
  · exact ⟨a, by rw [h], fun _ _ => rfl⟩
  · refine ⟨dictSet k c a, by rw [h]; rfl, fun j hj => ?_⟩
    exact (lookup_dictSet k j c a).trans (if_neg hj)
  · refine ⟨a.filter fun p => p.1 ≠ k, by rw [h]; rfl, fun j hj => ?_⟩
    have := get_delAttr (.tag nm a ks) k j
    rwa [if_neg hj] at this

/-- A statement about one param leaves the others own ones. -/
theorem own_acts {run : Node → Node × Res Unit} {f g : Str} (h : ActsOn run f) {n : Node} (hf : Own f n)
    (hg : Own g n) : Own g (run n).1 := by
  obtain ⟨sf, v, hsf, hv, rfl⟩ := hf
  obtain ⟨act, hact, hrun⟩ := h
  rw [hrun sf v hsf hv]
  by_cases hne : f = g
  · subst hne
    exact ⟨sf, _, hsf, hact v hv, rfl⟩
  · obtain ⟨sg, w, hsg, hw, e⟩ := hg
    obtain ⟨Sg, Sf, h1, -, -, h4, -⟩ := slots_both hsf hsg hne e
    exact ⟨Sg (act v).1, w, h4 _ (hact v hv).2, hw, h1 _⟩

theorem own_step (F : Fl) {n : Node} {s : Step} (hs : s.Fits n) {g : Str} (hg : Own g n) : Own g (s.run F n).1 := by
  rcases step_acts F s hs with ⟨f, -, hf, h⟩ | ⟨k, -, -, hn, h⟩
  · exact own_acts h hf hg
  · cases n with
    | text t => cases hn
    | tag nm a ks =>
      obtain ⟨b, e, -⟩ := actsAttr_tag h nm a ks
      rw [e]
      exact own_attrs hg

/-- After a statement the others can still be about this layer. -/
theorem fits_step (F : Fl) {n : Node} {s t : Step} (hs : s.Fits n) (ht : t.Fits n) : t.Fits (s.run F n).1 := by
  have hn : (s.run F n).1.isTag = true := by
    rcases step_acts F s hs with ⟨f, -, hf, h⟩ | ⟨k, -, -, hn, h⟩
    · exact own_isTag (own_acts h hf hf)
    · cases n with
      | text t => cases hn
      | tag nm a ks =>
        obtain ⟨b, e, -⟩ := actsAttr_tag h nm a ks
        rw [e]; rfl
  cases t with
  | subscript f x => exact ⟨own_step F hs ht.1, ht.2⟩
  | field k c d x => exact ⟨own_step F hs ht.1, ht.2⟩
  | value f g => exact ⟨own_step F hs ht.1, ht.2⟩
  | _ => exact hn

/-! ## C127 -/

/-- Everything that is read from a layer is read from its attributes and from what a search for a param
finds. -/
theorem sameBesides_of {F : Fl} {touched : Thing → Prop} {n n' : Node} (hn : n'.name = n.name)
    (ha : ∀ k, ¬ touched (.attr k) → n'.attrs.get k = n.attrs.get k)
    (hc : ∀ g, (findParam g n').isSome = (findParam g n).isSome)
    (hp : ∀ g, ¬ touched (.param g) → findParam g n' = findParam g n) : SameBesides F touched n n' where
  name := hn
  cls h := by simp only [layerOf, ha _ h]
  contains g := hc g
  subscript g h := by simp only [getParam, hp g h]
  field k f h := by cases f <;> simp only [getField, fieldValue, hp _ h]
  children h := by simp only [children, canvasKids, canvasTag, hp _ h]
  desc h := by simp only [getDesc, ha _ h]
  active h := by simp only [getActive, getBoolAttr, ha _ h]
  exclude h := by simp only [getExclude, getBoolAttr, ha _ h]
  version h d := by simp only [getVersion, ha _ h]
  type h d := by simp only [getType, ha _ h]

theorem findParam_kids {g : Str} {n n' : Node} (h : n'.kids = n.kids) : findParam g n' = findParam g n := by
  simp only [findParam, Node.descTags, h]

/-- C127, one statement. Whatever one statement about a layer does, and whether or not it raises an
exception: everything it isn't about reads as before. Missing: params that are not the layer's own or come
after one of a nested layer of the same name, where the statement is about something else than it says
(`c54_subscripts_fail`). -/
theorem c127_one_statement_partial (F : Fl) {n : Node} (s : Step) (h : s.Fits n) :
    SameBesides F (· = s.about) n (s.run F n).1 := by
  rcases step_acts F s h with ⟨f, e, ⟨sl, v, hsl, hv, rfl⟩, act, hact, hrun⟩ | ⟨k, e, -, hn, hact⟩
  · rw [hrun sl v hsl hv]
    have hp : ∀ g, g ≠ f → findParam g (sl.plug (act v).1) = findParam g (sl.plug v) := fun g hg =>
      slot_findOther hsl hg hv.2 (hact v hv).2
    refine sameBesides_of rfl (fun _ _ => rfl) (fun g => ?_) fun g hg => hp g fun hgf => hg (by rw [e, hgf])
    by_cases hg : g = f
    · subst hg
      rw [slot_findParam hsl, slot_findParam hsl]; rfl
    · rw [hp g hg]
  · cases n with
    | text t => cases hn
    | tag nm a ks =>
      obtain ⟨b, e', hb⟩ := actsAttr_tag hact nm a ks
      rw [e']
      refine sameBesides_of rfl (fun j hj => hb j fun hjk => hj (by rw [e, hjk])) (fun g => ?_) fun g _ => ?_
      · rw [findParam_kids (n := .tag nm a ks) (n' := .tag nm b ks) rfl]
      · exact findParam_kids rfl

theorem sameBesides_trans {F : Fl} {A B C : Thing → Prop} (hA : ∀ t, A t → C t) (hB : ∀ t, B t → C t)
    {n m k : Node} (h1 : SameBesides F A n m) (h2 : SameBesides F B m k) : SameBesides F C n k where
  name := h2.name.trans h1.name
  cls h := (h2.cls (mt (hB _) h)).trans (h1.cls (mt (hA _) h))
  contains g := (h2.contains g).trans (h1.contains g)
  subscript g h := (h2.subscript g (mt (hB _) h)).trans (h1.subscript g (mt (hA _) h))
  field k f h := (h2.field k f (mt (hB _) h)).trans (h1.field k f (mt (hA _) h))
  children h := (h2.children (mt (hB _) h)).trans (h1.children (mt (hA _) h))
  desc h := (h2.desc (mt (hB _) h)).trans (h1.desc (mt (hA _) h))
  active h := (h2.active (mt (hB _) h)).trans (h1.active (mt (hA _) h))
  exclude h := (h2.exclude (mt (hB _) h)).trans (h1.exclude (mt (hA _) h))
  version h d := (h2.version (mt (hB _) h) d).trans (h1.version (mt (hA _) h) d)
  type h d := (h2.type (mt (hB _) h) d).trans (h1.type (mt (hA _) h) d)

/-- C127, any number of statements. Whatever program sets things about a layer, in whatever order and however
often, and whichever of the statements fail: everything none of them is about reads as it did at the start. -/
theorem c127_any_program_partial (F : Fl) (steps : List Step) {n : Node} (h : ∀ s ∈ steps, s.Fits n) :
    SameBesides F (fun t => ∃ s ∈ steps, t = s.about) n (runSteps F steps n) := by
  induction steps generalizing n with
  | nil => exact sameBesides_of rfl (fun _ _ => rfl) (fun _ => rfl) (fun _ _ => rfl)
  | cons s r ih =>
    have hs := h s (by simp)
    exact sameBesides_trans (fun t ht => ⟨s, by simp, ht⟩) (fun t ⟨u, hu, ht⟩ => ⟨u, by simp [hu], ht⟩)
      (c127_one_statement_partial F s hs) (ih fun u hu => fits_step F hs (h u (by simp [hu])))

/-- C127 fails where C54 does: setting `z_depth` of this group changes its child. -/
theorem c127_child_changed :
    children .group (Step.run double (.subscript "z_depth".toList (.float 2)) exNested).1 ≠
      children .group exNested := by
  decide +kernel

/-- C127, adding layers. `group.append(x)` and `group.insert(i, x)` leave the group's attributes alone, and
the params which come before the group's canvas read as before. Missing: params which come after it, for which
that fails (`c127_append_hides_param`). -/
theorem c127_adding_layers_partial {f : Frame} (hf : f.Ok) (ks : List Node) (x : LArg) (i : ℤ) (m : Node)
    (hm : m = (groupAppend .group x (f.plug ks)).1 ∨ m = (groupInsert .group i x (f.plug ks)).1) :
    m.name = (f.plug ks).name ∧ m.attrs = (f.plug ks).attrs ∧
      ∀ g, (∃ p ∈ Node.nodesIn f.pre, p.name = "param" ∧ p.attrs.get "name" = some (.str g)) →
        getParam g m = getParam g (f.plug ks) := by
  have key : ∃ ks', m = f.plug ks' := by
    rcases hm with rfl | rfl
    · cases x with
      | other => exact ⟨ks, rfl⟩
      | layer x =>
        simp only [groupAppend]
        split
        · exact ⟨ks, rfl⟩
        · exact ⟨_, updCanvas_plug (h := .group f) hf _ ks⟩
    · cases x with
      | other => exact ⟨ks, rfl⟩
      | layer x =>
        simp only [groupInsert]
        split
        · exact ⟨ks, rfl⟩
        · split
          · exact ⟨ks, rfl⟩
          · exact ⟨_, updCanvas_plug (h := .group f) hf _ ks⟩
  obtain ⟨ks', rfl⟩ := key
  refine ⟨rfl, rfl, ?_⟩
  rintro g ⟨p, hp, h1, h2⟩
  have e : ∀ ks, findParam g (f.plug ks) = ((Node.nodesIn f.pre).filter (isParam g)).head? := by
    intro ks
    simp only [findParam, Frame.plug, Node.descTags, Node.kids, filter_isTag (tagOnly_isParam g), nodesIn_append,
      List.filter_append]
    rw [List.head?_append, Option.or_of_isSome]
    rw [List.isSome_head?]
    exact List.ne_nil_of_mem (List.mem_filter.2 ⟨hp, by simp [isParam, h1, h2]⟩)
  simp only [getParam, e]

/-- A group with its canvas first, and nothing in it. -/
def exCanvasFirst : Node := .tag "layer" [("type", .str "group".toList)]
  [exParam "canvas" (.tag "canvas" [] []), exParam "z_depth" (exRealTag "1.0")]

/-- C127 fails: appending a layer to this group changes what the group's own `z_depth` reads as. -/
theorem c127_append_hides_param :
    getParam "z_depth".toList exCanvasFirst = .ok (.real, exRealTag "1.0") ∧
    getParam "z_depth".toList (groupAppend .group (.layer (.tag "layer" [("type", .str "circle".toList)]
      [exParam "z_depth" (exRealTag "7.0")])) exCanvasFirst).1 = .ok (.real, exRealTag "7.0") := by
  decide +kernel

/-- A circle with two reals. -/
def exCircle : Node := .tag "layer" [("type", .str "circle".toList), ("desc", .str "sun".toList)]
  [exParam "z_depth" (exRealTag "1.0"), exParam "radius" (exRealTag "2.0")]

theorem exCircle_own : Own "z_depth".toList exCircle ∧ Own "radius".toList exCircle :=
  ⟨⟨⟨"layer", [("type", .str "circle".toList), ("desc", .str "sun".toList)], [],
      [exParam "radius" (exRealTag "2.0")], [("name", .str "z_depth".toList)], [.text ['\n']], [.text ['\n']]⟩,
    exRealTag "1.0", ⟨rfl, by decide +kernel, by decide +kernel, by decide +kernel⟩,
    ⟨rfl, by decide +kernel⟩, rfl⟩,
   ⟨⟨"layer", [("type", .str "circle".toList), ("desc", .str "sun".toList)], [exParam "z_depth" (exRealTag "1.0")],
      [], [("name", .str "radius".toList)], [.text ['\n']], [.text ['\n']]⟩,
    exRealTag "2.0", ⟨rfl, by decide +kernel, by decide +kernel, by decide +kernel⟩,
    ⟨rfl, by decide +kernel⟩, rfl⟩⟩

/-- C127's hypotheses are met by a program that sets the radius, by subscript and by field, and the
description, and makes the radius animated. -/
example : ∀ s ∈ [Step.subscript "radius".toList (.float 3), .field "radius" .real (.float 1) (.str "x".toList),
    .desc (.str "moon".toList), .value "radius".toList fun c => .animated {root := none, hasParent := false} c true],
    s.Fits exCircle := by
  intro s hs
  simp only [List.mem_cons, List.not_mem_nil, or_false] at hs
  rcases hs with rfl | rfl | rfl | rfl
  · exact ⟨exCircle_own.2, .float _⟩
  · exact ⟨exCircle_own.2, .str _⟩
  · exact rfl
  · exact ⟨exCircle_own.2, fun _ => trivial⟩

/-- C127 on that layer: the radius changes, and the depth doesn't. -/
example : (getParam "z_depth".toList (runSteps double [.subscript "radius".toList (.float 3)] exCircle) =
      .ok (.real, exRealTag "1.0")) ∧
    getParam "radius".toList (runSteps double [.subscript "radius".toList (.float 3)] exCircle) =
      .ok (.real, exRealTag "3.0000000000") := by decide +kernel

/-! ## C128 -/

theorem alike_refl (n : Node) : Alike n n := ⟨rfl, rfl, fun _ => rfl⟩

/-- C128. Two statements about different things of a layer can be exchanged: each raises what it would
have raised without the other, and the layer is the same afterwards (attributes may be in another order). -/
theorem c128_order_is_free_partial (F : Fl) {n : Node} (s t : Step) (hs : s.Fits n) (ht : t.Fits n)
    (hne : s.about ≠ t.about) :
    Alike (s.run F (t.run F n).1).1 (t.run F (s.run F n).1).1 ∧
      (t.run F (s.run F n).1).2 = (t.run F n).2 ∧ (s.run F (t.run F n).1).2 = (s.run F n).2 := by
  rcases step_acts F s hs with ⟨f, ef, ⟨sf, v, hsf, hv, e1⟩, act, hact, hrun⟩ | ⟨k, ek, -, hn, hact⟩
  · rcases step_acts F t ht with ⟨g, eg, ⟨sg, w, hsg, hw, e2⟩, act', hact', hrun'⟩ | ⟨j, ej, -, hn, hact'⟩
    · have hfg : f ≠ g := fun e => hne (by rw [ef, eg, e])
      obtain ⟨Sg, Sf, h1, h2, h3, h4, h5⟩ := slots_both hsf hsg hfg (e1.symm.trans e2)
      have hS : s.run F n = ((Sg (act v).1).plug w, (act v).2) := by rw [e1, hrun sf v hsf hv, h1]
      have hT : t.run F n = ((Sf (act' w).1).plug v, (act' w).2) := by rw [e2, hrun' sg w hsg hw, h2]
      have hST := hrun' (Sg (act v).1) w (h4 _ (hact v hv).2) hw
      have hTS := hrun (Sf (act' w).1) v (h5 _ (hact' w hw).2) hv
      rw [hS, hT]
      simp only
      rw [hST, hTS]
      simp only
      rw [h3]
      exact ⟨alike_refl _, trivial, trivial⟩
    · subst e1
      have hS : ∀ b, (∀ m, {sf with attrs := b}.plug m = .tag sf.name b (sf.plug m).kids) ∧
          Slot.Ok {sf with attrs := b} f := fun b => ⟨fun m => rfl, hsf.named, hsf.wpre, hsf.wpost, hsf.first⟩
      rcases hact' with ⟨e, h⟩ | ⟨c, h⟩ | h
      · simp only [h]; exact ⟨alike_refl _, trivial, trivial⟩
      · simp only [h, hrun sf v hsf hv, true_and]
        have := hrun {sf with attrs := dictSet j c sf.attrs} v (hS _).2 hv
        rw [show (sf.plug v).setAttr j c = {sf with attrs := dictSet j c sf.attrs}.plug v from rfl, this]
        exact ⟨alike_refl _, rfl⟩
      · simp only [h, hrun sf v hsf hv, true_and]
        have := hrun {sf with attrs := sf.attrs.filter fun p => p.1 ≠ j} v (hS _).2 hv
        rw [show (sf.plug v).delAttr j = {sf with attrs := sf.attrs.filter fun p => p.1 ≠ j}.plug v from rfl, this]
        exact ⟨alike_refl _, rfl⟩
  · rcases step_acts F t ht with ⟨g, eg, ⟨sg, w, hsg, hw, e2⟩, act', hact', hrun'⟩ | ⟨j, ej, -, -, hact'⟩
    · subst e2
      have hS : ∀ b, Slot.Ok {sg with attrs := b} g := fun b => ⟨hsg.named, hsg.wpre, hsg.wpost, hsg.first⟩
      rcases hact with ⟨e, h⟩ | ⟨c, h⟩ | h
      · simp only [h]; exact ⟨alike_refl _, trivial, trivial⟩
      · simp only [h, hrun' sg w hsg hw, and_true]
        have := hrun' {sg with attrs := dictSet k c sg.attrs} w (hS _) hw
        rw [show (sg.plug w).setAttr k c = {sg with attrs := dictSet k c sg.attrs}.plug w from rfl, this]
        exact ⟨alike_refl _, rfl⟩
      · simp only [h, hrun' sg w hsg hw, and_true]
        have := hrun' {sg with attrs := sg.attrs.filter fun p => p.1 ≠ k} w (hS _) hw
        rw [show (sg.plug w).delAttr k = {sg with attrs := sg.attrs.filter fun p => p.1 ≠ k}.plug w from rfl, this]
        exact ⟨alike_refl _, rfl⟩
    · have hkj : k ≠ j := fun e => hne (by rw [ek, ej, e])
      have hd : ∀ (m : Node) k, m.isTag = true → (m.delAttr k).isTag = true := by
        intro m k hm; cases m <;> simp_all [Node.delAttr, Node.isTag]
      have hset : ∀ (m : Node) k a, m.isTag = true → (m.setAttr k a).isTag = true := by
        intro m k a hm; cases m <;> simp_all [Node.setAttr, Node.isTag]
      cases n with
      | text t => cases hn
      | tag nm a ks =>
        rcases hact with ⟨e, h⟩ | ⟨c, h⟩ | h
        · simp only [h]; exact ⟨alike_refl _, trivial, trivial⟩
        · rcases hact' with ⟨e', h'⟩ | ⟨c', h'⟩ | h'
          · simp only [h']; exact ⟨alike_refl _, trivial, trivial⟩
          · simp only [h, h', and_true]
            refine ⟨rfl, rfl, fun i => ?_⟩
            rw [get_setAttr _ rfl, get_setAttr _ rfl, get_setAttr _ rfl, get_setAttr _ rfl]
            by_cases h1 : i = j
            · subst h1; simp [Ne.symm hkj]
            · simp [h1]
          · simp only [h, h', and_true]
            refine ⟨rfl, rfl, fun i => ?_⟩
            rw [get_delAttr, get_setAttr _ rfl, get_setAttr _ rfl, get_delAttr]
            by_cases h1 : i = j
            · subst h1; simp [Ne.symm hkj]
            · simp [h1]
        · rcases hact' with ⟨e', h'⟩ | ⟨c', h'⟩ | h'
          · simp only [h']; exact ⟨alike_refl _, trivial, trivial⟩
          · simp only [h, h', and_true]
            refine ⟨rfl, rfl, fun i => ?_⟩
            rw [get_setAttr _ rfl, get_delAttr, get_delAttr, get_setAttr _ rfl]
            by_cases h1 : i = j
            · subst h1; simp [Ne.symm hkj]
            · simp [h1]
          · simp only [h, h', and_true]
            refine ⟨rfl, rfl, fun i => ?_⟩
            rw [get_delAttr, get_delAttr, get_delAttr, get_delAttr]
            by_cases h1 : i = j
            · subst h1; simp [Ne.symm hkj]
            · simp [h1]

/-- C128's hypotheses are met. -/
example : (Step.subscript "radius".toList (.float 3)).Fits exCircle ∧
    (Step.subscript "z_depth".toList (.float 4)).Fits exCircle ∧
    (Step.subscript "radius".toList (.float 3)).about ≠ (Step.subscript "z_depth".toList (.float 4)).about :=
  ⟨⟨exCircle_own.2, .float _⟩, ⟨exCircle_own.1, .float _⟩, by simp [Step.about]⟩

/-! ## C129 -/

theorem setSimple_again {F : Fl} {name : String} {d : Str} {conv : PV → Res Str} (x y : PV) {n : Node}
    (hn : n.isTag = true) (hy : (setSimple F name d conv y n).2 = .ok ()) :
    setSimple F name d conv y (setSimple F name d conv x n).1 = setSimple F name d conv y n := by
  cases n with
  | text s => cases hn
  | tag nm a ks =>
    simp only [setSimple] at hy ⊢
    cases h : y.eqEmptyTuple F with
    | error e => simp only [h] at hy; cases hy
    | ok b =>
      simp only [h] at hy ⊢
      cases h' : (if (b || y.isNone) = true then Except.ok d else conv y) with
      | error e => simp only [h'] at hy; cases hy
      | ok s =>
        simp only
        repeat' split
        all_goals rfl

/-- A setter which changes only what is in the element. -/
theorem setKidsOnly (F : Fl) (c : VCls) (hc : c ∈ [VCls.string, .gradient, .composite, .canvas]) (x : PV) (nm : String)
    (a : Attrs) (ks : List Node) : ∃ ks', (setValue F c x (.tag nm a ks)).1 = .tag nm a ks' := by
  simp only [List.mem_cons, List.not_mem_nil, or_false] at hc
  rcases hc with rfl | rfl | rfl | rfl
  · simp only [setValue]
    split
    · exact ⟨ks, rfl⟩
    · exact ⟨_, rfl⟩
  · simp only [setValue, setGradient]
    split
    · exact ⟨ks, rfl⟩
    · split
      · exact ⟨ks, rfl⟩
      · exact appendStops_attrs ..
  · simp only [setValue, setComposite]
    split
    · exact ⟨ks, rfl⟩
    · split
      · have : ∀ l ks, ∃ ks', (appendParts F l (.tag nm a ks)).1 = .tag nm a ks' := by
          intro l
          induction l with
          | nil => intro ks; exact ⟨ks, rfl⟩
          | cons p r ih =>
            intro ks
            obtain ⟨k, v⟩ := p
            rw [appendParts]
            split
            · exact ⟨ks, rfl⟩
            · split
              · exact ⟨ks, rfl⟩
              · exact ih _
        exact this ..
      · exact ⟨ks, rfl⟩
  · simp only [setValue]
    unfold setCanvas
    split <;> exact ⟨_, rfl⟩

/-- C129, for values. If `value.value = y` succeeds, then it leaves the value the same whatever it has been
assigned before, even if that failed halfway. Missing: vectors, for which it fails
(`c129_vectors_pile_up`). (`y` is what it is when it's assigned: if it's an object sharing the value's
element then assigning `x` changes it too.) -/
theorem c129_last_value_counts_partial (F : Fl) (c : VCls) (hc : c ≠ .vector) (x y : PV) {n : Node}
    (hn : n.isTag = true) (hy : (setValue F c y n).2 = .ok ()) :
    setValue F c y (setValue F c x n).1 = setValue F c y n := by
  have kids : c ∈ [VCls.string, .gradient, .composite, .canvas] →
      setValue F c y (setValue F c x n).1 = setValue F c y n := by
    intro hk
    cases n with
    | text s => cases hn
    | tag nm a ks =>
      obtain ⟨ks', e⟩ := setKidsOnly F c hk x nm a ks
      rw [e]
      simp only [List.mem_cons, List.not_mem_nil, or_false] at hk
      rcases hk with rfl | rfl | rfl | rfl
      · simp only [setValue] at hy ⊢
        cases h : y.toStr F with
        | error e => simp only [h] at hy; cases hy
        | ok s => rfl
      · simp only [setValue, setGradient] at hy ⊢
        split at hy
        · cases hy
        · split at hy
          · cases hy
          · rename_i h'; simp only [if_neg h', Node.setKids]
      · simp only [setValue, setComposite] at hy ⊢
        split at hy
        · cases hy
        · split at hy
          · rename_i h'; simp only [if_pos h', Node.setKids]
          · cases hy
      · simp only [setValue]
        unfold setCanvas
        split <;> rfl
  cases c with
  | real | integer | bool | angle | time => exact setSimple_again x y hn hy
  | string | gradient | composite | canvas => exact kids (by simp)
  | vector => exact absurd rfl hc
  | tbd s => cases hy
  | color =>
    cases n with
    | text s => cases hn
    | tag nm a ks =>
      simp only [setValue, setColor] at hy ⊢
      cases h : colorArg F y with
      | error e => simp only [h] at hy; cases hy
      | ok cs =>
        simp only
        split <;> rfl

/-- C129 on a concrete value: assigning text that is no number fails and changes nothing; the last of two
numbers counts. -/
example : (setValue double .real (.float 2) (exRealTag "1.0")).2 = .ok () ∧
    setValue double .real (.float 2) (setValue double .real (.float 5) (exRealTag "1.0")).1 =
      (exRealTag "2.0000000000", .ok ()) := by decide +kernel

/-- C129 fails for vectors: whatever two vectors are assigned one after the other, the first is still there. -/
theorem c129_vectors_pile_up (F : Fl) (x1 x2 y1 y2 : ℚ) {n : Node} (hn : n.isTag = true) :
    let x : PV := .tuple [.float x1, .float x2]
    let y : PV := .tuple [.float y1, .float y2]
    (setValue F .vector y n).2 = .ok () ∧
      (setValue F .vector y (setValue F .vector x n).1).1 ≠ (setValue F .vector y n).1 := by
  cases n with
  | text s => cases hn
  | tag nm a ks =>
    refine ⟨rfl, fun h => ?_⟩
    have := congrArg (fun m => m.kids.length) h
    simp [setValue, setVector, vectorArg, PV.isNumber, appendMembers, coordText, Node.setName, Node.setAttrs,
      Node.append, Node.kids] at this

theorem fromTag_named {name : String} {c : VCls} {a : Attrs} {ks : List Node} (h : name ≠ "animated")
    (hr : valueRegistry.fromName name.toList = .ok c) (hv : c ≠ .vector) (hc : c ≠ .composite) :
    fromTag (.tag name a ks) = .ok c := fromTag_simple h hr hv hc

theorem fromTag_composite {n : Node} (h : n.name = "composite") (ht : strAttr n "type" = .ok "transformation".toList) :
    fromTag n = .ok .composite := by
  have h1 : n.name ≠ "animated" := by rw [h]; decide
  have hr : valueRegistry.fromName n.name.toList = .ok .composite := by rw [h]; decide
  have hl : lower "transformation".toList = "transformation".toList := by decide +kernel
  simp only [fromTag, if_neg h1, hr, compositeCheck, ht, if_pos hl]

/-- What a plain Python value makes of a class other than the vectors is of that class. -/
theorem newValue_class {F : Fl} {c : VCls} (hc : c ≠ .vector) {x : PV} {m : Node} (h : newValue F c x = .ok m) :
    fromTag m = .ok c := by
  have h' := construct_ok h
  have kids : c ∈ [VCls.string, .gradient, .composite, .canvas] → fromTag m = .ok c := by
    intro hk
    have e : ∃ nm a ks, emptyTag c = .tag nm a ks ∧ ∀ ks', fromTag (.tag nm a ks') = .ok c := by
      simp only [List.mem_cons, List.not_mem_nil, or_false] at hk
      rcases hk with rfl | rfl | rfl | rfl
      · exact ⟨_, _, _, rfl, fun _ => fromTag_named (by decide) (by decide) (by decide) (by decide)⟩
      · exact ⟨_, _, _, rfl, fun _ => fromTag_named (by decide) (by decide) (by decide) (by decide)⟩
      · exact ⟨_, _, _, rfl, fun _ => fromTag_composite rfl rfl⟩
      · exact ⟨_, _, _, rfl, fun _ => fromTag_named (by decide) (by decide) (by decide) (by decide)⟩
    obtain ⟨nm, a, ks, e1, e2⟩ := e
    obtain ⟨ks', e3⟩ := setKidsOnly F c hk x nm a ks
    rw [e1] at h'
    rw [h'] at e3
    simp only at e3
    rw [e3, e2]
  cases c with
  | real | integer | bool | angle | time =>
    obtain ⟨t, rfl⟩ := setSimple_form h'
    exact fromTag_named (by decide) (by decide) (by decide) (by decide)
  | string | gradient | composite | canvas => exact kids (by simp)
  | vector => exact absurd rfl hc
  | tbd s => cases h
  | color =>
    obtain ⟨r, g, b, a, rfl⟩ := newColor_form h
    exact fromTag_named (by decide) (by decide) (by decide) (by decide)

/-- C129, for subscripts. If `layer[f] = y` succeeds then it leaves the layer the same, whether or not
`layer[f] = x` came before, provided `x` makes something of the value's class (which any plain Python value
does, vectors apart: `newValue_class`). Vectors too are replaced as a whole. -/
theorem c129_last_subscript_counts_partial (F : Fl) {f : Str} (x y : PV) {n : Node} (hn : Own f n) {c : VCls} {v : Node}
    (hc : getParam f n = .ok (c, v)) (hx : ∀ m, newItem F c x = .ok m → m.isTag = true ∧ fromTag m = .ok c)
    (hy : (setParam F f y n).2 = .ok ()) : setParam F f y (setParam F f x n).1 = setParam F f y n := by
  obtain ⟨s, w, hs, hw, rfl⟩ := hn
  rw [c54_subscript_reads_own_partial hs hw.1] at hc
  cases hcl : fromTag w with
  | error e => rw [hcl] at hc; cases hc
  | ok c' =>
    rw [hcl] at hc
    simp only [Except.map, Except.ok.injEq, Prod.mk.injEq] at hc
    obtain ⟨rfl, rfl⟩ := hc
    cases hm : newItem F c' x with
    | error e => rw [c54_subscript_refuses hs hw.1 hcl hm]
    | ok m =>
      obtain ⟨h1, h2⟩ := hx m hm
      rw [c54_subscript_writes_own_partial hs hw.1 hcl hm]
      cases hm' : newItem F c' y with
      | error e => rw [c54_subscript_refuses hs hw.1 hcl hm'] at hy; cases hy
      | ok m' =>
        rw [c54_subscript_writes_own_partial hs hw.1 hcl hm', c54_subscript_writes_own_partial hs h1 h2 hm']

/-- C129, for attributes: a statement about an attribute that succeeds leaves the layer the same whether or not
another statement about the same attribute came before (attributes may be in another order). -/
theorem c129_last_attribute_counts (F : Fl) {n : Node} (s t : Step) (hs : s.Fits n) (ht : t.Fits n) {k : String}
    (es : s.about = .attr k) (et : t.about = .attr k) (hy : (t.run F n).2 = .ok ()) :
    Alike (t.run F n).1 (t.run F (s.run F n).1).1 ∧ (t.run F (s.run F n).1).2 = .ok () := by
  rcases step_acts F s hs with ⟨f, e, -⟩ | ⟨k1, e1, -, hn, h1⟩
  · rw [es] at e; cases e
  rcases step_acts F t ht with ⟨f, e, -⟩ | ⟨k2, e2, -, -, h2⟩
  · rw [et] at e; cases e
  rw [es] at e1; rw [et] at e2
  cases e1; cases e2
  cases n with
  | text t => cases hn
  | tag nm a ks =>
    obtain ⟨b, e, hb⟩ := actsAttr_tag h1 nm a ks
    rw [e]
    rcases h2 with ⟨e, h⟩ | ⟨c, h⟩ | h
    · rw [h] at hy; cases hy
    · simp only [h, and_true]
      refine ⟨rfl, rfl, fun j => ?_⟩
      rw [get_setAttr _ rfl, get_setAttr _ rfl]
      split
      · rfl
      · rename_i hj; exact hb j hj
    · simp only [h, and_true]
      refine ⟨rfl, rfl, fun j => ?_⟩
      rw [get_delAttr, get_delAttr]
      split
      · rfl
      · rename_i hj; exact hb j hj

/-- C129's hypotheses are met. -/
example : Own "radius".toList exCircle ∧ getParam "radius".toList exCircle = .ok (.real, exRealTag "2.0") ∧
    (∀ m, newItem double .real (.float 5) = .ok m → m.isTag = true ∧ fromTag m = .ok .real) ∧
    (setParam double "radius".toList (.float 3) exCircle).2 = .ok () :=
  ⟨exCircle_own.2, by decide +kernel, fun _ h => ⟨(newValue_nameless h).1, newValue_class (by decide) h⟩,
    by decide +kernel⟩

end Sang
