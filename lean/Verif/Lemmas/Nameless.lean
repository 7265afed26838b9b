import Verif.Spec.Frame
import Verif.Lemmas.Legal
import Verif.Props.SaveOpen

/-!
# Whatever is done to a value, there are no names in it

The same induction as in `Verif.Lemmas.Legal`.
-/

namespace Sang

open Spec

/-- Nothing in it, itself included, has an attribute `name`. -/
def NoNames (n : Node) : Prop := ∀ x ∈ n.subtree, x.attrs.get "name" = none

theorem mem_nodesIn' {x : Node} : ∀ {ks : List Node}, x ∈ Node.nodesIn ks ↔ ∃ k ∈ ks, x ∈ k.subtree
  | [] => by simp [Node.nodesIn]
  | y :: r => by
    rw [nodesIn_cons, List.mem_append, mem_nodesIn']
    simp

theorem noNames_tag {n : String} {a : Attrs} {ks : List Node} :
    NoNames (.tag n a ks) ↔ a.get "name" = none ∧ ∀ k ∈ ks, NoNames k := by
  rw [NoNames, Node.subtree]
  constructor
  · intro h
    refine ⟨h (.tag n a ks) (by simp), fun k hk x hx => h x (List.mem_cons_of_mem _ ?_)⟩
    exact mem_nodesIn'.2 ⟨k, hk, hx⟩
  · rintro ⟨h1, h2⟩ x hx
    rcases List.mem_cons.1 hx with rfl | hx
    · exact h1
    · obtain ⟨k, hk, hx⟩ := mem_nodesIn'.1 hx
      exact h2 k hk x hx

theorem noNames_text (s : Str) : NoNames (.text s) := by
  intro x hx
  rw [Node.subtree, List.mem_singleton] at hx
  subst hx; rfl

theorem nameless_tag {n : String} {a : Attrs} {ks : List Node} :
    Nameless (.tag n a ks) ↔ a.get "name" = none ∧ ∀ k ∈ ks, NoNames k := by
  rw [← noNames_tag]
  exact ⟨fun h => h.2, fun h => ⟨rfl, h⟩⟩

theorem Spec.Nameless.cases {n : Node} (h : Nameless n) : ∃ m a ks, n = .tag m a ks := by
  cases n with
  | text s => exact absurd h.1 (by simp [Node.isTag])
  | tag m a ks => exact ⟨m, a, ks, rfl⟩

theorem Spec.Nameless.setName {n : Node} (h : Nameless n) (s : String) : Nameless (n.setName s) := by
  obtain ⟨m, a, ks, rfl⟩ := h.cases
  exact nameless_tag.2 (nameless_tag.1 h)

theorem Spec.Nameless.setAttrs {n : Node} (h : Nameless n) {a : Attrs} (ha : a.get "name" = none) :
    Nameless (n.setAttrs a) := by
  obtain ⟨m, a', ks, rfl⟩ := h.cases
  exact nameless_tag.2 ⟨ha, (nameless_tag.1 h).2⟩

theorem Spec.Nameless.setKids {n : Node} (h : Nameless n) {ks : List Node} (hk : ∀ k ∈ ks, NoNames k) :
    Nameless (n.setKids ks) := by
  obtain ⟨m, a, ks', rfl⟩ := h.cases
  exact nameless_tag.2 ⟨(nameless_tag.1 h).1, hk⟩

theorem Spec.Nameless.setAttr {n : Node} (h : Nameless n) {k : String} (hk : "name" ≠ k) (v : AttrV) :
    Nameless (n.setAttr k v) := by
  obtain ⟨m, a, ks, rfl⟩ := h.cases
  rw [nameless_tag] at h
  refine nameless_tag.2 ⟨?_, h.2⟩
  rw [Attrs.get, lookup_dictSet, if_neg hk]
  exact h.1

theorem Spec.Nameless.append {n x : Node} (h : Nameless n) (hx : NoNames x) : Nameless (n.append x) := by
  obtain ⟨m, a, ks, rfl⟩ := h.cases
  rw [nameless_tag] at h
  refine nameless_tag.2 ⟨h.1, fun k hk => ?_⟩
  rcases List.mem_append.1 hk with hk | hk
  · exact h.2 k hk
  · rw [List.mem_singleton] at hk; subst hk; exact hx

theorem Spec.Nameless.setString {n : Node} (h : Nameless n) (s : Str) : Nameless (n.setString s) :=
  h.setKids (by
    intro k hk
    rw [List.mem_singleton] at hk
    subst hk
    exact noNames_text s)

theorem nameless_new (s : String) : Nameless (.new s) := nameless_tag.2 ⟨rfl, by simp⟩

theorem Spec.Nameless.kids {n : Node} (h : Nameless n) : ∀ k ∈ n.kids, NoNames k := by
  obtain ⟨m, a, ks, rfl⟩ := h.cases
  exact (nameless_tag.1 h).2

theorem Spec.Nameless.tagKids {n : Node} (h : Nameless n) : ∀ k ∈ n.tagKids, Nameless k := fun k hk =>
  ⟨(List.mem_filter.1 hk).2, h.kids k (List.mem_filter.1 hk).1⟩

theorem noNames_sub {n x : Node} (h : NoNames n) (hx : x ∈ n.subtree) : NoNames x :=
  fun y hy => h y (subtree_trans _ hx hy)

theorem Spec.Nameless.descTags {n : Node} (h : Nameless n) : ∀ k ∈ n.descTags, Nameless k := by
  intro k hk
  obtain ⟨m, a, ks, rfl⟩ := h.cases
  have hm := List.mem_filter.1 hk
  refine ⟨hm.2, noNames_sub h.2 ?_⟩
  rw [Node.subtree]
  exact List.mem_cons_of_mem _ hm.1

/-! ## Setters -/

theorem setSimple_nameless {F : Fl} {name : String} {d : Str} {conv : PV → Res Str} {v : PV} {n : Node}
    (h : Nameless n) : Nameless (setSimple F name d conv v n).1 := by
  rw [setSimple]
  split
  · exact h
  · split
    · exact h
    · exact ((h.setName _).setAttrs rfl).setKids (by simp)

theorem componentTag_noNames (d : String) (x : ℚ) : NoNames (componentTag d x) :=
  ((nameless_new d).setString _).2

theorem zipWith_components_noNames : ∀ (ds : List String) (cs : List ℚ),
    ∀ k ∈ List.zipWith componentTag ds cs, NoNames k
  | [], cs, k, hk => by simp at hk
  | d :: ds, [], k, hk => by simp at hk
  | d :: ds, c :: cs, k, hk => by
    rw [List.zipWith_cons_cons] at hk
    rcases List.mem_cons.1 hk with rfl | hk
    · exact componentTag_noNames d c
    · exact zipWith_components_noNames ds cs k hk

theorem setColor_nameless {F : Fl} {v : PV} {n : Node} (h : Nameless n) : Nameless (setColor F v n).1 := by
  rw [setColor]
  split
  · exact h
  · exact ((h.setName _).setAttrs rfl).setKids (zipWith_components_noNames _ _)

theorem appendMembers_nameless {F : Fl} : ∀ {l : List (String × PV)} {n : Node}, Nameless n →
    Nameless (appendMembers F l n).1
  | [], n, h => h
  | (k, v) :: r, n, h => by
    rw [appendMembers]
    split
    · exact h
    · exact appendMembers_nameless (h.append ((nameless_new k).setString _).2)

theorem setVector_nameless {F : Fl} {v : PV} {n : Node} (h : Nameless n) : Nameless (setVector F v n).1 := by
  rw [setVector]
  split
  · exact h
  · exact appendMembers_nameless ((h.setName _).setAttrs rfl)

theorem construct_nameless {c : VCls} (he : Nameless (emptyTag c)) {set : Node → Node × Res Unit}
    (hs : ∀ n, Nameless n → Nameless (set n).1) {m : Node} (h : construct c set = .ok m) : Nameless m := by
  rw [construct] at h
  split at h
  · cases h
  · cases h; exact hs _ he

theorem appendStops_nameless {F : Fl} : ∀ {l : List (ℚ × PV)} {n : Node}, Nameless n →
    Nameless (appendStops F l n).1
  | [], n, h => h
  | (pos, c) :: r, n, h => by
    rw [appendStops]
    split
    · exact h
    · rename_i ct hct
      have hg : Nameless ct := construct_nameless (c := .color) (nameless_new _)
        (fun n hn => setColor_nameless hn) hct
      exact appendStops_nameless (h.append (hg.setAttr (by decide) _).2)

theorem setGradient_nameless {F : Fl} {v : PV} {n : Node} (h : Nameless n) : Nameless (setGradient F v n).1 := by
  rw [setGradient]
  split
  · exact h
  · split
    · exact h
    · exact appendStops_nameless (h.setKids (by simp))

theorem compositeDict_nameless {n : Node} (h : Nameless n) {l : List (String × VCls × Node)}
    (hl : compositeDict n = .ok l) : ∀ p ∈ l, Nameless p.2.2 := by
  rw [compositeDict] at hl
  split at hl
  · cases hl
  · rename_i l' hl'
    simp only at hl
    split at hl
    · cases hl
      intro p hp
      rcases mem_foldl_dictSet hp with hp | hp
      · obtain ⟨x, hx, e⟩ := mapRes_mem hl' hp
        rw [compositeField] at e
        split at e
        · cases e
        · split at e
          · rename_i v hv
            split at e
            · cases e
            · cases e
              exact (h.tagKids x hx).tagKids v (by rw [hv]; simp)
          · cases e
      · cases hp
    · cases hl

theorem constructPart_nameless {F : Fl} {c : VCls} {v : PV} {m : Node} (h : constructPart F c v = .ok m) :
    Nameless m := by
  simp only [constructPart] at h
  split at h
  · exact construct_nameless (c := .vector) (nameless_new _) (fun n hn => setVector_nameless hn) h
  · exact construct_nameless (c := .angle) (nameless_new _) (fun n hn => setSimple_nameless hn) h

theorem appendParts_nameless {F : Fl} : ∀ {l : List (String × PV)} {n : Node}, Nameless n →
    Nameless (appendParts F l n).1
  | [], n, h => h
  | (k, v) :: r, n, h => by
    rw [appendParts]
    split
    · exact h
    · split
      · exact h
      · rename_i t ht
        refine appendParts_nameless (h.append (noNames_tag.2 ⟨rfl, ?_⟩))
        intro x hx
        simp only [List.mem_cons, List.not_mem_nil, or_false] at hx
        rcases hx with rfl | rfl
        · exact (constructPart_nameless ht).2
        · exact noNames_text _

theorem setComposite_nameless {F : Fl} {v : PV} {n : Node} (h : Nameless n) : Nameless (setComposite F v n).1 := by
  rw [setComposite]
  split
  · exact h
  · split
    · exact appendParts_nameless (h.setKids (by simp))
    · exact h

theorem setValue_nameless {F : Fl} {c : VCls} {v : PV} {n : Node} (h : Nameless n) :
    Nameless (setValue F c v n).1 := by
  cases c with
  | real => exact setSimple_nameless h
  | integer => exact setSimple_nameless h
  | bool => exact setSimple_nameless h
  | angle => exact setSimple_nameless h
  | time => exact setSimple_nameless h
  | string =>
    simp only [setValue]
    split
    · exact h
    · exact h.setString _
  | color => exact setColor_nameless h
  | vector => exact setVector_nameless h
  | gradient => exact setGradient_nameless h
  | composite => exact setComposite_nameless h
  | canvas =>
    simp only [setValue]
    unfold setCanvas
    split <;> exact h.setKids (by simp)
  | tbd s => exact h

theorem newValue_nameless {F : Fl} {c : VCls} {v : PV} {m : Node} (h : newValue F c v = .ok m) : Nameless m := by
  have he : ∀ d : VCls, Nameless (emptyTag d) := by
    intro d
    cases d <;> first | exact nameless_new _ | exact nameless_tag.2 ⟨rfl, by simp⟩
  cases c with
  | tbd s => cases h
  | _ => exact construct_nameless (he _) (fun n hn => setValue_nameless hn) h

theorem newItem_nameless {F : Fl} {c : VCls} {v : PV} (hv : NamelessArg v) {m : Node} (h : newItem F c v = .ok m) :
    Nameless m := by
  simp only [newItem] at h
  split at h
  · split at h
    · cases h; cases hv with | val h => exact h
    · cases h
  · exact newValue_nameless h

/-- What `value.value` gives, for values without names. -/
theorem getValue_nameless {F : Fl} {root : Option Attrs} {c : VCls} {n : Node} (h : Nameless n) {v : PV}
    (hv : getValue F root c n = .ok v) : NamelessArg v := by
  cases c with
  | real | angle =>
    simp only [getValue] at hv
    split at hv
    · cases hv
    · cases hv; exact .float _
  | integer =>
    simp only [getValue] at hv
    split at hv
    · cases hv
    · cases hv; exact .int _
  | bool =>
    simp only [getValue] at hv
    split at hv
    · cases hv
    · cases hv; exact .bool _
  | time =>
    simp only [getValue] at hv
    split at hv
    · cases hv
    · cases hv; exact .t _
  | string => cases hv; exact .str _
  | tbd s => cases hv
  | color =>
    simp only [getValue] at hv
    split at hv
    · cases hv
    · cases hv; exact .str _
  | vector =>
    cases hv
    refine .dict ?_
    intro p hp
    obtain ⟨x, hx, rfl⟩ := List.mem_map.1 hp
    simp only
    split
    · exact .none
    · exact .str _
  | gradient =>
    simp only [getValue] at hv
    split at hv
    · cases hv
    rename_i l hl
    cases hv
    refine .stops ?_
    intro p hp
    obtain ⟨x, hx, rfl⟩ := List.mem_map.1 hp
    refine .val ?_
    simp only [gradientStops] at hl
    split at hl
    · cases hl
    · split at hl
      · cases hl
      · rename_i l' hl'
        cases hl
        rcases mem_foldl_dictSet hx with hx | hx
        · obtain ⟨y, hy, e⟩ := mapRes_mem hl' hx
          rw [stopOf] at e
          split at e
          · cases e
          · split at e
            · cases e
            · cases e
              exact h.descTags _ (List.mem_filter.1 hy).1
        · cases hx
  | composite =>
    simp only [getValue] at hv
    split at hv
    · cases hv
    rename_i l hl
    cases hv
    refine .dict ?_
    intro p hp
    obtain ⟨x, hx, rfl⟩ := List.mem_map.1 hp
    exact .val (compositeDict_nameless h hl x hx)
  | canvas =>
    simp only [getValue] at hv
    split at hv
    · cases hv
    cases hv
    refine .tuple ?_
    intro p hp
    obtain ⟨x, hx, rfl⟩ := List.mem_map.1 hp
    exact .other

/-! ## Timelines -/

theorem waypoint_new_nameless {F : Fl} {root : Option Attrs} {time : TimeArg} {v : PV} {b a : Str} {w : Waypoint}
    (hv : NamelessArg v) (h : Waypoint.new F root time v b a = .ok w) : Nameless w.val := by
  cases hv with
  | @val c r n hn =>
    simp only [Waypoint.new] at h
    split at h
    · cases h
    split at h
    · cases h
    split at h
    · cases h
    split at h
    · cases h
    cases h
    exact hn
  | _ => cases h

theorem waypoint_fromTag_nameless {F : Fl} {root : Option Attrs} {ty : Str} {n : Node} (hn : Nameless n)
    {w : Waypoint} (h : Waypoint.fromTag F root ty n = .ok w) : Nameless w.val := by
  simp only [Waypoint.fromTag] at h
  split at h
  · cases h
  split at h
  · cases h
  split at h
  · cases h
  split at h
  · rename_i v hk
    split at h
    · cases h
    split at h
    · cases h
    split at h
    · cases h
    split at h
    · cases h
    split at h
    · cases h
    split at h
    · cases h
    split at h
    · cases h
    cases h
    exact hn.tagKids _ (by rw [hk]; simp)
  · cases h

theorem waypoint_tag_nameless {w : Waypoint} (h : Nameless w.val) : Nameless w.tag := by
  refine nameless_tag.2 ⟨rfl, ?_⟩
  intro k hk
  rw [List.mem_singleton] at hk
  subst hk
  exact h.2

theorem waypoints_nameless {F : Fl} {ctx : Ctx} {n : Node} (hn : Nameless n) {ws : List Waypoint}
    (h : waypoints F ctx n = .ok ws) : ∀ w ∈ ws, Nameless w.val := by
  rw [waypoints] at h
  split at h
  · cases h; simp
  split at h
  · cases h
  split at h
  · cases h
  rename_i l hl
  cases h
  intro w hw
  rcases mem_foldl_putWp hw with hw | hw
  · obtain ⟨x, hx, e⟩ := mapRes_mem hl hw
    refine waypoint_fromTag_nameless (hn.tagKids x ?_) e
    rw [waypointTags] at hx
    split at hx
    · cases hx
    · exact hx
  · cases hw

theorem startAnimation_nameless {n : Node} (h : Nameless n) : Nameless (startAnimation n) := by
  rw [startAnimation]
  split
  · exact h
  · exact (h.setAttrs rfl).setName _

theorem unAnimate_nameless {F : Fl} {ctx : Ctx} {n : Node} (h : Nameless n) : Nameless (unAnimate F ctx n).1 := by
  rw [unAnimate]
  split
  · exact h
  split
  · exact h
  · exact h
  · rename_i w ws hw
    split
    · exact waypoints_nameless h hw w (by simp)
    · exact h.setKids (by simp)

theorem withNewlines_noNames : ∀ {l : List Node}, (∀ k ∈ l, NoNames k) → ∀ k ∈ withNewlines l, NoNames k
  | [], _, k, hk => by cases hk
  | [x], h, k, hk => h k hk
  | x :: y :: r, h, k, hk => by
    rw [withNewlines] at hk
    rcases List.mem_cons.1 hk with rfl | hk
    · exact h _ (by simp)
    rcases List.mem_cons.1 hk with rfl | hk
    · exact noNames_text _
    · exact withNewlines_noNames (fun z hz => h z (List.mem_cons_of_mem _ hz)) k hk

theorem sorted_tags_noNames {ws : List Waypoint} (h : ∀ w ∈ ws, Nameless w.val) :
    ∀ k ∈ (sortWps ws).map Waypoint.tag, NoNames k := by
  intro k hk
  obtain ⟨w, hw, rfl⟩ := List.mem_map.1 hk
  exact (waypoint_tag_nameless (h w ((List.perm_insertionSort _ ws).mem_iff.1 hw))).2

theorem setWaypoints_nameless {F : Fl} {ctx : Ctx} {ws : List Waypoint} (hw : ∀ w ∈ ws, Nameless w.val) {n : Node}
    (h : Nameless n) : Nameless (setWaypoints F ctx ws n).1 := by
  rw [setWaypoints]
  split
  · exact unAnimate_nameless h
  split
  · exact (startAnimation_nameless h).setKids (by simp)
  · exact (startAnimation_nameless h).setKids (withNewlines_noNames (sorted_tags_noNames hw))

/-- What may be assigned to a subscript of a timeline, without names. -/
def NamelessSet : SetArg → Prop
  | .wp w => Nameless w.val
  | .py v => NamelessArg v

theorem makeWp_nameless {F : Fl} {ctx : Ctx} {c : VCls} {t : T} {v : SetArg} (hv : NamelessSet v) {w : Waypoint}
    (h : makeWp F ctx c t v = .ok w) : Nameless w.val := by
  cases v with
  | wp w' => cases h; exact hv
  | py v =>
    simp only [makeWp] at h
    split at h
    · cases h
    · rename_i value hval
      refine waypoint_new_nameless ?_ h
      split at hval
      · split at hval
        · cases hval; exact hv
        · split at hval
          · cases hval
          · rename_i hm; cases hval; exact .val (newValue_nameless hm)
      · split at hval
        · cases hval
        · rename_i hm; cases hval; exact .val (newValue_nameless hm)

theorem setItem_nameless {F : Fl} {ctx : Ctx} {c : VCls} {t : TimeArg} {v : SetArg} (hv : NamelessSet v) {n : Node}
    (h : Nameless n) : Nameless (setItem F ctx c t v n).1 := by
  rw [setItem]
  split
  · exact h
  split
  · exact h
  rename_i w hw
  have hn : Nameless (if n.name = "animated" then n else startAnimation (n.setKids [])) := by
    split
    · exact h
    · exact startAnimation_nameless (h.setKids (by simp))
  simp only
  split
  · exact hn
  rename_i ws hws
  split
  · exact hn
  · refine setWaypoints_nameless ?_ hn
    intro x hx
    rcases mem_of_putWp hx with rfl | hx
    · exact makeWp_nameless hv hw
    · exact waypoints_nameless hn hws x hx

theorem delItem_nameless {F : Fl} {ctx : Ctx} {t : TimeArg} {n : Node} (h : Nameless n) :
    Nameless (delItem F ctx t n).1 := by
  rw [delItem]
  split
  · exact h
  split
  · exact h
  rename_i ws hws
  split
  · exact h
  split
  · exact h
  split
  · exact h
  · rename_i hd
    exact setWaypoints_nameless (fun w hw => waypoints_nameless h hws w (mem_delWp hd hw)) h

theorem animate_nameless {F : Fl} {ctx : Ctx} {c : VCls} {n : Node} (h : Nameless n) :
    Nameless (animate F ctx c n).1 := by
  rw [animate]
  split
  · exact h
  split
  · exact h
  · rename_i v hv
    exact setItem_nameless (v := .py v) (getValue_nameless h hv) ((startAnimation_nameless h).setKids (by simp))

theorem setAnimated_nameless {F : Fl} {ctx : Ctx} {c : VCls} {b : Bool} {n : Node} (h : Nameless n) :
    Nameless (setAnimated F ctx c b n).1 := by
  rw [setAnimated]
  split
  · exact animate_nameless h
  · exact unAnimate_nameless h

theorem addWaypoints_nameless {F : Fl} {ctx : Ctx} {c : VCls} {new : List Waypoint}
    (hw : ∀ w ∈ new, Nameless w.val) {o : Bool} {n : Node} (h : Nameless n) :
    Nameless (addWaypoints F ctx c new o n).1 := by
  rw [addWaypoints]
  split
  · exact h
  rename_i existing hex
  split
  · exact h
  simp only
  split
  · exact h
  rename_i kept hk
  have ha := animate_nameless (F := F) (ctx := ctx) (c := c) h
  split
  · rename_i e; rw [e] at ha; exact ha
  rename_i m e
  rw [e] at ha
  split
  · exact ha
  split
  · exact Spec.Nameless.setKids ha (by simp)
  · refine Spec.Nameless.setKids ha (sorted_tags_noNames ?_)
    intro w hm
    rcases mem_foldl_putWp hm with hm | hm
    · rcases mem_foldl_putWp hm with hm | hm
      · exact hw w hm
      · cases hm
    · refine waypoints_nameless h hex w ?_
      split at hk
      · exact mem_delClashes hk hm
      · split at hk
        · cases hk; exact hm
        · cases hk

theorem iaddWaypoints_nameless {F : Fl} {ctx : Ctx} {c : VCls} {new : List Waypoint}
    (hw : ∀ w ∈ new, Nameless w.val) {n : Node} (h : Nameless n) : Nameless (iaddWaypoints F ctx c new n).1 := by
  have := addWaypoints_nameless (F := F) (ctx := ctx) (c := c) hw (o := true) h
  rw [iaddWaypoints]
  split <;> (rename_i e; rw [e] at this; exact this)

/-- Whatever is done to a value without names, it is one. -/
theorem change_nameless {F : Fl} {c : Change} (hc : c.OnValue) {n : Node} (h : Nameless n) :
    Nameless (c.run F n).1 := by
  cases c with
  | value c v => exact setValue_nameless h
  | animated ctx c b => exact setAnimated_nameless h
  | setItem ctx c t v => cases v with
    | wp w => exact setItem_nameless (c := c) (v := .wp w) hc h
    | py v => exact setItem_nameless (v := .py v) hc h
  | delItem ctx t => exact delItem_nameless h
  | add ctx c ws o => exact addWaypoints_nameless hc h
  | iadd ctx c ws => exact iaddWaypoints_nameless hc h
  | timeline ctx v => cases v with
    | list ws => exact setWaypoints_nameless hc h
    | mixed e => exact (startAnimation_nameless h).setKids (by simp)
    | ofValue ctx' m =>
      simp only [Change.run, setTimeline]
      split
      · exact h
      · rename_i ws hws; exact setWaypoints_nameless (waypoints_nameless hc hws) h
    | own => exact h
    | other => exact h
  | _ => exact absurd hc (by simp [Change.OnValue])

end Sang
