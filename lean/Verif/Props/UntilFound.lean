import Verif.DomUntil
import Verif.Props.SearchLoops

/-!
# C183: searching until nothing is found
-/

namespace Sang

open Relation Spec

namespace Dom

/-- C183. What `find` finds is the first of what `find_all` finds, and `None` if that finds nothing. -/
theorem c183_first (F : Fl) (d : Defaults) (a : FindArgs) (recursive : Bool) {h : Dom} (hf : Forest h) (z : ℕ) :
    (h.first F d a recursive z).map (Option.map h.node) = (findLayer F d a recursive (h.node z)).map (Option.map Prod.snd) := by
  have := c182_finds F d a recursive hf z
  rw [first, findLayer]
  cases h1 : h.search F d a recursive z <;> cases h2 : findAllLayers F d a recursive (h.node z) <;> rw [h1, h2] at this
  · simpa [Except.map] using this
  · cases this
  · cases this
  · simp only [Except.map, Except.ok.injEq] at this ⊢
    rw [← List.head?_map, this, List.head?_map]

/-- C183. If the search raises, or a round does, so does the loop, then and there. -/
theorem c183_raises (F : Fl) (d : Defaults) (a : FindArgs) (recursive : Bool) (z : ℕ) (body : ℕ → Dom → Dom × Res Unit) (h : Dom) {e : Err} :
    (∀ u n, h.search F d a recursive z = .error e → untilFound u F d a recursive z body (n + 1) h = some (h, .error e)) ∧
    ∀ n x r h', h.search F d a recursive z = .ok (x :: r) → body x h = (h', .error e) →
      untilFound .none F d a recursive z body (n + 1) h = some (h', .error e) := by
  refine ⟨fun u n hl => ?_, fun n x r h' hl hb => ?_⟩
  · rw [untilFound, first, hl]
  · rw [untilFound, first, hl]
    simp only [List.head?_cons, Until.goes, if_true, hb]

theorem goes_shape {u : Until} {h h' : Dom} (hf : Forest h) (hs : SameShape h h') (x : ℕ) : u.goes x h' = u.goes x h := by
  cases u with
  | none => rfl
  | false => simp only [Until.goes, layerTruth, len_eq hf, len_eq (hs.forest hf), hs.findLayers]

theorem forList_one (body : ℕ → Dom → Dom × Res Unit) {x : ℕ} {h h1 : Dom} (e : body x h = (h1, .ok ())) (r : List ℕ) :
    forList body (x :: r) h = forList body r h1 := by rw [forList, e]

theorem desc_attrs (F : Fl) (s : Str) (n m : Node) (e : n.attrs = m.attrs) :
    (fun n => decide (getDesc F n = some s)) n = (fun n => decide (getDesc F n = some s)) m := by
  have : getDesc F n = getDesc F m := by rw [getDesc, getDesc, e]
  simp only [this]

section
variable {F : Fl} {d : Defaults} {k : String} {v : PV} {P : Node → Bool} (hk : k ≠ "type")
  (hP : ∀ n m : Node, n.attrs = m.attrs → P n = P m)
  (hmatch : ∀ x c, isLayerElt x = true → layerOf x = .ok c → matcher F d .none [(k, v)] x = .ok (P x))
  {at' : EAttr} {w : PV} (hv : ∀ n, (at'.set F w n).2 = .ok ()) {z : ℕ}
include hk hP hmatch hv

/-- One assignment: what is found afterwards. -/
theorem assign_search {h : Dom} (hf : Forest h) (hcl : ∀ x ∈ h.findLayers z, ∃ cl, layerOf (h.bare x) = .ok cl) (x : ℕ) :
    ∃ h1, assignAttr F at' w x h = (h1, .ok ()) ∧ SameShape h h1 ∧
      (∀ y ∈ h1.findLayers z, ∃ cl, layerOf (h1.bare y) = .ok cl) ∧
      h1.search F d {kw := [(k, .pv v)]} true z =
        .ok ((h.findLayers z).filter fun y => if y = x then P (at'.set F w (h.bare x)).1 else P (h.bare y)) := by
  obtain ⟨h1, e, as⟩ := assign_each F at' w hv [x] h
  have e' : assignAttr F at' w x h = (h1, .ok ()) := by
    rw [forList] at e
    cases hb : assignAttr F at' w x h with
    | mk h2 r =>
      rw [hb] at e
      cases r with
      | error _ => simp at e
      | ok _ => simpa [forList] using e
  have hs : SameShape h h1 := by
    have := forList_shape (assign_keeps F at' w h) [x] h (.refl h)
    rw [e] at this
    exact this
  have hcl1 : ∀ y ∈ h1.findLayers z, ∃ cl, layerOf (h1.bare y) = .ok cl := fun y hy => by
    rw [hs.findLayers] at hy
    rw [(hs.bare y).layerOf]
    exact hcl y hy
  refine ⟨h1, e', hs, hcl1, ?_⟩
  rw [search_by hk hP hmatch (hs.forest hf) hcl1, hs.findLayers]
  congr 1
  refine List.filter_congr fun y _ => ?_
  by_cases hy : y = x
  · subst hy
    rw [if_pos rfl, as.2.2.2.1 y (by simp)]
  · rw [if_neg hy, bare_congr (as.2.2.2.2 y (by simpa using hy))]

/-- If what is assigned to isn't found any more, the loop ends, and has gone through what there was to find, up to where it stops. -/
theorem until_assigned (hoff : ∀ n, n.isTag = true → P (at'.set F w n).1 = false) (u : Until) : ∀ (l : List ℕ) (h : Dom), Forest h →
    (∀ x ∈ h.findLayers z, ∃ cl, layerOf (h.bare x) = .ok cl) → h.search F d {kw := [(k, .pv v)]} true z = .ok l → ∀ n,
    untilFound u F d {kw := [(k, .pv v)]} true z (fun x => assignAttr F at' w x) n h =
      if (l.takeWhile (u.goes · h)).length < n then some (forList (fun x => assignAttr F at' w x) (l.takeWhile (u.goes · h)) h) else none := by
  intro l
  induction l with
  | nil =>
    intro h hf hcl hl n
    cases n with
    | zero => simp [untilFound]
    | succ n => simp [untilFound, first, hl, forList]
  | cons x r ih =>
    intro h hf hcl hl n
    by_cases hg : u.goes x h = true
    · rw [List.takeWhile_cons_of_pos (p := (u.goes · h)) hg]
      cases n with
      | zero => simp [untilFound]
      | succ n =>
        obtain ⟨h1, e, hs, hcl1, hl1⟩ := assign_search hk hP hmatch hv hf hcl x
        have hl2 := search_by hk hP hmatch hf hcl
        rw [hl] at hl2
        have hxr : x :: r = (h.findLayers z).filter fun y => P (h.bare y) := by simpa using hl2
        have hnd : (x :: r).Nodup := hxr ▸ (findLayers_nodup hf z).filter _
        have hx : x ∈ h.findLayers z := (List.mem_filter.1 (hxr ▸ List.mem_cons_self : x ∈ (h.findLayers z).filter fun y => P (h.bare y))).1
        have hr : ((h.findLayers z).filter fun y => if y = x then P (at'.set F w (h.bare x)).1 else P (h.bare y)) = r := by
          have : r = (x :: r).filter (· ≠ x) := by
            rw [List.filter_cons_of_neg (by simp), List.filter_eq_self.2]
            intro y hy
            simpa using fun e : y = x => (List.nodup_cons.1 hnd).1 (e ▸ hy)
          rw [this, hxr, List.filter_filter]
          refine List.filter_congr fun y _ => ?_
          by_cases hy : y = x
          · simp [hy, hoff _ (isTag_of_layer (List.mem_filter.1 hx).2)]
          · simp [hy]
        rw [hr] at hl1
        have hi := ih h1 (hs.forest hf) hcl1 hl1 n
        have htw : r.takeWhile (u.goes · h1) = r.takeWhile (u.goes · h) := by
          congr 1
          exact funext fun y => goes_shape hf hs y
        rw [htw] at hi
        rw [forList_one (fun x => assignAttr F at' w x) e, List.length_cons]
        simp only [Nat.add_lt_add_iff_right]
        rw [← hi, untilFound, first, hl]
        simp only [List.head?_cons, hg, if_true, e]
    · rw [List.takeWhile_cons_of_neg (p := (u.goes · h)) hg]
      cases n with
      | zero => simp [untilFound]
      | succ n =>
        rw [untilFound, first, hl]
        simp [hg, forList]

/-- If what is assigned to is found again, the loop doesn't end. -/
theorem until_forever (hon : ∀ n, n.isTag = true → P (at'.set F w n).1 = true) {x : ℕ} {r : List ℕ} : ∀ n (h : Dom), Forest h →
    (∀ x ∈ h.findLayers z, ∃ cl, layerOf (h.bare x) = .ok cl) → h.search F d {kw := [(k, .pv v)]} true z = .ok (x :: r) →
    untilFound .none F d {kw := [(k, .pv v)]} true z (fun x => assignAttr F at' w x) n h = none := by
  intro n
  induction n with
  | zero => intros; rfl
  | succ n ih =>
    intro h hf hcl hl
    obtain ⟨h1, e, hs, hcl1, hl1⟩ := assign_search hk hP hmatch hv hf hcl x
    have hl2 := search_by hk hP hmatch hf hcl
    rw [hl] at hl2
    have hxr : x :: r = (h.findLayers z).filter fun y => P (h.bare y) := by simpa using hl2
    obtain ⟨hx, hpx⟩ := List.mem_filter.1 (hxr ▸ List.mem_cons_self : x ∈ (h.findLayers z).filter fun y => P (h.bare y))
    have hr : ((h.findLayers z).filter fun y => if y = x then P (at'.set F w (h.bare x)).1 else P (h.bare y)) = x :: r := by
      rw [hxr]
      refine List.filter_congr fun y _ => ?_
      by_cases hy : y = x
      · rw [if_pos hy, hy, hon _ (isTag_of_layer (List.mem_filter.1 hx).2), hpx]
      · rw [if_neg hy]
    rw [hr] at hl1
    rw [untilFound, first, hl]
    simp only [List.head?_cons, Until.goes, if_true, e]
    exact ih h1 (hs.forest hf) hcl1 hl1

end

/-- What is below `z` when layers below it have been appended to a group that isn't. -/
theorem each_below {H : Set (GKind × ℕ × ℕ)} {st : ℕ → List ℕ} {g t : ℕ} {l : List ℕ} {h h' : Dom} (hf : Forest h)
    (E : Each H st g t l h h') {z : ℕ} (hz : z < h.size) (hout : ¬ Within h t z) :
    (∀ x, x ∈ h'.findLayers z → x ∈ h.findLayers z ∧ x ∉ l) ∧
    (∀ x, x ∈ h.findLayers z → (∀ y ∈ l, ¬ Within h x y) → x ∈ h'.findLayers z) ∧
    ∀ w y, y ∈ h'.findLayers z → Within h' w y → Within h w y := by
  have hzt : z ≠ t := fun e => hout (e ▸ .refl)
  have hsz : ∀ w, TransGen (Par h) w z → w < h.size := fun w hw => by
    obtain ⟨d', hd, -⟩ := TransGen.head'_iff.1 hw
    exact (hf.made d' _ hd).2
  have one : ∀ w p, p < h.size → p ≠ t → Par h' w p → Par h w p ∧ w ∉ l := fun w p hp hpt hw => by
    have := (E.forest.child p w).2 hw
    rw [E.there p hpt hp, List.mem_filter] at this
    exact ⟨(hf.child p w).1 this.1, by simpa using this.2⟩
  have hback : ∀ w, TransGen (Par h') w z → TransGen (Par h) w z ∧ w ∉ l := by
    intro w hw
    induction hw using TransGen.head_induction_on with
    | single hw =>
      obtain ⟨a1, a2⟩ := one _ _ hz hzt hw
      exact ⟨.single a1, a2⟩
    | head hw hp ih =>
      obtain ⟨a1, a2⟩ := one _ _ (hsz _ ih.1) (fun e => hout (E.target z (e ▸ hp.to_reflTransGen))) hw
      exact ⟨.head a1 ih.1, a2⟩
  refine ⟨fun x hx => ?_, fun x hx hy => ?_, fun w y hy hw => ?_⟩
  · obtain ⟨h1, h2⟩ := (mem_findLayers E.forest).1 hx
    obtain ⟨b1, b2⟩ := hback x h1
    exact ⟨(mem_findLayers hf).2 ⟨b1, by rw [← E.bare x (hsz x b1)]; exact h2⟩, b2⟩
  · obtain ⟨h1, h2⟩ := (mem_findLayers hf).1 hx
    refine (mem_findLayers E.forest).2 ⟨?_, by rw [E.bare x (hsz x h1)]; exact h2⟩
    have one : ∀ w p, p < h.size → p ≠ t → Par h w p → w ∉ l → Par h' w p := fun w p hp hpt hw hwl => by
      refine (E.forest.child p w).1 ?_
      rw [E.there p hpt hp, List.mem_filter]
      exact ⟨(hf.child p w).2 hw, by simpa using hwl⟩
    clear h2 hx
    induction h1 using TransGen.head_induction_on with
    | single hw => exact .single (one _ _ hz hzt hw fun hm => hy _ hm .refl)
    | head hw hp ih =>
      exact .head (one _ _ (hsz _ hp) (fun e => hout (e ▸ hp.to_reflTransGen)) hw fun hm => hy _ hm .refl)
        (ih fun y hm hw' => hy y hm (.head hw hw'))
  · have hyz := ((mem_findLayers E.forest).1 hy).1
    induction hw using ReflTransGen.head_induction_on with
    | refl => exact .refl
    | head hw hp ih =>
      have hpz := TransGen.trans_right hp hyz
      exact .head (one _ _ (hsz _ (hback _ hpz).1) (fun e => hout (E.target z (e ▸ hpz.to_reflTransGen))) hw).1 ih

theorem until_moved (F : Fl) (d : Defaults) (s : Str) {z : ℕ} {H : Set (GKind × ℕ × ℕ)} {k : GKind} {g t : ℕ} (hg : (k, g, t) ∈ H) :
    ∀ (N : ℕ) (h : Dom) (l : List ℕ) (st : ℕ → List ℕ), l.length ≤ N → Forest h → z < h.size →
    (∀ x ∈ h.findLayers z, ∃ cl, layerOf (h.bare x) = .ok cl) → (∀ a ∈ H, HolderAt h a.1 a.2.1 a.2.2) →
    (∀ a ∈ H, h.children a.1 a.2.1 = .ok (st a.2.1)) → ¬ Within h t z →
    h.search F d {kw := [("desc", .pv (.str s))]} true z = .ok l →
    ∃ n h' m, n ≤ l.length + 1 ∧
      untilFound .none F d {kw := [("desc", .pv (.str s))]} true z (fun x => Dom.groupAppend k g x) n h = some (h', .ok ()) ∧
      h'.search F d {kw := [("desc", .pv (.str s))]} true z = .ok [] ∧
      (∀ x ∈ h'.findLayers z, x ∈ h.findLayers z ∧ getDesc F (h.bare x) ≠ some s) ∧
      (∀ x ∈ h.findLayers z, (∀ y ∈ l, ¬ Within h x y) → x ∈ h'.findLayers z) ∧
      m ⊆ l ∧ h'.children k g = .ok (st g ++ m) ∧ ∀ b ∈ H, b.2.1 ≠ g → h'.children b.1 b.2.1 = .ok ((st b.2.1).filter (· ∉ m)) := by
  have base : ∀ (h : Dom) (st : ℕ → List ℕ), Forest h → (∀ x ∈ h.findLayers z, ∃ cl, layerOf (h.bare x) = .ok cl) →
      (∀ a ∈ H, h.children a.1 a.2.1 = .ok (st a.2.1)) → h.search F d {kw := [("desc", .pv (.str s))]} true z = .ok [] →
      ∃ n h' m, n ≤ ([] : List ℕ).length + 1 ∧
        untilFound .none F d {kw := [("desc", .pv (.str s))]} true z (fun x => Dom.groupAppend k g x) n h = some (h', .ok ()) ∧
        h'.search F d {kw := [("desc", .pv (.str s))]} true z = .ok [] ∧
        (∀ x ∈ h'.findLayers z, x ∈ h.findLayers z ∧ getDesc F (h.bare x) ≠ some s) ∧
        (∀ x ∈ h.findLayers z, (∀ y ∈ ([] : List ℕ), ¬ Within h x y) → x ∈ h'.findLayers z) ∧
        m ⊆ ([] : List ℕ) ∧ h'.children k g = .ok (st g ++ m) ∧
        ∀ b ∈ H, b.2.1 ≠ g → h'.children b.1 b.2.1 = .ok ((st b.2.1).filter (· ∉ m)) := by
    intro h st hf hcl hst hl
    refine ⟨1, h, [], by simp, by simp [untilFound, first, hl], hl, fun x hx => ⟨hx, fun hd => ?_⟩, fun x hx _ => hx, by simp,
      by rw [hst _ hg]; simp, fun b hb _ => by rw [hst b hb]; simp⟩
    have := search_desc F d hf hcl s
    rw [hl] at this
    have := List.filter_eq_nil_iff.1 (Except.ok.inj this).symm x hx
    simp [hd] at this
  intro N
  induction N with
  | zero =>
    intro h l st hN hf hz hcl hH hst hout hl
    obtain rfl : l = [] := List.length_eq_zero_iff.1 (by omega)
    exact base h st hf hcl hst hl
  | succ N ih =>
    intro h l st hN hf hz hcl hH hst hout hl
    cases l with
    | nil => exact base h st hf hcl hst hl
    | cons x r =>
      have mem : ∀ y, y ∈ x :: r ↔ y ∈ h.findLayers z ∧ getDesc F (h.bare y) = some s := fun y => by
        have := search_desc F d hf hcl s
        rw [hl] at this
        rw [Except.ok.inj this]
        simp
      obtain ⟨s1, s2⟩ := c182_some hf hl
      have hnd := s1.nodup (findLayers_nodup hf z)
      have hx := (mem x).1 (by simp)
      have hnot : x ∉ st g := fun hm => by
        obtain ⟨p1, p2⟩ := child_par hf (hH _ hg) (hst _ hg) hm
        exact hout ((child_found hf p1 p2).1 hx.1)
      obtain ⟨h1, e, E⟩ := append_each_more hg [x] h st hf hH hst (by simp) fun y hy => by
        obtain rfl : y = x := by simpa using hy
        obtain ⟨h1, h2⟩ := (mem_findLayers hf).1 hx.1
        obtain ⟨d', hd, -⟩ := TransGen.head'_iff.1 h1
        exact ⟨(hf.made d' y hd).2, h2, s2 y (by simp), hnot, fun hw => hout (hw.trans h1.to_reflTransGen)⟩
      have e' : Dom.groupAppend k g x h = (h1, .ok ()) := by
        rw [forList] at e
        cases hb : Dom.groupAppend k g x h with
        | mk h2 r =>
          rw [hb] at e
          cases r with
          | error _ => simp at e
          | ok _ => simpa [forList] using e
      obtain ⟨b1, b2, b3⟩ := each_below hf E hz hout
      have hbare : ∀ y ∈ h.findLayers z, h1.bare y = h.bare y := fun y hy => by
        obtain ⟨d', hd, -⟩ := TransGen.head'_iff.1 ((mem_findLayers hf).1 hy).1
        exact E.bare y (hf.made d' _ hd).2
      have hcl1 : ∀ y ∈ h1.findLayers z, ∃ cl, layerOf (h1.bare y) = .ok cl := fun y hy => by
        rw [hbare y (b1 y hy).1]
        exact hcl y (b1 y hy).1
      have hl1 := search_desc F d E.forest hcl1 s
      have hsub : ∀ y ∈ (h1.findLayers z).filter (fun y => getDesc F (h1.bare y) = some s), y ∈ h1.findLayers z ∧ y ∈ r := fun y hy => by
        obtain ⟨y1, y2⟩ := List.mem_filter.1 hy
        rw [hbare y (b1 y y1).1] at y2
        have := (mem y).2 ⟨(b1 y y1).1, by simpa using y2⟩
        exact ⟨y1, (List.mem_cons.1 this).resolve_left fun e => (b1 y y1).2 (by simp [e])⟩
      have hlen : ((h1.findLayers z).filter (fun y => getDesc F (h1.bare y) = some s)).length ≤ r.length :=
        (((findLayers_nodup E.forest z).filter _).subperm fun y hy => (hsub y hy).2).length_le
      obtain ⟨n, h', m, i1, i2, i3, i4, i5, i6, i7, i8⟩ := ih h1 _ (fun q => (st q).filter (· ∉ [x]) ++ if q = g then [x] else [])
        (hlen.trans (by simpa using hN)) E.forest (hz.trans_le E.size) hcl1 E.holders E.lists (fun hw => hout (E.target z hw)) hl1
      refine ⟨n + 1, h', x :: m, by simp only [List.length_cons]; omega, ?_, i3, fun y hy => ?_, fun y hy hw => ?_, fun y hy => ?_, ?_,
        fun b hb hne => ?_⟩
      · rw [untilFound, first, hl]
        simp only [List.head?_cons, Until.goes, if_true, e']
        exact i2
      · obtain ⟨y1, y2⟩ := i4 y hy
        exact ⟨(b1 y y1).1, by rw [← hbare y (b1 y y1).1]; exact y2⟩
      · refine i5 y (b2 y hy fun w hw' => ?_) fun w hw' hin => ?_
        · obtain rfl : w = x := by simpa using hw'
          exact hw w (by simp)
        · exact hw w (List.mem_cons_of_mem _ (hsub w hw').2) (b3 y w (hsub w hw').1 hin)
      · rcases List.mem_cons.1 hy with rfl | hy
        · simp
        · exact List.mem_cons_of_mem _ (hsub y (i6 hy)).2
      · rw [i7, if_pos rfl, List.filter_eq_self.2 fun y hy => by simpa using fun e : y = x => hnot (e ▸ hy)]
        simp
      · rw [i8 b hb hne, if_neg hne, List.append_nil, List.filter_filter]
        congr 1
        refine List.filter_congr fun y _ => ?_
        simp [not_or, Bool.and_comm]

/-- C183. `while (x := z.find(desc=s)) is not None: group.append(x)`, for a group or animation that isn't in `z`, ends, after at most one
search more than there were layers to find. Then nothing below `z` is found by `s`. What was in `z` and not called `s`, nor in anything
called `s`, still is in it. The group has what it had, and after that only layers called `s`; nothing else is taken from any group. -/
theorem c183_moved (F : Fl) (d : Defaults) {h : Dom} (hf : Forest h) {z : ℕ} (hz : z < h.size)
    (hcl : ∀ x ∈ h.findLayers z, ∃ cl, layerOf (h.bare x) = .ok cl) {s : Str} {l : List ℕ}
    (hl : h.search F d {kw := [("desc", .pv (.str s))]} true z = .ok l) {H : Set (GKind × ℕ × ℕ)}
    (hH : ∀ a ∈ H, HolderAt h a.1 a.2.1 a.2.2) {st : ℕ → List ℕ} (hst : ∀ a ∈ H, h.children a.1 a.2.1 = .ok (st a.2.1)) {k : GKind} {g t : ℕ}
    (hg : (k, g, t) ∈ H) (hout : ¬ Within h t z) :
    ∃ n h' m, n ≤ l.length + 1 ∧
      untilFound .none F d {kw := [("desc", .pv (.str s))]} true z (fun x => Dom.groupAppend k g x) n h = some (h', .ok ()) ∧
      h'.search F d {kw := [("desc", .pv (.str s))]} true z = .ok [] ∧
      (∀ x ∈ h'.findLayers z, x ∈ h.findLayers z ∧ getDesc F (h.bare x) ≠ some s) ∧
      (∀ x ∈ h.findLayers z, (∀ y ∈ l, ¬ Within h x y) → x ∈ h'.findLayers z) ∧
      m ⊆ l ∧ h'.children k g = .ok (st g ++ m) ∧ ∀ b ∈ H, b.2.1 ≠ g → h'.children b.1 b.2.1 = .ok ((st b.2.1).filter (· ∉ m)) :=
  until_moved F d s hg l.length h l st le_rfl hf hz hcl hH hst hout hl

variable (F : Fl) (d : Defaults) {h : Dom} (hf : Forest h) {z : ℕ} (hcl : ∀ x ∈ h.findLayers z, ∃ cl, layerOf (h.bare x) = .ok cl)
include hf hcl

/-- C183. `while (x := z.find(desc=s)) is not None: x.desc = t`, for another `t`, ends, after one search more than there were layers to
find, and the document is as after `for x in z.find_all(desc=s): x.desc = t`. -/
theorem c183_renamed {s t : Str} (hst : s ≠ t) {l : List ℕ} (hl : h.search F d {kw := [("desc", .pv (.str s))]} true z = .ok l) (n : ℕ) :
    untilFound .none F d {kw := [("desc", .pv (.str s))]} true z (fun x => assignAttr F .desc (.str t) x) n h =
      if l.length < n then some (forSearch F d {kw := [("desc", .pv (.str s))]} true z (fun x => assignAttr F .desc (.str t) x) h) else none := by
  have := until_assigned (P := fun n => decide (getDesc F n = some s)) (at' := .desc) (w := .str t) (by decide) (desc_attrs F s)
    (fun _ _ hx hc => matcher_desc hx hc s) (fun n => rfl)
    (fun n hn => decide_eq_false (by
      show ¬ getDesc F (setDesc F (.str t) n).1 = some s
      rw [(c57_desc_string F n hn t).2.1]
      simpa using Ne.symm hst))
    .none l h hf hcl hl n
  rwa [(List.takeWhile_eq_self_iff (p := (Until.none.goes · h))).2 fun _ _ => rfl, ← c182_loop hl] at this

/-- C183. Naming them what they are named already goes on for ever, if there are any. -/
theorem c183_forever {s : Str} {x : ℕ} {r : List ℕ} (hl : h.search F d {kw := [("desc", .pv (.str s))]} true z = .ok (x :: r)) (n : ℕ) :
    untilFound .none F d {kw := [("desc", .pv (.str s))]} true z (fun x => assignAttr F .desc (.str s) x) n h = none :=
  until_forever (P := fun n => decide (getDesc F n = some s)) (at' := .desc) (w := .str s) (by decide) (desc_attrs F s)
    (fun _ _ hx hc => matcher_desc hx hc s) (fun n => rfl) (fun n hn => decide_eq_true (c57_desc_string F n hn s).2.1) n h hf hcl hl

/-- C183. The same for turning layers on or off. -/
theorem c183_switched (b : Bool) {l : List ℕ} (hl : h.search F d {kw := [("active", .pv (.bool b))]} true z = .ok l) (n : ℕ) :
    untilFound .none F d {kw := [("active", .pv (.bool b))]} true z (fun x => assignAttr F .active (.bool !b) x) n h =
      if l.length < n then some (forSearch F d {kw := [("active", .pv (.bool b))]} true z (fun x => assignAttr F .active (.bool !b) x) h)
      else none := by
  have := until_assigned (P := fun n => getActive F n == b) (at' := .active) (w := .bool !b) (by decide)
    (fun n m e => by simp only [getActive, getBoolAttr, e]) (fun _ _ hx hc => (matcher_flag hx hc b).1) (fun n => rfl)
    (fun n hn => by
      show (getActive F (setActive F (.bool !b) n).1 == b) = false
      rw [(c57_active F n hn (.bool !b) (!b) rfl).2.1]
      cases b <;> rfl)
    .none l h hf hcl hl n
  rwa [(List.takeWhile_eq_self_iff (p := (Until.none.goes · h))).2 fun _ _ => rfl, ← c182_loop hl] at this

/-- C183, in part. `while x := z.find(desc=s): x.desc = t`, for another `t`, does the same if all that is found has layers below it. What is
missing is layers that haven't, which count as false (C99). -/
theorem c183_true_partial {s t : Str} (hst : s ≠ t) {l : List ℕ} (hl : h.search F d {kw := [("desc", .pv (.str s))]} true z = .ok l)
    (hb : ∀ x ∈ l, h.findLayers x ≠ []) (n : ℕ) :
    untilFound .false F d {kw := [("desc", .pv (.str s))]} true z (fun x => assignAttr F .desc (.str t) x) n h =
      if l.length < n then some (forSearch F d {kw := [("desc", .pv (.str s))]} true z (fun x => assignAttr F .desc (.str t) x) h) else none := by
  have := until_assigned (P := fun n => decide (getDesc F n = some s)) (at' := .desc) (w := .str t) (by decide) (desc_attrs F s)
    (fun _ _ hx hc => matcher_desc hx hc s) (fun n => rfl)
    (fun n hn => decide_eq_false (by
      show ¬ getDesc F (setDesc F (.str t) n).1 = some s
      rw [(c57_desc_string F n hn t).2.1]
      simpa using Ne.symm hst))
    .false l h hf hcl hl n
  rwa [(List.takeWhile_eq_self_iff (p := (Until.false.goes · h))).2 fun x hx => by
    simpa [Until.goes, layerTruth, len_eq hf] using hb x hx, ← c182_loop hl] at this

omit hcl in
/-- C183, violated: with `while x := z.find(...)` the loop ends, and nothing has been done, at a layer without layers below it, whatever
else there is to find. -/
theorem c183_stops_at_leaf {a : FindArgs} {recursive : Bool} {x : ℕ} {r : List ℕ} (hl : h.search F d a recursive z = .ok (x :: r))
    (hx : h.findLayers x = []) (body : ℕ → Dom → Dom × Res Unit) (n : ℕ) :
    untilFound .false F d a recursive z body (n + 1) h = some (h, .ok ()) := by
  rw [untilFound, first, hl]
  simp [Until.goes, layerTruth, len_eq hf, hx]

end Dom

open Dom

/-! ## Examples -/

/-- The two circles called `head` are called `top` after three searches. -/
example : ∃ h', untilFound .none double .initial {kw := [("desc", .pv (.str "head".toList))]} true 0
      (fun x => assignAttr double .desc (.str "top".toList) x) 3 exNamedDom = some (h', .ok ()) ∧
    h'.search double .initial {kw := [("desc", .pv (.str "head".toList))]} true 0 = .ok [] ∧
    untilFound .none double .initial {kw := [("desc", .pv (.str "head".toList))]} true 0
      (fun x => assignAttr double .desc (.str "top".toList) x) 2 exNamedDom = none := by
  have hf : Forest exNamedDom := (alloc_made forest_empty _).forest
  have hl : exNamedDom.search double .initial {kw := [("desc", .pv (.str "head".toList))]} true 0 = .ok [1, 3] := by decide +kernel
  have hst : "head".toList ≠ "top".toList := by decide
  obtain ⟨h', e, e1, -⟩ := c182_renamed double .initial hf exNamed_classes hst
  refine ⟨h', ?_, e1, ?_⟩
  · rw [c183_renamed double .initial hf exNamed_classes hst hl, if_pos (by decide), e]
  · rw [c183_renamed double .initial hf exNamed_classes hst hl, if_neg (by decide)]

/-- With `while x := ...` nothing is done, since circles have no layers below them. -/
example : untilFound .false double .initial {kw := [("desc", .pv (.str "head".toList))]} true 0
      (fun x => assignAttr double .desc (.str "top".toList) x) 1 exNamedDom = some (exNamedDom, .ok ()) :=
  c183_stops_at_leaf double .initial (alloc_made forest_empty _).forest (x := 1) (r := [3]) (by decide +kernel) (by decide +kernel) _ 0

/-- A group called `head`, with a circle in it. -/
def exHeadGroup : Dom := (Dom.empty.alloc (.tag "canvas" [] [.tag "layer" [("type", .str "group".toList), ("desc", .str "head".toList)] [
  .tag "param" [("name", .str "canvas".toList)] [.tag "canvas" [] [.tag "layer" [("type", .str "circle".toList)] []]]]])).1

/-- A group with a circle in it does get its name. -/
example : ∃ h', untilFound .false double .initial {kw := [("desc", .pv (.str "head".toList))]} true 0
      (fun x => assignAttr double .desc (.str "top".toList) x) 2 exHeadGroup = some (h', .ok ()) ∧
    h'.search double .initial {kw := [("desc", .pv (.str "top".toList))]} true 0 = .ok [1] := by
  have hf : Forest exHeadGroup := (alloc_made forest_empty _).forest
  have hfl : exHeadGroup.findLayers 0 = [1, 4] := by decide +kernel
  have hc : ∀ x ∈ ([1, 4] : List ℕ), (layerOf (exHeadGroup.bare x)).isOk = true := by decide +kernel
  have hcl : ∀ x ∈ exHeadGroup.findLayers 0, ∃ cl, layerOf (exHeadGroup.bare x) = .ok cl := fun x hx => by
    have := hc x (hfl ▸ hx)
    cases hr : layerOf (exHeadGroup.bare x) with
    | ok cl => exact ⟨cl, rfl⟩
    | error e => rw [hr] at this; cases this
  have hl : exHeadGroup.search double .initial {kw := [("desc", .pv (.str "head".toList))]} true 0 = .ok [1] := by decide +kernel
  have hst : "head".toList ≠ "top".toList := by decide
  obtain ⟨h', e, -, e1, -⟩ := c182_renamed double .initial hf hcl hst
  refine ⟨h', ?_, e1.trans (by decide +kernel)⟩
  rw [c183_true_partial double .initial hf hcl hst hl (by decide +kernel), if_pos (by decide), e]

/-- A version that isn't a number is refused, and so is a search for something odd. -/
example : (untilFound .none double .initial {kw := [("active", .pv (.bool true))]} true 0
      (fun x => assignAttr double .version (.str "x".toList) x) 1 exNamedDom).map Prod.snd = some (.error .value) ∧
    untilFound .false double .initial { pos := [.other] } true 0 (fun _ h => (h, .ok ())) 1 exNamedDom = some (exNamedDom, .error .type) := by
  refine ⟨?_, (c183_raises double .initial _ true 0 _ exNamedDom).1 .false 0 (by decide +kernel)⟩
  rw [(c183_raises double .initial _ true 0 _ exNamedDom (e := .value)).2 0 1 [2, 3] _ (by decide +kernel) (Prod.ext rfl (by decide +kernel))]
  rfl

/-- What is called `head` is moved from the group to the animation, one at a time. -/
example : ∃ n h', n ≤ 2 ∧ untilFound .none double .initial {kw := [("desc", .pv (.str "head".toList))]} true 1
      (fun x => Dom.groupAppend .animation 0 x) n exGroupedDom = some (h', .ok ()) ∧
    h'.search double .initial {kw := [("desc", .pv (.str "head".toList))]} true 1 = .ok [] ∧ 5 ∈ h'.findLayers 1 := by
  have hf : Forest exGroupedDom := (alloc_made forest_empty _).forest
  have hfl : exGroupedDom.findLayers 1 = [4, 5] := by decide +kernel
  have hc : ∀ x ∈ ([4, 5] : List ℕ), (layerOf (exGroupedDom.bare x)).isOk = true := by decide +kernel
  obtain ⟨n, h', m, e, e1, e2, -, e3, -⟩ := c183_moved double .initial hf (z := 1) (by decide +kernel)
    (fun x hx => by
      have := hc x (hfl ▸ hx)
      cases hr : layerOf (exGroupedDom.bare x) with
      | ok cl => exact ⟨cl, rfl⟩
      | error e => rw [hr] at this; cases this)
    (s := "head".toList) (l := [4]) (by decide +kernel) (H := {(GKind.animation, 0, 0)}) (st := fun _ => [1])
    (by rintro a rfl; exact ⟨by decide +kernel, by decide +kernel, rfl, by decide +kernel⟩)
    (by rintro a rfl; decide +kernel) (k := .animation) (g := 0) (t := 0) (by simp)
    (fun hw => by
      have := (within_iff hf).1 hw
      revert this
      decide +kernel)
  refine ⟨n, h', e, e1, e2, e3 5 (by rw [hfl]; decide) fun y hy hw => ?_⟩
  obtain rfl : y = 4 := by simpa using hy
  have := (within_iff hf).1 hw
  revert this
  decide +kernel

/-- Naming the circles what they are named already. -/
example (n : ℕ) : untilFound .none double .initial {kw := [("desc", .pv (.str "head".toList))]} true 0
      (fun x => assignAttr double .desc (.str "head".toList) x) n exNamedDom = none :=
  c183_forever double .initial (alloc_made forest_empty _).forest exNamed_classes (x := 1) (r := [3]) (by decide +kernel) n

end Sang
