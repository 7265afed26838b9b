import Verif.Spec.GroupLists
import Verif.Props.DomInsert

/-!
# C169: groups over time are lists
-/

namespace Sang

open Spec Relation

namespace Dom

theorem name_isTag {n : Node} {s : String} (h : n.name = s) (hs : s ≠ "") : n.isTag = true := by
  cases n with
  | text t => exact absurd h.symm hs
  | tag _ _ _ => rfl

theorem holderAt_tag {h : Dom} {k : GKind} {g c : ℕ} (hh : HolderAt h k g c) : (h.bare g).isTag = true := by
  obtain ⟨h1, -, h2⟩ := hh
  cases k with
  | animation => rw [← h2.1]; exact name_isTag h1 (by decide)
  | group => exact name_isTag h2.1 (by decide)

theorem holderAt_canvas {h : Dom} (hf : Forest h) {k : GKind} {g c : ℕ} (hh : HolderAt h k g c) :
    h.canvas k g = .ok (some c) := by
  obtain ⟨h1, -, h2⟩ := hh
  cases k with
  | animation => rw [h2.1]; rfl
  | group =>
    obtain ⟨-, p, A, B, A', B', e1, hA, hp, e2, hA'⟩ := h2
    have f1 : h.find? (isParam "canvas".toList) g = some p := by
      rw [find?, desc_eq hf, find_kids hf]
      exact ⟨A, p, B, e1, fun w hw z hz => (hA w hw z hz).2.2, .inl ⟨rfl, hp⟩⟩
    have f2 : h.find? (fun n => n.isTag && n.name = "canvas") p = some c := by
      rw [find?, desc_eq hf, find_kids hf (fun n => n.isTag && n.name = "canvas")]
      refine ⟨A', c, B', e2, fun w hw z hz => ?_, .inl ⟨rfl, ?_⟩⟩
      · have ht := hA' w hw
        rcases ReflTransGen.cases_tail hz with e | ⟨d, _, hd⟩
        · subst e; simp [ht]
        · have := isTag_of_kid hf hd
          rw [ht] at this; simp at this
      · simp [h1, name_isTag h1 (by decide)]
    simp only [Dom.canvas, f1, f2]

/-- What is the same after something has been put into a canvas. -/
structure Put (h : Dom) (x c : ℕ) (h' : Dom) : Prop where
  forest : Forest h'
  size : h.size ≤ h'.size
  lbl : ∀ z, z < h.size → h'.lbl z = h.lbl z
  there : ∀ q, q ≠ c → q < h.size → h'.kids q = (h.kids q).filter (· ≠ x)
  root : ∀ z, z < h.size → z ≠ x → (h.bare z).isTag = true → h'.parent z = h.parent z
  here : h'.parent x = some c
  fresh : ∀ w q, h.size ≤ w → (h'.bare w).isTag = true → h'.parent w ≠ some q

theorem Put.bare {h h' : Dom} {x c z : ℕ} (m : Put h x c h') (hz : z < h.size) : h'.bare z = h.bare z := bare_congr (m.lbl z hz)

theorem Put.plain {h h' : Dom} (hf : Forest h) {x c w : ℕ} (m : Put h x c h') (hc : (h.bare c).name = "canvas")
    (hw : w < h.size) (hp : Plain h w) : Plain h' w := by
  have key : ∀ z, Within h' z w → Within h z w := by
    intro z hz
    induction hz using ReflTransGen.head_induction_on with
    | refl => exact .refl
    | @head a b hab _ ih =>
      have hb : b < h.size := inside_made hf ih hw
      have hbc : b ≠ c := by rintro rfl; exact (hp b ih).2.1 hc
      have := (m.forest.child b a).2 hab
      rw [m.there b hbc hb] at this
      exact ReflTransGen.head ((hf.child b a).1 (List.mem_filter.1 this).1) ih
  intro z hz
  rw [m.bare (inside_made hf (key z hz) hw)]
  exact hp z (key z hz)

theorem Put.holder {h h' : Dom} (hf : Forest h) {x c : ℕ} (m : Put h x c h') (hc : (h.bare c).name = "canvas")
    (hx : x < h.size → (h.bare x).name ≠ "canvas" ∧ isParam "canvas".toList (h.bare x) = false)
    {k : GKind} {g d : ℕ} (hh : HolderAt h k g d) : HolderAt h' k g d := by
  have hds : d < h.size := inside_made hf (canvas_inside hf (holderAt_canvas hf hh)) hh.2.1
  obtain ⟨h1, hg, h2⟩ := hh
  refine ⟨by rw [m.bare hds]; exact h1, hg.trans_le m.size, ?_⟩
  cases k with
  | animation =>
    obtain ⟨rfl, h3⟩ := h2
    refine ⟨rfl, ?_⟩
    exact (m.root d hds (by rintro rfl; exact (hx hds).1 h1) (name_isTag h1 (by decide))).trans h3
  | group =>
    obtain ⟨hgn, p, A, B, A', B', e1, hA, hp, e2, hA'⟩ := h2
    have made : ∀ y z, z ∈ h.kids y → z < h.size := fun y z hz => (hf.made y z ((hf.child y z).1 hz)).2
    have hps : p < h.size := made g p (by rw [e1]; simp)
    have hgc : g ≠ c := by rintro rfl; rw [hgn] at hc; simp at hc
    have hpx : p ≠ x := by
      rintro rfl
      have := (hx hps).2
      rw [hp] at this; simp at this
    have hdx : d ≠ x := by rintro rfl; exact (hx hds).1 h1
    have hpc : p ≠ c := by
      rintro rfl
      simp only [isParam, Bool.and_eq_true, decide_eq_true_eq] at hp
      rw [hp.1] at hc; simp at hc
    refine ⟨by rw [m.bare hg]; exact hgn, p, A.filter (· ≠ x), B.filter (· ≠ x), A'.filter (· ≠ x), B'.filter (· ≠ x), ?_, ?_, ?_,
      ?_, ?_⟩
    · rw [m.there g hgc hg, split_filter e1 hpx]
    · intro w hw
      have hw := (List.mem_filter.1 hw).1
      exact m.plain hf hc (made g w (by rw [e1]; simp [hw])) (hA w hw)
    · rw [m.bare hps]; exact hp
    · rw [m.there p hpc hps, split_filter e2 hdx]
    · intro w hw
      have hw := (List.mem_filter.1 hw).1
      rw [m.bare (made p w (by rw [e2]; simp [hw]))]
      exact hA' w hw

/-- Different groups have different canvases. -/
theorem holderAt_distinct {h : Dom} (hf : Forest h) {k k' : GKind} {g g' c : ℕ} (h1 : HolderAt h k g c) (h2 : HolderAt h k' g' c) :
    g = g' := by
  obtain ⟨-, -, h1⟩ := h1
  obtain ⟨-, -, h2⟩ := h2
  have up : ∀ {g : ℕ} {p : ℕ} {A B A' B' : List ℕ}, h.kids g = A ++ p :: B → h.kids p = A' ++ c :: B' → Par h c p ∧ Par h p g :=
    fun e1 e2 => ⟨(hf.child _ _).1 (by rw [e2]; simp), (hf.child _ _).1 (by rw [e1]; simp)⟩
  cases k <;> cases k'
  · obtain ⟨-, p, A, B, A', B', e1, -, -, e2, -⟩ := h1
    obtain ⟨-, p', A2, B2, A2', B2', e1', -, -, e2', -⟩ := h2
    have a := up e1 e2
    have b := up e1' e2'
    have := par_unique a.1 b.1
    subst this
    exact par_unique a.2 b.2
  · obtain ⟨rfl, hr⟩ := h2
    obtain ⟨-, p, A, B, A', B', e1, -, -, e2, -⟩ := h1
    have := (up e1 e2).1
    rw [Par, hr] at this; simp at this
  · obtain ⟨rfl, hr⟩ := h1
    obtain ⟨-, p, A, B, A', B', e1, -, -, e2, -⟩ := h2
    have := (up e1 e2).1
    rw [Par, hr] at this; simp at this
  · exact h1.1.symm.trans h2.1

/-- The children of another group. -/
theorem Put.children {h h' : Dom} (hf : Forest h) {x c : ℕ} (m : Put h x c h') {k : GKind} {g d : ℕ} {l : List ℕ}
    (h1 : HolderAt h k g d) (h2 : HolderAt h' k g d) (hdc : d ≠ c) (hl : h.children k g = .ok l) :
    h'.children k g = .ok (l.filter (· ≠ x)) := by
  have hds : d < h.size := inside_made hf (canvas_inside hf (holderAt_canvas hf h1)) h1.2.1
  obtain ⟨rfl, hall⟩ := (children_iff (holderAt_canvas hf h1) l).1 hl
  have made : ∀ z ∈ h.kids d, z < h.size := fun z hz => (hf.made d z ((hf.child d z).1 hz)).2
  refine (children_iff (holderAt_canvas m.forest h2) _).2 ⟨?_, fun z hz => ?_⟩
  · have e : (h.kids d).filter (fun z => isLayer (h'.bare z)) = (h.kids d).filter fun z => isLayer (h.bare z) :=
      List.filter_congr fun z hz => by rw [m.bare (made z hz)]
    rw [m.there d hdc hds, layersOf_eq, layersOf_eq, List.filter_reverse]
    conv_rhs => rw [List.filter_comm, e]
  · have hz := (List.mem_filter.1 hz).1
    have hm : z ∈ h.kids d := by
      rw [layersOf_eq, List.mem_reverse] at hz; exact (List.mem_filter.1 hz).1
    rw [m.bare (made z hm)]
    exact hall z hz

theorem holderAt_same {h : Dom} (hf : Forest h) {k k' : GKind} {g c d : ℕ} (h1 : HolderAt h k g c) (h2 : HolderAt h k' g d) :
    k = k' ∧ c = d := by
  have hk : k = k' := by
    obtain ⟨n1, -, r1⟩ := h1
    obtain ⟨n2, -, r2⟩ := h2
    cases k <;> cases k'
    · rfl
    · rw [r2.1, r1.1] at n2; simp at n2
    · rw [r1.1, r2.1] at n1; simp at n1
    · rfl
  subst hk
  have := holderAt_canvas hf h1
  rw [holderAt_canvas hf h2] at this
  simp only [Except.ok.injEq, Option.some.injEq] at this
  exact ⟨rfl, this.symm⟩

theorem Moved.put {h h' : Dom} {x c : ℕ} {l : List ℕ} (m : Moved h x c l h') : Put h x c h' where
  forest := m.forest
  size := m.size.ge
  lbl := fun z _ => by rw [m.lbl]
  there := fun q hq _ => m.there q hq
  root := fun z _ hz _ => by rw [m.parent, if_neg hz]
  here := by rw [m.parent, if_pos rfl]
  fresh := fun w q hw _ hq => by
    have := (m.forest.made q w hq).2
    rw [m.size] at this
    omega

theorem append_put {h : Dom} (hf : Forest h) {k : GKind} {g c x : ℕ} {l : List ℕ} (hh : HolderAt h k g c)
    (hl : h.children k g = .ok l) (hx : x < h.size) (hin : ¬ Within h c x) (hlast : l.getLast? ≠ some x) :
    Put h x c (h.groupAppend k g x).1 := by
  have hc := holderAt_canvas hf hh
  have hcs : c < h.size := inside_made hf (canvas_inside hf hc) hh.2.1
  obtain ⟨rfl, hall⟩ := (children_iff hc l).1 hl
  rw [Dom.groupAppend, hc]
  simp only
  cases hfd : (h.kids c).find? fun y => isLayer (h.bare y) with
  | none => exact (append_moved hf hcs hx (canvas_tag hf hc (holderAt_tag hh)) hin).1.put
  | some y =>
    simp only
    obtain ⟨hy, A, B, e, hA⟩ := List.find?_eq_some_iff_append.1 hfd
    have hyc : Par h y c := (hf.child c y).1 (by rw [e]; simp)
    have hxy : x ≠ y := by
      rintro rfl
      apply hlast
      rw [List.getLast?_reverse, layersOf_eq, List.head?_filter, hfd]
    obtain ⟨⟨m, -⟩, -⟩ := beside_moved hf hyc hxy hx hin e
    exact m.put

theorem insertAfter_size (h : Dom) (y x : ℕ) : (h.insertAfter y x).1.size = h.size := by
  rw [insertAfter]
  split
  · rfl
  · split
    · rfl
    · rw [insert_size, extract_size]

theorem newlineAfter_size (h : Dom) (y : ℕ) : (h.newlineAfter y).1.size = h.size + 1 := by
  rw [newlineAfter]
  simp only [insertAfter_size]
  rfl

theorem groupInsert_size (h : Dom) (k : GKind) (g : ℕ) (i : ℤ) (x : ℕ) : h.size ≤ (h.groupInsert k g i x).1.size := by
  rw [groupInsert]
  split
  · exact le_rfl
  · split
    · exact le_rfl
    · next y _ =>
      have h1 := newlineAfter_size h y
      split
      · next e => rw [e] at h1; simp only at h1 ⊢; omega
      · next h2 e =>
        rw [e] at h1
        simp only at h1
        have h3 := insertAfter_size h2 y x
        split
        · next e' => rw [e'] at h3; simp only at h3 ⊢; omega
        · next h4 e' =>
          rw [e'] at h3
          have := newlineAfter_size h4 y
          simp only at h3
          omega

theorem insert_put {h : Dom} (hf : Forest h) {k : GKind} {g c x y : ℕ} {l : List ℕ} {i : ℤ} (hh : HolderAt h k g c)
    (hl : h.children k g = .ok l) (hi : pyIndex l i = .ok y) (hx : x < h.size) (hin : ¬ Within h c x) (hxy : x ≠ y) :
    Put h x c (h.groupInsert k g i x).1 := by
  have hc := holderAt_canvas hf hh
  obtain ⟨hl', hall⟩ := (children_iff hc l).1 hl
  have hyl : y ∈ l := pyIndex_mem hi
  have hyc : y ∈ h.kids c := by
    rw [hl', List.mem_reverse, layersOf_eq, List.mem_filter] at hyl
    exact hyl.1
  obtain ⟨A, B, hk⟩ := List.append_of_mem hyc
  obtain ⟨h4, n, n', e, f4, k4, ln, ln', lb2, hkq, hpx, can4⟩ := groupInsert_spec hf hh.2.1 hc hl hi hx hin hxy hk
  have hsz := groupInsert_size h k g i x
  rw [e] at hsz ⊢
  refine ⟨f4, hsz, lb2, fun q hq _ => hkq q hq, fun z hz hzx ht => ?_, (f4.child c x).1 (by rw [k4]; simp),
    fun w q hw ht hq => ?_⟩
  rotate_left
  · have hm : w ∈ h4.kids q := (f4.child q w).2 hq
    have old : ∀ q, w ∉ h.kids q := fun q hm => by
      have := (hf.made q w ((hf.child q w).1 hm)).2
      omega
    have text : ∀ m, h4.lbl m = .text ['\n'] → w ≠ m := by
      rintro m hm rfl
      simp [Dom.bare, hm, Node.isTag] at ht
    by_cases hqc : q = c
    · subst hqc
      have ho := old q
      rw [hk] at ho
      rw [k4] at hm
      have t1 := text _ ln
      have t2 := text _ ln'
      have t3 : w ≠ x := by omega
      simp only [List.mem_append, List.mem_cons, List.mem_filter, t1, t2, t3, false_or] at hm ho
      tauto
    · rw [hkq q hqc] at hm
      exact old q (List.mem_filter.1 hm).1
  have tag : ∀ m, h4.lbl m = .text ['\n'] → z ≠ m := by
    rintro m hm rfl
    rw [lb2 z hz] at hm
    simp [bare, hm, Node.isTag] at ht
  have key : ∀ q, h4.parent z = some q ↔ h.parent z = some q := by
    intro q
    have e1 : h4.parent z = some q ↔ z ∈ h4.kids q := (f4.child q z).symm
    have e2 : h.parent z = some q ↔ z ∈ h.kids q := (hf.child q z).symm
    rw [e1, e2]
    by_cases hqc : q = c
    · subst hqc
      have t1 := tag _ ln
      have t2 := tag _ ln'
      rw [k4, hk]
      simp only [List.mem_append, List.mem_cons, List.mem_filter, hzx, t1, t2, decide_not, ne_eq, Bool.not_eq_eq_eq_not,
        Bool.not_true, decide_eq_false_iff_not, not_false_eq_true, and_true, false_or]
    · rw [hkq q hqc]
      simp [List.mem_filter, hzx]
  cases hp : h.parent z with
  | none =>
    cases hp' : h4.parent z with
    | none => rfl
    | some q => exact absurd ((key q).1 hp') (by rw [hp]; simp)
  | some q => exact (key q).2 hp

/-- Inserting a layer before itself. -/
theorem insert_self_put {h : Dom} (hf : Forest h) {k : GKind} {g c x : ℕ} {l : List ℕ} {i : ℤ} (hh : HolderAt h k g c)
    (hl : h.children k g = .ok l) (hi : pyIndex l i = .ok x) :
    (h.groupInsert k g i x).2 = .error .value ∧ Put h h.size c (h.groupInsert k g i x).1 ∧
      ∃ A B, h.kids c = A ++ x :: B ∧ (h.groupInsert k g i x).1.kids c = A ++ x :: h.size :: B ∧
        (h.groupInsert k g i x).1.lbl h.size = .text ['\n'] := by
  have hc := holderAt_canvas hf hh
  obtain ⟨hl', hall⟩ := (children_iff hc l).1 hl
  have hyl : x ∈ l := pyIndex_mem hi
  have hyc : x ∈ h.kids c := by
    rw [hl', List.mem_reverse, layersOf_eq, List.mem_filter] at hyl
    exact hyl.1
  obtain ⟨A, B, hk⟩ := List.append_of_mem hyc
  have hyp := (hf.child c x).1 hyc
  have hxs := (hf.made c x hyp).2
  obtain ⟨h1, h2, e1, f1, x1, t1, s1, k1, p1, m1⟩ := newline_moved hf hyp hk
  have e : h.groupInsert k g i x = (h2, .error .value) := by
    rw [Dom.groupInsert, hl]
    simp only [hi, e1]
    have : h2.parent x = some c := by
      rw [m1.parent, if_neg (by omega), p1]; exact hyp
    rw [insertAfter, this]
    simp
  rw [e]
  refine ⟨rfl, ⟨m1.forest, by rw [m1.size, s1]; omega, fun z hz => by rw [m1.lbl, x1.lbl z hz],
    fun q hq _ => by rw [m1.there q hq, k1], fun z hz hzx _ => by rw [m1.parent, if_neg hzx, p1],
    by rw [m1.parent, if_pos rfl], fun w q hw ht hq => by
      have hws : w ≠ h.size := by
        rintro rfl
        simp [Dom.bare, m1.lbl, t1, Node.isTag] at ht
      rw [m1.parent, if_neg hws, p1] at hq
      have := (hf.made q w hq).2
      omega⟩, A, B, hk, m1.here,
    by rw [m1.lbl, t1]⟩

theorem layer_other {n : Node} (h : isLayer n = true) : n.name ≠ "canvas" ∧ isParam "canvas".toList n = false := by
  simp only [isLayer, Bool.and_eq_true, decide_eq_true_eq] at h
  simp [isParam, h.2]

theorem filter_fresh {h : Dom} (hf : Forest h) {k : GKind} {g c : ℕ} {l : List ℕ} (hh : HolderAt h k g c)
    (hl : h.children k g = .ok l) : l.filter (· ≠ h.size) = l := by
  obtain ⟨rfl, -⟩ := (children_iff (holderAt_canvas hf hh) l).1 hl
  apply filter_ne_self
  intro hm
  rw [List.mem_reverse, layersOf_eq] at hm
  have := (hf.made c _ ((hf.child c _).1 (List.mem_filter.1 hm).1)).2
  omega

theorem pyIndex_position {l : List ℕ} {i : ℤ} :
    pyIndex l i = if position l.length i < 0 then .error .index
      else match l[(position l.length i).toNat]? with
        | none => .error .index
        | some y => .ok y := by
  have : position l.length i = if i < 0 then i + (l.length : ℤ) else i := by rw [position]; split <;> ring
  rw [this, pyIndex]
  generalize (if i < 0 then i + (l.length : ℤ) else i) = j
  by_cases hj : j < 0
  · rw [if_pos hj, if_pos hj]
  · rw [if_neg hj, if_neg hj]
    cases l[j.toNat]? <;> rfl

/-- One operation. -/
theorem move_step {h : Dom} (hf : Forest h) {H : Set (GKind × ℕ × ℕ)} (hH : ∀ a ∈ H, HolderAt h a.1 a.2.1 a.2.2)
    {st : ℕ → List ℕ} (hst : ∀ a ∈ H, h.children a.1 a.2.1 = .ok (st a.2.1)) {o : MoveOp} {c : ℕ}
    (ho : (o.group.1, o.group.2, c) ∈ H) (hx : o.layer < h.size) (hlay : isLayer (h.bare o.layer) = true)
    (hcl : ∃ cl, layerOf (h.bare o.layer) = .ok cl) (hin : ¬ Within h c o.layer) :
    (o.run h).2 = (o.lists st).2 ∧ Forest (o.run h).1 ∧ (∀ a ∈ H, HolderAt (o.run h).1 a.1 a.2.1 a.2.2) ∧
      ∀ a ∈ H, (o.run h).1.children a.1 a.2.1 = .ok ((o.lists st).1 a.2.1) := by
  obtain ⟨cl, hcl⟩ := hcl
  -- what holds whatever has been put into the canvas
  have fin : ∀ (x : ℕ) (h' : Dom) (st' : ℕ → List ℕ), Put h x c h' →
      (x < h.size → (h.bare x).name ≠ "canvas" ∧ isParam "canvas".toList (h.bare x) = false) →
      (∀ a ∈ H, a.2.1 ≠ o.group.2 → st' a.2.1 = (st a.2.1).filter (· ≠ x)) →
      h'.children o.group.1 o.group.2 = .ok (st' o.group.2) →
      Forest h' ∧ (∀ a ∈ H, HolderAt h' a.1 a.2.1 a.2.2) ∧ ∀ a ∈ H, h'.children a.1 a.2.1 = .ok (st' a.2.1) := by
    intro x h' st' m hxn hst' hg
    have hc := (hH _ ho).1
    have hH' : ∀ a ∈ H, HolderAt h' a.1 a.2.1 a.2.2 := fun a ha => m.holder hf hc hxn (hH a ha)
    refine ⟨m.forest, hH', fun a ha => ?_⟩
    by_cases e : a.2.1 = o.group.2
    · have h1 := hH a ha
      rw [e] at h1 ⊢
      obtain ⟨hk, -⟩ := holderAt_same hf h1 (hH _ ho)
      rw [hk]; exact hg
    · rw [hst' a ha e]
      refine m.children hf (hH a ha) (hH' a ha) ?_ (hst a ha)
      intro hd
      have h1 := hH a ha
      rw [hd] at h1
      exact e (holderAt_distinct hf h1 (hH _ ho))
  have hh := hH _ ho
  have hl := hst _ ho
  cases o with
  | append k g x =>
    simp only [MoveOp.group, MoveOp.layer] at ho hx hlay hcl hin hh hl fin
    simp only [MoveOp.run, MoveOp.lists]
    by_cases hlast : (st g).getLast? = some x
    · rw [if_pos hlast, c71_append_last_child_fails hf hl hlast]
      exact ⟨rfl, hf, hH, hst⟩
    · rw [if_neg hlast]
      obtain ⟨h', e, hch, -⟩ := c71_append_moves_partial hf hh.2.1 (holderAt_tag hh) (holderAt_canvas hf hh) hl hx hlay hcl hin hlast
      have m := append_put hf hh hl hx hin hlast
      rw [e] at m ⊢
      refine ⟨rfl, fin x h' _ m (fun _ => layer_other hlay) (fun a _ hne => ?_) ?_⟩
      · simp [hne]
      · simpa using hch
  | insert k g i x =>
    simp only [MoveOp.group, MoveOp.layer] at ho hx hlay hcl hin hh hl fin
    simp only [MoveOp.run, MoveOp.lists]
    have hpi := pyIndex_position (l := st g) (i := i)
    by_cases hj : position (st g).length i < 0
    · rw [if_pos hj] at hpi ⊢
      rw [groupInsert, hl]
      simp only [hpi]
      exact ⟨trivial, hf, hH, hst⟩
    · rw [if_neg hj] at hpi ⊢
      cases hy : (st g)[(position (st g).length i).toNat]? with
      | none =>
        simp only [hy] at hpi ⊢
        rw [groupInsert, hl]
        simp only [hpi]
        exact ⟨trivial, hf, hH, hst⟩
      | some y =>
        simp only [hy] at hpi ⊢
        by_cases hxy : x = y
        · subst hxy
          rw [if_pos rfl]
          obtain ⟨e, m, A, B, k1, k2, k3⟩ := insert_self_put hf hh hl hpi
          refine ⟨e, fin _ _ _ m (fun hlt => absurd hlt (lt_irrefl _)) (fun a ha _ => (filter_fresh hf (hH a ha) (hst a ha)).symm) ?_⟩
          have hH' := m.holder hf hh.1 (fun hlt => absurd hlt (lt_irrefl _)) hh
          obtain ⟨e1, hall⟩ := (children_iff (holderAt_canvas hf hh) _).1 hl
          have made : ∀ z ∈ h.kids c, z < h.size := fun z hz => (hf.made c z ((hf.child c z).1 hz)).2
          refine (children_iff (holderAt_canvas m.forest hH') _).2 ⟨?_, fun z hz => ?_⟩
          · show st g = _
            rw [e1, k1, k2, layersOf_eq, layersOf_eq]
            have hn : isLayer ((h.groupInsert k g i x).1.bare h.size) = false := by simp [bare, k3, isLayer, Node.isTag]
            have same : ∀ l : List ℕ, (∀ z ∈ l, z ∈ h.kids c) →
                l.filter (fun z => isLayer ((h.groupInsert k g i x).1.bare z)) = l.filter fun z => isLayer (h.bare z) :=
              fun l hl => List.filter_congr fun z hz => by rw [m.bare (made z (hl z hz))]
            have e2 : A ++ x :: h.size :: B = (A ++ [x]) ++ h.size :: B := by simp
            have e3 : A ++ x :: B = (A ++ [x]) ++ B := by simp
            have s1 := same (A ++ [x]) fun z hz => by rw [k1, e3, List.mem_append]; exact .inl hz
            have s2 := same B fun z hz => by rw [k1]; simp [hz]
            rw [e2, e3, List.filter_append (l₁ := A ++ [x]), List.filter_append (l₁ := A ++ [x]), s1,
              List.filter_cons_of_neg (a := h.size) (by rw [hn]; simp), s2]
          · replace hz : z ∈ st g := hz
            have : z ∈ h.kids c := by
              rw [e1, List.mem_reverse, layersOf_eq] at hz; exact (List.mem_filter.1 hz).1
            rw [m.bare (made z this)]; exact hall z hz
        · rw [if_neg hxy]
          obtain ⟨h', l1, l2, e, hl12, hch, -⟩ := c96_insert_moves_partial hf hh.2.1 (holderAt_canvas hf hh) hl hpi hx hlay hcl hin hxy
          have m := insert_put hf hh hl hpi hx hin hxy
          rw [e] at m ⊢
          refine ⟨rfl, fin x h' _ m (fun _ => layer_other hlay) (fun a _ hne => by simp [hne]) ?_⟩
          rw [hch]
          dsimp only
          rw [if_pos rfl]
          have hnd : (st g).Nodup := by
            obtain ⟨e1, -⟩ := (children_iff (holderAt_canvas hf hh) _).1 hl
            rw [e1, layersOf_eq, List.nodup_reverse]
            exact (hf.nodup c).filter _
          have hlen : (position (st g).length i).toNat = l1.length := by
            rw [hl12] at hnd hy ⊢
            obtain ⟨hlt, hget⟩ := List.getElem?_eq_some_iff.1 hy
            have h2 : (l1 ++ y :: l2)[l1.length]'(by simp) = y := by simp
            exact (List.Nodup.getElem_inj_iff hnd).1 (hget.trans h2.symm)
          rw [hlen, hl12, List.take_left, List.drop_left, List.filter_cons_of_pos (by simpa using Ne.symm hxy)]

end Dom

open Dom

/-- C169. Groups are lists: whatever is appended and inserted, in whatever order, and whether it is new or moved from another
group, each group's children are afterwards what becomes of lists, and the same calls raise the same exceptions. -/
theorem c169_groups_are_lists {h : Dom} (hf : Forest h) {H : Set (GKind × ℕ × ℕ)} (hH : ∀ a ∈ H, HolderAt h a.1 a.2.1 a.2.2)
    {st : ℕ → List ℕ} (hst : ∀ a ∈ H, h.children a.1 a.2.1 = .ok (st a.2.1)) {ops : List MoveOp} (ho : Orderly H h ops) :
    (runMoves ops h).2 = (runLists ops st).2 ∧
    ∀ a ∈ H, (runMoves ops h).1.children a.1 a.2.1 = .ok ((runLists ops st).1 a.2.1) := by
  induction ho generalizing st with
  | nil => exact ⟨rfl, hst⟩
  | @cons h o os c h1 h2 h3 h4 h5 _ ih =>
    obtain ⟨e, f, g1, g2⟩ := move_step hf hH hst h1 h2 h3 h4 h5
    obtain ⟨i1, i2⟩ := ih f g1 g2
    exact ⟨by simp only [runMoves, runLists, e, i1], i2⟩

/-- Nothing is lost from lists by moving. -/
theorem lists_keep (G : ℕ → Prop) (o : MoveOp) (st : ℕ → List ℕ) (hg : G o.group.2) (z : ℕ) (hz : ∃ q, G q ∧ z ∈ st q) :
    ∃ q, G q ∧ z ∈ (o.lists st).1 q := by
  obtain ⟨q, hq, hz⟩ := hz
  cases o with
  | append k g x =>
    simp only [MoveOp.group] at hg
    simp only [MoveOp.lists]
    split
    · exact ⟨q, hq, hz⟩
    · by_cases e : z = x
      · exact ⟨g, hg, by simp [e]⟩
      · exact ⟨q, hq, by simp [hz, e]⟩
  | insert k g i x =>
    simp only [MoveOp.group] at hg
    simp only [MoveOp.lists]
    split
    · exact ⟨q, hq, hz⟩
    · split
      · exact ⟨q, hq, hz⟩
      · split
        · exact ⟨q, hq, hz⟩
        · by_cases e : z = x
          · exact ⟨g, hg, by simp [e]⟩
          · refine ⟨q, hq, ?_⟩
            by_cases hqg : q = g
            · simp only [if_pos hqg]
              rw [← List.take_append_drop (position (st g).length i).toNat (st q), List.mem_append] at hz
              simp only [List.mem_append, List.mem_cons, List.mem_filter, decide_eq_true_eq]
              tauto
            · simp [hqg, hz, e]

/-- C169. No layer is lost by moving layers about: what was in one of the groups still is, and in one only. -/
theorem c169_none_lost {h : Dom} (hf : Forest h) {H : Set (GKind × ℕ × ℕ)} (hH : ∀ a ∈ H, HolderAt h a.1 a.2.1 a.2.2)
    {st : ℕ → List ℕ} (hst : ∀ a ∈ H, h.children a.1 a.2.1 = .ok (st a.2.1)) {ops : List MoveOp} (ho : Orderly H h ops) {z : ℕ}
    (hz : ∃ a ∈ H, z ∈ st a.2.1) :
    ∃ a ∈ H, ∃ l, (runMoves ops h).1.children a.1 a.2.1 = .ok l ∧ l.count z = 1 ∧
      ∀ b ∈ H, b ≠ a → ∀ l', (runMoves ops h).1.children b.1 b.2.1 = .ok l' → z ∉ l' := by
  induction ho generalizing st with
  | @nil h =>
    obtain ⟨a, ha, hm⟩ := hz
    have up : ∀ b ∈ H, ∀ l, h.children b.1 b.2.1 = .ok l → z ∈ l → Par h z b.2.2 ∧ l.Nodup := by
      intro b hb l hl hm
      obtain ⟨e1, -⟩ := (children_iff (holderAt_canvas hf (hH b hb)) _).1 hl
      rw [e1, List.mem_reverse, layersOf_eq] at hm
      refine ⟨(hf.child _ _).1 (List.mem_filter.1 hm).1, ?_⟩
      rw [e1, layersOf_eq, List.nodup_reverse]
      exact (hf.nodup _).filter _
    have ua := up a ha _ (hst a ha) hm
    refine ⟨a, ha, _, hst a ha, List.count_eq_one_of_mem ua.2 hm, fun b hb hne l hl hmb => hne ?_⟩
    have e := par_unique (up b hb l hl hmb).1 ua.1
    have h1 := hH b hb
    rw [e] at h1
    have e2 := holderAt_distinct hf h1 (hH a ha)
    rw [e2] at h1
    have e3 := (holderAt_same hf h1 (hH a ha)).1
    exact Prod.ext e3 (Prod.ext e2 e)
  | @cons h o os c h1 h2 h3 h4 h5 _ ih =>
    obtain ⟨-, f, g1, g2⟩ := move_step hf hH hst h1 h2 h3 h4 h5
    refine ih f g1 g2 ?_
    obtain ⟨a, ha, hm⟩ := hz
    obtain ⟨q, ⟨b, hb, rfl⟩, hq⟩ := lists_keep (fun q => ∃ b ∈ H, b.2.1 = q) o st ⟨_, h1, rfl⟩ z ⟨a.2.1, ⟨a, ha, rfl⟩, hm⟩
    exact ⟨b, hb, hq⟩

/-- The document and the group in it. -/
def exHolders : Set (GKind × ℕ × ℕ) := {(.animation, 0, 0), (.group, 1, 3)}

/-- What they hold. -/
def exLists : ℕ → List ℕ := fun q => if q = 0 then [9, 1] else [4]

/-- The star is moved into the group, twice; the circle is taken out of the group and put before the group itself; and the new
text layer is put before the circle. -/
def exMoves : List MoveOp :=
  [.append .group 1 9, .append .group 1 9, .insert .animation 0 0 4, .insert .animation 0 (-2) 14]

theorem exHolders_ok : ∀ a ∈ exHolders, HolderAt exDom a.1 a.2.1 a.2.2 := by
  rintro a (rfl | rfl)
  · exact ⟨by decide +kernel, by decide +kernel, rfl, by decide +kernel⟩
  · exact ⟨by decide +kernel, by decide +kernel, by decide +kernel, 2, [], [], [], [], by decide +kernel, by simp, by decide +kernel,
      by decide +kernel, by simp⟩

theorem exLists_ok : ∀ a ∈ exHolders, exDom.children a.1 a.2.1 = .ok (exLists a.2.1) := by
  rintro a (rfl | rfl) <;> decide +kernel

theorem orderly_step {h : Dom} (hf : Forest h) {H : Set (GKind × ℕ × ℕ)} (hH : ∀ a ∈ H, HolderAt h a.1 a.2.1 a.2.2)
    {st : ℕ → List ℕ} (hst : ∀ a ∈ H, h.children a.1 a.2.1 = .ok (st a.2.1)) {o : MoveOp} {os : List MoveOp} {c : ℕ} {cl : LClass}
    (ho : (o.group.1, o.group.2, c) ∈ H) (hx : o.layer < h.size) (hlay : isLayer (h.bare o.layer) = true)
    (hcl : layerOf (h.bare o.layer) = .ok cl) (hin : c ∉ o.layer :: h.desc o.layer)
    (next : Forest (o.run h).1 → (∀ a ∈ H, HolderAt (o.run h).1 a.1 a.2.1 a.2.2) →
      (∀ a ∈ H, (o.run h).1.children a.1 a.2.1 = .ok ((o.lists st).1 a.2.1)) → Orderly H (o.run h).1 os) :
    Orderly H h (o :: os) := by
  have hin' : ¬ Within h c o.layer := fun hi => hin ((within_iff hf).1 hi)
  obtain ⟨-, f, g1, g2⟩ := move_step hf hH hst ho hx hlay ⟨cl, hcl⟩ hin'
  exact .cons ho hx hlay ⟨cl, hcl⟩ hin' (next f g1 g2)

theorem exMoves_orderly : Orderly exHolders exDom exMoves := by
  refine orderly_step exDom_forest exHolders_ok exLists_ok (c := 3) (cl := lcStar) (.inr rfl) (by decide +kernel) (by decide +kernel)
    (by decide +kernel) (by decide +kernel) fun f1 g1 l1 => ?_
  refine orderly_step f1 g1 l1 (c := 3) (cl := lcStar) (.inr rfl) (by decide +kernel) (by decide +kernel)
    (by decide +kernel) (by decide +kernel) fun f1 g1 l1 => ?_
  refine orderly_step f1 g1 l1 (c := 0) (cl := lcCircle) (.inl rfl) (by decide +kernel) (by decide +kernel)
    (by decide +kernel) (by decide +kernel) fun f1 g1 l1 => ?_
  obtain ⟨cl, hcl⟩ : ∃ cl, layerOf (exDom.bare 14) = .ok cl := ⟨_, rfl⟩
  exact orderly_step f1 g1 l1 (c := 0) (cl := cl) (.inl rfl) (by decide +kernel) (by decide +kernel)
    hcl (by decide +kernel) fun _ _ _ => .nil

/-- A concrete history: one of its steps is refused. -/
example : (runMoves exMoves exDom).2 = [.ok (), .error .value, .ok (), .ok ()] ∧
    (runMoves exMoves exDom).1.children .animation 0 = .ok [14, 4, 1] ∧
    (runMoves exMoves exDom).1.children .group 1 = .ok [9] := by
  have h := c169_groups_are_lists exDom_forest exHolders_ok exLists_ok exMoves_orderly
  exact ⟨h.1.trans (by decide +kernel), (h.2 _ (.inl rfl)).trans (by decide +kernel), (h.2 _ (.inr rfl)).trans (by decide +kernel)⟩

end Sang
