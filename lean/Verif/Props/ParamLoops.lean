import Verif.Spec.ParamLoops
import Verif.Props.FoundLoops
import Verif.Props.Documents
import Verif.Props.Frame
import Verif.Props.Program
import Verif.Props.DescLoops

/-!
# C181: loops that assign to a parameter of layers

`for x in group.children: x[f] = v`, and the same with `find_all`.
-/

namespace Sang

open Spec Relation

namespace Dom

/-- What `x[f] = v` leaves alone. -/
theorem setPlain_frame {h : Dom} (hf : Forest h) (F : Fl) (a : ℕ) (f : Str) (v : PV) :
    Forest (h.setPlain F a f v).1 ∧ h.size ≤ (h.setPlain F a f v).1.size ∧
      (∀ z, z < h.size → ∀ q, (h.setPlain F a f v).1.parent z = some q → h.parent z = some q) ∧
      ∀ b, b < h.size → ¬ Within h a b → ¬ Within h b a → (h.setPlain F a f v).1.node b = h.node b := by
  cases ha : h.getItem a f with
  | error e =>
    rw [setPlain, ha]
    exact ⟨hf, le_rfl, fun _ _ _ e => e, fun _ _ _ _ => rfl⟩
  | ok r =>
    obtain ⟨cl, old⟩ := r
    cases hm : newValue F cl v with
    | error e =>
      rw [setPlain, ha]
      simp only [hm]
      exact ⟨hf, le_rfl, fun _ _ _ e => e, fun _ _ _ _ => trivial⟩
    | ok m =>
      obtain ⟨p, hp, hkp, _⟩ := getItem_iff.1 ha
      have hop := (hf.child p old).1 (filter_single hkp).1
      have hps := (hf.made p old hop).1
      have hos := (hf.made p old hop).2
      have mk := alloc_made hf m
      have hop' : Par (h.alloc m).1 old p := by rw [Par, mk.ext.parent old hos]; exact hop
      have hnew := mk.new
      obtain ⟨A, B, hk⟩ := List.append_of_mem ((mk.forest.child p old).2 hop')
      obtain ⟨m', -⟩ := replaced mk.forest hop' (x := (h.alloc m).2) (by omega) mk.size (mk.fresh hf hps) hk
      have e : (h.setPlain F a f v).1 = ((h.alloc m).1.replaceWith old (h.alloc m).2).1 := by
        rw [setPlain, ha]
        simp only [hm]
      obtain ⟨h', e', -, c3⟩ := c144_assign_plain hf F ha hm
      refine ⟨e ▸ m'.forest, ?_, fun z hz q hq => ?_, fun b hb h1 h2 => ?_⟩
      · rw [e, m'.size]; exact mk.ext.size
      · rw [e, m'.parent, if_neg (by omega)] at hq
        by_cases hzo : z = old
        · rw [if_pos hzo] at hq; cases hq
        · rw [if_neg hzo, mk.ext.parent z hz] at hq; exact hq
      · rw [e']
        refine c3 b hb fun hw => ?_
        have hoa : Within h old a := (ReflTransGen.single hop).trans ((find_iff hf _ _ _).1 hp).1.to_reflTransGen
        rcases inside_total hoa hw.1 with i | i
        · exact h1 i
        · exact h2 i

theorem within_back {h h' : Dom} (hf : Forest h) (hp : ∀ z, z < h.size → ∀ q, h'.parent z = some q → h.parent z = some q) {x y : ℕ}
    (hx : x < h.size) (hw : Within h' x y) : Within h x y ∧ y < h.size := by
  induction hw with
  | refl => exact ⟨.refl, hx⟩
  | tail _ hbc ih =>
    have := hp _ ih.2 _ hbc
    exact ⟨ih.1.tail this, (hf.made _ _ this).1⟩

theorem takes_once {h : Dom} (hf : Forest h) {F : Fl} {x : ℕ} {f : Str} {v : PV} {c : VCls} {m : Node} (hv : ∀ c r m, v ≠ .val c r m)
    (ht : TakesParam F h x f v c m) (hm : fromTag m = .ok c) :
    (h.setPlain F x f v).2 = .ok () ∧ ShowsParam (h.setPlain F x f v).1 x f c m := by
  obtain ⟨⟨o, ho⟩, hn⟩ := ht
  obtain ⟨p, hp, hkp, _⟩ := getItem_iff.1 ho
  have hop := (hf.child p o).1 (filter_single hkp).1
  have hxs : x < h.size := by
    obtain ⟨d, -, hd⟩ := TransGen.tail'_iff.1 ((find_iff hf _ _ _).1 hp).1
    exact (hf.made _ _ hd).1
  obtain ⟨h', e, -, -⟩ := c144_assign_plain hf F ho hn
  obtain ⟨w1, w2⟩ := c54_writes_in_memory hf F hxs f v hv
  rw [e] at w1
  obtain ⟨c', u, m', s1, s2, s3⟩ := setParam_ok w1.symm
  rw [c54_reads_in_memory hf, ho] at s1
  simp only [Except.map, Except.ok.injEq, Prod.mk.injEq] at s1
  obtain ⟨rfl, -⟩ := s1
  have hni : newItem F c v = newValue F c v := by
    cases v <;> first | rfl | exact absurd rfl (hv _ _ _)
  rw [hni, hn] at s2
  obtain rfl : m = m' := by simpa using s2
  have := s3 (newValue_nameless hn).1 c hm
  refine ⟨by rw [e], ?_⟩
  rw [← w2, c54_reads_in_memory (setPlain_frame hf F x f v).1] at this
  cases hg : (h.setPlain F x f v).1.getItem x f with
  | error e => rw [hg] at this; cases this
  | ok r =>
    rw [hg] at this
    simp only [Except.map, Except.ok.injEq, Prod.mk.injEq] at this
    exact ⟨r.2, by rw [hg, ← this.1], this.2⟩

/-- What `x[f]` shows is to be seen from what `x` says. -/
theorem shows_iff {h : Dom} (hf : Forest h) {x : ℕ} {f : Str} {c : VCls} {m : Node} :
    ShowsParam h x f c m ↔ getParam f (h.node x) = .ok (c, m) := by
  rw [c54_reads_in_memory hf]
  constructor
  · rintro ⟨o, ho, rfl⟩
    rw [ho]; rfl
  · intro he
    cases hg : h.getItem x f with
    | error e => rw [hg] at he; cases he
    | ok r =>
      rw [hg] at he
      simp only [Except.map, Except.ok.injEq, Prod.mk.injEq] at he
      exact ⟨r.2, by rw [hg, ← he.1], he.2⟩

section
variable {F : Fl} {f : Str} {v : PV} (hv : ∀ c r m, v ≠ .val c r m)
include hv

/-- C181. Assigning to each of some layers none of which is in another: each has the new value, and all other elements that are neither
in one of them nor around one are as they were. -/
theorem c181_each : ∀ (l : List ℕ) (h : Dom), Forest h → NoneInside h l →
    (∀ x ∈ l, ∃ c m, TakesParam F h x f v c m ∧ fromTag m = .ok c) →
    ∃ h', forList (fun x => setPlain F x f v) l h = (h', .ok ()) ∧ Forest h' ∧
      (∀ x ∈ l, ∀ c m, TakesParam F h x f v c m → ShowsParam h' x f c m) ∧
      (∀ x ∈ l, h'.node x = (setParam F f v (h.node x)).1) ∧
      ∀ b, b < h.size → (∀ x ∈ l, ¬ Within h x b ∧ ¬ Within h b x) → h'.node b = h.node b := by
  intro l
  induction l with
  | nil => intro h hf _ _; exact ⟨h, rfl, hf, by simp, by simp, fun _ _ _ => rfl⟩
  | cons x l ih =>
    intro h hf ha ht
    obtain ⟨ax, al⟩ := List.pairwise_cons.1 ha
    obtain ⟨c, m, hc, hm⟩ := ht x (by simp)
    obtain ⟨o1, o2⟩ := takes_once hf hv hc hm
    obtain ⟨f1, f2, f3, f4⟩ := setPlain_frame hf F x f v
    have made : ∀ y c m, TakesParam F h y f v c m → y < h.size := by
      rintro y c m ⟨⟨o, ho⟩, -⟩
      obtain ⟨p, hp, -, -⟩ := getItem_iff.1 ho
      obtain ⟨d, -, hd⟩ := TransGen.tail'_iff.1 ((find_iff hf _ _ _).1 hp).1
      exact (hf.made _ _ hd).1
    have hls : ∀ y ∈ l, y < h.size := fun y hy => by
      obtain ⟨c, m, h1, -⟩ := ht y (by simp [hy])
      exact made y c m h1
    have back : ∀ y z, y < h.size → Within (h.setPlain F x f v).1 y z → Within h y z := fun y z hy hw => (within_back hf f3 hy hw).1
    have same : ∀ y ∈ l, (h.setPlain F x f v).1.node y = h.node y := fun y hy => f4 y (hls y hy) (ax y hy).1 (ax y hy).2
    have takes : ∀ y ∈ l, ∀ c m, TakesParam F h y f v c m → TakesParam F (h.setPlain F x f v).1 y f v c m := by
      rintro y hy c m ⟨⟨o, ho⟩, hn⟩
      have : ShowsParam (h.setPlain F x f v).1 y f c (h.node o) := by
        rw [shows_iff f1, same y hy, ← shows_iff hf]
        exact ⟨o, ho, rfl⟩
      obtain ⟨o', ho', -⟩ := this
      exact ⟨⟨o', ho'⟩, hn⟩
    obtain ⟨h', e, i1, i2, i4, i3⟩ := ih (h.setPlain F x f v).1 f1
      (al.imp_of_mem fun {y z} hy hz hyz =>
        ⟨fun hw => hyz.1 (back y z (hls y hy) hw), fun hw => hyz.2 (back z y (hls z hz) hw)⟩)
      (fun y hy => by
        obtain ⟨c, m, h1, h2⟩ := ht y (by simp [hy])
        exact ⟨c, m, takes y hy c m h1, h2⟩)
    have hxs := made x c m hc
    have hhead : h'.node x = (h.setPlain F x f v).1.node x := i3 x (hxs.trans_le f2) fun z hz =>
      ⟨fun hw => (ax z hz).2 (back z x (hls z hz) hw), fun hw => (ax z hz).1 (back x z hxs hw)⟩
    refine ⟨h', ?_, i1, ?_, ?_, ?_⟩
    · rw [forList, show h.setPlain F x f v = ((h.setPlain F x f v).1, .ok ()) from Prod.ext rfl o1]
      exact e
    · intro y hy c' m' hc'
      rcases List.mem_cons.1 hy with rfl | hy
      · obtain ⟨⟨o, ho⟩, hn⟩ := hc
        obtain ⟨⟨o', ho'⟩, hn'⟩ := hc'
        rw [ho] at ho'
        obtain ⟨rfl, -⟩ : c = c' ∧ o = o' := by simpa using ho'
        rw [hn] at hn'
        obtain rfl : m = m' := by simpa using hn'
        rw [shows_iff i1, hhead, ← shows_iff f1]
        exact o2
      · exact i2 y hy c' m' (takes y hy c' m' hc')
    · intro y hy
      rcases List.mem_cons.1 hy with rfl | hy
      · rw [hhead]
        exact (c54_writes_in_memory hf F hxs f v hv).2
      · rw [i4 y hy, same y hy]
    · intro b hb hout
      rw [i3 b (hb.trans_le f2) fun z hz => ⟨fun hw => (hout z (by simp [hz])).1 (back z b (hls z hz) hw),
        fun hw => (hout z (by simp [hz])).2 (back b z hb hw)⟩]
      exact f4 b hb (hout x (by simp)).1 (hout x (by simp)).2

/-- C181. If one of them refuses the value, or hasn't got the parameter, the loop raises there: those before it have been assigned to, and
it and those after it are as they were. -/
theorem c181_stops {A B : List ℕ} {x : ℕ} {h : Dom} (hf : Forest h) (ha : NoneInside h (A ++ x :: B)) (hs : ∀ y ∈ x :: B, y < h.size)
    (ht : ∀ y ∈ A, ∃ c m, TakesParam F h y f v c m ∧ fromTag m = .ok c) {e : Err} (hx : (h.setPlain F x f v).2 = .error e) :
    ∃ h', forList (fun y => setPlain F y f v) (A ++ x :: B) h = (h', .error e) ∧
      (∀ y ∈ A, ∀ c m, TakesParam F h y f v c m → ShowsParam h' y f c m) ∧ ∀ y ∈ x :: B, h'.node y = h.node y := by
  obtain ⟨a1, a2, a3⟩ := List.pairwise_append.1 ha
  obtain ⟨h', r, g1, g2, -, g3⟩ := c181_each hv A h hf a1 ht
  have same : ∀ y ∈ x :: B, h'.node y = h.node y := fun y hy => g3 y (hs y hy) fun z hz => a3 z hz y hy
  have hxs := hs x (by simp)
  have hxs' : x < h'.size := by
    by_contra hc
    have keep : ∀ (l : List ℕ) (h : Dom), Forest h → h.size ≤ (forList (fun y => setPlain F y f v) l h).1.size := by
      intro l
      induction l with
      | nil => intro h _; exact le_rfl
      | cons y l ih =>
        intro h hf
        obtain ⟨f1, f2, -, -⟩ := setPlain_frame hf F y f v
        rw [forList]
        rcases hr : h.setPlain F y f v with ⟨h1, e | ⟨⟩⟩
        · rw [hr] at f2; exact f2
        · rw [hr] at f1 f2; exact f2.trans (ih h1 f1)
    have := keep A h hf
    rw [r] at this
    exact hc (hxs.trans_le this)
  have hx' : (h'.setPlain F x f v).2 = .error e ∧ (h'.setPlain F x f v).1 = h' := by
    have h1 := (c54_writes_in_memory g1 F hxs' f v hv).1
    rw [same x (by simp), ← (c54_writes_in_memory hf F hxs f v hv).1, hx] at h1
    refine ⟨h1, ?_⟩
    cases hg : h'.getItem x f with
    | error e => rw [setPlain, hg]
    | ok q =>
      obtain ⟨c, o⟩ := q
      cases hn : newValue F c v with
      | error e => rw [setPlain, hg]; simp only [hn]
      | ok m =>
        obtain ⟨h2, e2, -⟩ := c144_assign_plain g1 F hg hn
        rw [e2] at h1
        cases h1
  refine ⟨h', ?_, g2, same⟩
  rw [forList_append, r]
  simp only
  rw [forList, show h'.setPlain F x f v = (h', .error e) from Prod.ext hx'.2 hx'.1]

end

/-- None of the layers of a group, or of an animation, is in another. -/
theorem children_apart {h : Dom} (hf : Forest h) {k : GKind} {g c : ℕ} (hh : HolderAt h k g c) {l : List ℕ}
    (hl : h.children k g = .ok l) : NoneInside h l := by
  have hnd : l.Nodup := List.nodup_reverse.1 ((children_sublist hf hh hl).nodup (findLayers_nodup hf g))
  have key : ∀ x ∈ l, ∀ y ∈ l, x ≠ y → ¬ Within h x y := by
    intro x hx y hy hxy hw
    have px := (child_par hf hh hl hx).1
    have py := (child_par hf hh hl hy).1
    rcases ReflTransGen.cases_head hw with e | ⟨d, hd, hdy⟩
    · exact hxy e
    · rw [par_unique hd px] at hdy
      exact hf.acyclic c (TransGen.tail' hdy py)
  exact hnd.imp_of_mem fun {x y} hx hy hxy => ⟨key x hx y hy hxy, key y hy x hx (Ne.symm hxy)⟩

section
variable {F : Fl} {f : Str} {v : PV} (hv : ∀ c r m, v ≠ .val c r m) {h : Dom} (hf : Forest h)
include hv hf

/-- C181, in part. `for x in group.children: x[f] = v`, for a group or an animation whose children's `f` all take `v`: each of the children has the
new value, nothing has changed in them outside parameters of that name, and elements that have nothing to do with them are as they were. -/
theorem c181_children_partial {k : GKind} {g c : ℕ} (hh : HolderAt h k g c) {l : List ℕ} (hl : h.children k g = .ok l)
    (ht : ∀ x ∈ l, ∃ c m, TakesParam F h x f v c m ∧ fromTag m = .ok c) :
    ∃ h', forChildren k g (fun x => setPlain F x f v) h = (h', .ok ()) ∧
      (∀ x ∈ l, ∀ c m, TakesParam F h x f v c m → ShowsParam h' x f c m) ∧
      (∀ x ∈ l, ∀ k : String, f = k.toList → SameBut (InsideParam k (h.node x)) (h.node x) (h'.node x)) ∧
      ∀ b, b < h.size → (∀ x ∈ l, ¬ Within h x b ∧ ¬ Within h b x) → h'.node b = h.node b := by
  obtain ⟨h', e, -, e2, e4, e3⟩ := c181_each hv l h hf (children_apart hf hh hl) ht
  exact ⟨h', (c171_assign F hf hh hl f v).trans e, e2, fun x hx k hk r hr => by
    subst hk
    rw [e4 x hx]
    exact setParam_other hr, e3⟩

/-- C181. If one of the children refuses, those before it have been assigned to, and it and those after it haven't. -/
theorem c181_children_stops {k : GKind} {g c : ℕ} (hh : HolderAt h k g c) {A B : List ℕ} {x : ℕ}
    (hl : h.children k g = .ok (A ++ x :: B)) (ht : ∀ y ∈ A, ∃ c m, TakesParam F h y f v c m ∧ fromTag m = .ok c) {e : Err}
    (hx : (h.setPlain F x f v).2 = .error e) :
    ∃ h', forChildren k g (fun x => setPlain F x f v) h = (h', .error e) ∧
      (∀ y ∈ A, ∀ c m, TakesParam F h y f v c m → ShowsParam h' y f c m) ∧ ∀ y ∈ x :: B, h'.node y = h.node y := by
  obtain ⟨h', r⟩ := c181_stops hv hf (children_apart hf hh hl)
    (fun y hy => (hf.made _ _ (child_par hf hh hl (List.mem_append_right A hy)).1).2) ht hx
  exact ⟨h', (c171_assign F hf hh hl f v).trans r.1, r.2⟩

/-- C181, in part. `for x in z.find_all(True): x[f] = v`, when none of the layers found is in another. -/
theorem c181_found_partial {z : ℕ} (hcl : ∀ x ∈ h.findLayers z, ∃ cl, layerOf (h.bare x) = .ok cl)
    (hflat : ∀ x ∈ h.findLayers z, ∀ y ∈ h.findLayers z, x ≠ y → ¬ Within h x y)
    (ht : ∀ x ∈ h.findLayers z, ∃ c m, TakesParam F h x f v c m ∧ fromTag m = .ok c) :
    ∃ h', forFound z (fun x => setPlain F x f v) h = (h', .ok ()) ∧
      (∀ x ∈ h.findLayers z, ∀ c m, TakesParam F h x f v c m → ShowsParam h' x f c m) ∧
      (∀ x ∈ h.findLayers z, ∀ k : String, f = k.toList → SameBut (InsideParam k (h.node x)) (h.node x) (h'.node x)) ∧
      ∀ b, b < h.size → (∀ x ∈ h.findLayers z, ¬ Within h x b ∧ ¬ Within h b x) → h'.node b = h.node b := by
  obtain ⟨h', e, -, e2, e4, e3⟩ := c181_each hv (h.findLayers z) h hf
    ((findLayers_nodup hf z).imp_of_mem fun {x y} hx hy hxy => ⟨hflat x hx y hy hxy, hflat y hy x hx (Ne.symm hxy)⟩) ht
  exact ⟨h', (c176_loop hcl _).trans e, e2, fun x hx k hk r hr => by
    subst hk
    rw [e4 x hx]
    exact setParam_other hr, e3⟩

end

/-- C181. Whatever plain Python value it is, what a class other than the vectors makes of it is of that class, so that of the layers'
values only vectors need looking at. -/
theorem c181_class {F : Fl} {h : Dom} {x : ℕ} {f : Str} {v : PV} {c : VCls} {m : Node} (ht : TakesParam F h x f v c m) (hc : c ≠ .vector) :
    fromTag m = .ok c := newValue_class hc ht.2

end Dom

open Dom

/-- C181, not what one would expect: a group that hasn't got the parameter, but has a layer in it that has, doesn't refuse. The loop over
the animation's children, which are the star 9 and the group 1, changes the circle 4 in the group, which isn't one of them. -/
theorem c181_reaches_inside : ∃ h', forChildren .animation 0 (fun x => setPlain double x "z_depth".toList (.float 3)) exDom = (h', .ok ()) ∧
    exDom.children .animation 0 = .ok [9, 1] ∧ h'.node 4 ≠ exDom.node 4 := by
  refine ⟨(forChildren .animation 0 (fun x => setPlain double x "z_depth".toList (.float 3)) exDom).1, Prod.ext rfl ?_, ?_, ?_⟩ <;>
    decide +kernel

/-- What a real makes of `3`. -/
theorem three_real : newValue double .real (.float 3) = .ok (exRealTag "3.0000000000") := by decide +kernel

theorem three_class : fromTag (exRealTag "3.0000000000") = .ok .real := by decide +kernel

/-- The animation's layers, the star and the group, as they are after the loop. -/
example : ∃ h', forChildren .animation 0 (fun x => setPlain double x "z_depth".toList (.float 3)) exDom = (h', .ok ()) ∧
    ShowsParam h' 9 "z_depth".toList .real (exRealTag "3.0000000000") ∧ ShowsParam h' 1 "z_depth".toList .real (exRealTag "3.0000000000") ∧
    h'.node 14 = exDom.node 14 := by
  have t9 : TakesParam double exDom 9 "z_depth".toList (.float 3) .real (exRealTag "3.0000000000") := ⟨⟨12, by decide +kernel⟩, three_real⟩
  have t1 : TakesParam double exDom 1 "z_depth".toList (.float 3) .real (exRealTag "3.0000000000") := ⟨⟨7, by decide +kernel⟩, three_real⟩
  obtain ⟨h', e, e1, -, e2⟩ := c181_children_partial (F := double) (v := .float 3) (by simp) exDom_forest (exHolders_ok _ (.inl rfl))
    (exLists_ok _ (.inl rfl)) (f := "z_depth".toList) (fun x hx => by
      have : x = 9 ∨ x = 1 := by simpa [exLists] using hx
      rcases this with rfl | rfl
      · exact ⟨_, _, t9, three_class⟩
      · exact ⟨_, _, t1, three_class⟩)
  refine ⟨h', e, e1 9 (by simp [exLists]) _ _ t9, e1 1 (by simp [exLists]) _ _ t1, e2 14 (by decide +kernel) fun x hx => ?_⟩
  have : x = 9 ∨ x = 1 := by simpa [exLists] using hx
  rcases this with rfl | rfl <;> exact ⟨exDom_outside (by decide +kernel), exDom_outside (by decide +kernel)⟩

/-- What is found in the group is the circle alone. -/
example : ∃ h', forFound 1 (fun x => setPlain double x "z_depth".toList (.float 3)) exDom = (h', .ok ()) ∧
    ShowsParam h' 4 "z_depth".toList .real (exRealTag "3.0000000000") ∧ h'.node 9 = exDom.node 9 := by
  have hfl : exDom.findLayers 1 = [4] := by decide +kernel
  have t4 : TakesParam double exDom 4 "z_depth".toList (.float 3) .real (exRealTag "3.0000000000") := ⟨⟨7, by decide +kernel⟩, three_real⟩
  obtain ⟨h', e, e1, -, e2⟩ := c181_found_partial (F := double) (v := .float 3) (by simp) exDom_forest (z := 1) (f := "z_depth".toList)
    (fun x hx => by
      obtain rfl : x = 4 := by simpa [hfl] using hx
      exact ⟨_, rfl⟩)
    (fun x hx y hy hxy => by simp only [hfl, List.mem_singleton] at hx hy; omega)
    (fun x hx => by
      obtain rfl : x = 4 := by simpa [hfl] using hx
      exact ⟨_, _, t4, three_class⟩)
  refine ⟨h', e, e1 4 (by simp [hfl]) _ _ t4, e2 9 (by decide +kernel) fun x hx => ?_⟩
  obtain rfl : x = 4 := by simpa [hfl] using hx
  exact ⟨exDom_outside (by decide +kernel), exDom_outside (by decide +kernel)⟩

/-- A circle, 1, without parameters, below a star, 2, with one. -/
def exLacking : Dom := (Dom.empty.alloc (.tag "canvas" [] [.tag "layer" [("type", .str "circle".toList)] [],
  .tag "layer" [("type", .str "star".toList)] [exParam "z_depth" (exRealTag "2.0")]])).1

/-- The star comes first, and has been assigned to when the circle raises. -/
example : ∃ h', forChildren .animation 0 (fun x => setPlain double x "z_depth".toList (.float 3)) exLacking = (h', .error .key) ∧
    ShowsParam h' 2 "z_depth".toList .real (exRealTag "3.0000000000") ∧ h'.node 1 = exLacking.node 1 := by
  have t2 : TakesParam double exLacking 2 "z_depth".toList (.float 3) .real (exRealTag "3.0000000000") := ⟨⟨5, by decide +kernel⟩, three_real⟩
  obtain ⟨h', e, e1, e2⟩ := c181_children_stops (F := double) (v := .float 3) (by simp) (alloc_made forest_empty _).forest
    (h := exLacking) (k := .animation) (g := 0) (c := 0) (f := "z_depth".toList) (A := [2]) (x := 1) (B := [])
    ⟨by decide +kernel, by decide +kernel, rfl, by decide +kernel⟩ (by decide +kernel) (fun x hx => by
      obtain rfl : x = 2 := by simpa using hx
      exact ⟨_, _, t2, three_class⟩) (e := .key) (by decide +kernel)
  exact ⟨h', e, e1 2 (by simp) _ _ t2, e2 1 (by simp)⟩

end Sang
