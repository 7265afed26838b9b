import Verif.Props.ParamLoops

/-!
# C181: loops that assign to a parameter of layers in one another

`for x in group.find_all(True): x[f] = v` comes to groups and to the layers in them.
-/

namespace Sang

open Spec Relation

namespace Dom

/-- What is in a new element says what is in what it was made from. -/
theorem made_nameless {h : Dom} (hf : Forest h) {r : ℕ} (hn : Nameless (h.node r)) {u : ℕ} (hu : Within h u r) (f : Str) :
    isParam f (h.bare u) = false := by
  have hsub : h.node u ∈ (h.node r).subtree := by
    rcases List.mem_cons.1 ((within_iff hf).1 hu) with rfl | hm
    · cases h.node u <;> simp [Node.subtree]
    · have := List.mem_map_of_mem (f := h.node) hm
      rw [desc_node hf] at this
      cases hr : h.node r with
      | text s => rw [hr] at this; simp [Node.kids, Node.nodesIn] at this
      | tag a b ks => rw [hr] at this; exact List.mem_cons_of_mem _ this
  have := hn.2 _ hsub
  rw [← (bare_shallow hf u).2.2] at this
  simp [isParam, this]

/-- `x[f]` is the one value in the parameter `p`. -/
def ValueAt (h : Dom) (x : ℕ) (f : Str) (p : ℕ) (c : VCls) (o : ℕ) : Prop :=
  h.find? (isParam f) x = some p ∧ ((h.kids p).filter fun z => (h.bare z).isTag) = [o] ∧ fromTag (h.node o) = .ok c

theorem ValueAt.item {h : Dom} {x : ℕ} {f : Str} {p : ℕ} {c : VCls} {o : ℕ} (a : ValueAt h x f p c o) : h.getItem x f = .ok (c, o) :=
  getItem_iff.2 ⟨p, a⟩

theorem ValueAt.par {h : Dom} (hf : Forest h) {x : ℕ} {f : Str} {p : ℕ} {c : VCls} {o : ℕ} (a : ValueAt h x f p c o) : Par h o p :=
  (hf.child p o).1 (filter_single a.2.1).1

/-- One assignment: what it does to what is read from the parameter, and from others. -/
theorem set_values {h : Dom} (hf : Forest h) {F : Fl} {a : ℕ} {f : Str} {v : PV} {p : ℕ} {c : VCls} {o : ℕ} {m : Node}
    (ha : ValueAt h a f p c o) (hm : newValue F c v = .ok m) (hc : fromTag m = .ok c) :
    (h.setPlain F a f v).2 = .ok () ∧
      (∃ o', ValueAt (h.setPlain F a f v).1 a f p c o' ∧ (h.setPlain F a f v).1.node o' = m) ∧
      (∀ x q c' ox, ValueAt h x f q c' ox → ¬ Within h q p → ¬ Within h p q →
        ValueAt (h.setPlain F a f v).1 x f q c' ox ∧ (h.setPlain F a f v).1.node ox = h.node ox) ∧
      ∀ b, b < h.size → ¬ Within h p b → (h.setPlain F a f v).1.node b = h.node b := by
  have hop := ha.par hf
  have hps := (hf.made p o hop).1
  have hos := (hf.made p o hop).2
  have mk := alloc_made hf m
  have hop' : Par (h.alloc m).1 o p := by rw [Par, mk.ext.parent o hos]; exact hop
  have hnew := mk.new
  obtain ⟨A, B, hk⟩ := List.append_of_mem ((mk.forest.child p o).2 hop')
  obtain ⟨m', mok⟩ := replaced mk.forest hop' (x := (h.alloc m).2) (by omega) mk.size (mk.fresh hf hps) hk
  have e : h.setPlain F a f v = (h.alloc m).1.replaceWith o (h.alloc m).2 := by
    rw [setPlain, ha.item]
    simp only [hm]
  obtain ⟨h', e', -, c3⟩ := c144_assign_plain hf F ha.item hm
  have hsame : ∀ b, b < h.size → ¬ (Within h o b ∧ b ≠ o) → (h.setPlain F a f v).1.node b = h.node b := by
    rw [e']; exact c3
  have hbare : ∀ z, z < h.size → (h.setPlain F a f v).1.bare z = h.bare z := fun z hz => by
    rw [e]; exact bare_congr (by rw [m'.lbl, mk.ext.lbl z hz])
  have hless : ∀ u, Within (h.alloc m).1 u (h.alloc m).2 → isParam f ((h.alloc m).1.bare u) = false := fun u hu =>
    made_nameless mk.forest (by rw [mk.node]; exact newValue_nameless hm) hu f
  have hin : ∀ b z, b < h.size → (Within (h.alloc m).1 z b ↔ Within h z b) := fun b z hb => mk.ext.inside hf mk.forest hb
  have hxs : ∀ x q, h.find? (isParam f) x = some q → x < h.size ∧ q < h.size := fun x q hq => by
    have ht := ((find_iff hf _ _ _).1 hq).1
    obtain ⟨d, -, hd⟩ := TransGen.tail'_iff.1 ht
    obtain ⟨d', hd', -⟩ := TransGen.head'_iff.1 ht
    exact ⟨(hf.made _ _ hd).1, (hf.made _ _ hd').2⟩
  have hfind : ∀ x q, h.find? (isParam f) x = some q → (q = p ∨ ¬ Within h q p) →
      (h.setPlain F a f v).1.find? (isParam f) x = some q := by
    intro x q hq hqp
    obtain ⟨h1, h2⟩ := hxs x q hq
    have hno : ∀ k, Par h k p → ¬ Within h q k := fun k hk hqk => by
      rcases hqp with rfl | hqp
      · exact hf.acyclic q (TransGen.tail' hqk hk)
      · exact hqp (hqk.tail hk)
    rw [e]
    refine m'.find mk.forest (mk.ext.find hf mk.forest h1 hq) (fun hw => hno o hop ((hin o q hos).1 hw)) (mk.fresh hf h2)
      (fun k hk hw => ?_) (.inr hless)
    have hk' : Par h k p := (mk.ext.par hf mk.forest hps).1 hk
    exact hno k hk' ((hin k q (hf.made p k hk').2).1 hw)
  refine ⟨by rw [e, mok], ⟨(h.alloc m).2, ⟨hfind a p ha.1 (.inl rfl), ?_, ?_⟩, ?_⟩, fun x q c' ox hx h1 h2 => ?_, fun b hb hpb => ?_⟩
  · have hb1 : ∀ z, ((h.alloc m).1.replaceWith o (h.alloc m).2).1.bare z = (h.alloc m).1.bare z := fun z => bare_congr (by rw [m'.lbl])
    have htag : ((h.alloc m).1.bare (h.alloc m).2).isTag = true := by
      rw [(bare_shallow mk.forest _).1, mk.node]
      exact (newValue_nameless hm).1
    have hold := ha.2.1
    rw [← mk.ext.kids p hps, hk] at hold
    have hbA : ∀ z ∈ A ++ o :: B, (h.alloc m).1.bare z = h.bare z := fun z hz =>
      bare_congr (mk.ext.lbl z (hf.made p z ((hf.child p z).1 (by rw [← mk.ext.kids p hps, hk]; exact hz))).2)
    have hlt : ∀ z ∈ A ++ o :: B, z ≠ (h.alloc m).2 := fun z hz hzr => by
      have := (hf.made p z ((hf.child p z).1 (by rw [← mk.ext.kids p hps, hk]; exact hz))).2
      omega
    have hot : (h.bare o).isTag = true := (filter_single ha.2.1).2.1
    rw [List.filter_append, List.filter_cons_of_pos (by exact hot)] at hold
    have hlen := congrArg List.length hold
    simp only [List.length_append, List.length_cons, List.length_nil] at hlen
    have hA := List.length_eq_zero_iff.1 (show (A.filter fun z => (h.bare z).isTag).length = 0 by omega)
    have hB := List.length_eq_zero_iff.1 (show (B.filter fun z => (h.bare z).isTag).length = 0 by omega)
    rw [e, m'.here, filter_ne_self fun hz => hlt _ (by simp [hz]) rfl, filter_ne_self fun hz => hlt _ (by simp [hz]) rfl]
    simp only [hb1]
    rw [List.filter_append, List.filter_cons_of_pos (by exact htag),
      List.filter_congr (q := fun z => (h.bare z).isTag) (fun z hz => by rw [hbA z (by simp [hz])]), hA,
      List.filter_congr (q := fun z => (h.bare z).isTag) (fun z hz => by rw [hbA z (by simp [hz])]), hB]
    rfl
  · rw [e, m'.node_new mk.forest (mk.fresh hf hps), mk.node]
    exact hc
  · rw [e, m'.node_new mk.forest (mk.fresh hf hps), mk.node]
  · have hxq := hx.par hf
    have hn : (h.setPlain F a f v).1.node ox = h.node ox := by
      refine hsame ox (hf.made q ox hxq).2 fun hw => ?_
      rcases ReflTransGen.cases_head hw.1 with e | ⟨d, hd, hdx⟩
      · exact hw.2 e.symm
      · rw [par_unique hd hop] at hdx
        exact h2 (hdx.tail hxq)
    have hqp : q ≠ p := fun e => h1 (e ▸ .refl)
    have hqs := (hf.made q ox hxq).1
    refine ⟨⟨hfind x q hx.1 (.inr h1), ?_, by rw [hn]; exact hx.2.2⟩, hn⟩
    have hkq : (h.setPlain F a f v).1.kids q = h.kids q := by
      rw [e, m'.there q hqp, mk.ext.kids q hqs]
      refine filter_ne_self fun hmem => ?_
      have := (hf.made q _ ((hf.child q _).1 hmem)).2
      omega
    rw [hkq, ← hx.2.1]
    exact List.filter_congr fun z hz => by rw [hbare z (hf.made q z ((hf.child q z).1 hz)).2]
  · refine hsame b hb fun hw => ?_
    rcases ReflTransGen.cases_head hw.1 with e | ⟨d, hd, hdx⟩
    · exact hw.2 e.symm
    · rw [par_unique hd hop] at hdx
      exact hpb hdx

/-- Assigning to each of some layers, whose parameters aren't in one another. -/
theorem own_each {F : Fl} {f : Str} {v : PV} (P : ℕ → ℕ) : ∀ (l : List ℕ) (h : Dom), Forest h →
    (l.Pairwise fun x y => ¬ Within h (P x) (P y) ∧ ¬ Within h (P y) (P x)) →
    (∀ x ∈ l, ∃ c o m, ValueAt h x f (P x) c o ∧ newValue F c v = .ok m ∧ fromTag m = .ok c) →
    ∃ h', forList (fun x => setPlain F x f v) l h = (h', .ok ()) ∧
      (∀ x ∈ l, ∀ c m, TakesParam F h x f v c m → ShowsParam h' x f c m) ∧
      (∀ x q c o, ValueAt h x f q c o → (∀ y ∈ l, ¬ Within h q (P y) ∧ ¬ Within h (P y) q) →
        ValueAt h' x f q c o ∧ h'.node o = h.node o) ∧
      ∀ b, b < h.size → (∀ x ∈ l, ¬ Within h (P x) b) → h'.node b = h.node b := by
  intro l
  induction l with
  | nil => intro h _ _ _; exact ⟨h, rfl, by simp, fun _ _ _ _ a _ => ⟨a, rfl⟩, fun _ _ _ => rfl⟩
  | cons x l ih =>
    intro h hf hp ht
    obtain ⟨px, pl⟩ := List.pairwise_cons.1 hp
    obtain ⟨c, o, m, hx, hm, hc⟩ := ht x (by simp)
    obtain ⟨s1, ⟨o', s2, s3⟩, s4, s5⟩ := set_values hf hx hm hc
    obtain ⟨f1, f2, f3, -⟩ := setPlain_frame hf F x f v
    have hPs : ∀ y ∈ x :: l, P y < h.size := fun y hy => by
      obtain ⟨c, o, m, h1, -⟩ := ht y hy
      exact (hf.made _ _ (h1.par hf)).1
    have back : ∀ y z, y < h.size → Within (h.setPlain F x f v).1 y z → Within h y z := fun y z hy hw => (within_back hf f3 hy hw).1
    have keep : ∀ y ∈ l, ∀ c o, ValueAt h y f (P y) c o → ValueAt (h.setPlain F x f v).1 y f (P y) c o := fun y hy c o hv =>
      (s4 y (P y) c o hv (px y hy).2 (px y hy).1).1
    obtain ⟨h', e, i1, i2, i3⟩ := ih (h.setPlain F x f v).1 f1
      (pl.imp_of_mem fun {y z} hy hz hyz =>
        ⟨fun hw => hyz.1 (back _ _ (hPs y (by simp [hy])) hw), fun hw => hyz.2 (back _ _ (hPs z (by simp [hz])) hw)⟩)
      (fun y hy => by
        obtain ⟨c, o, m, h1, h2⟩ := ht y (by simp [hy])
        exact ⟨c, o, m, keep y hy c o h1, h2⟩)
    refine ⟨h', ?_, ?_, ?_, ?_⟩
    · rw [forList, show h.setPlain F x f v = ((h.setPlain F x f v).1, .ok ()) from Prod.ext rfl s1]
      exact e
    · rintro y hy c1 m1 ⟨⟨o1, ho1⟩, hn1⟩
      rcases List.mem_cons.1 hy with rfl | hy
      · rw [hx.item] at ho1
        obtain ⟨rfl, -⟩ : c = c1 ∧ o = o1 := by simpa using ho1
        rw [hm] at hn1
        obtain rfl : m = m1 := by simpa using hn1
        obtain ⟨j1, j2⟩ := i2 y (P y) c o' s2 fun z hz =>
          ⟨fun hw => (px z hz).1 (back _ _ (hPs y (by simp)) hw), fun hw => (px z hz).2 (back _ _ (hPs z (by simp [hz])) hw)⟩
        exact ⟨o', j1.item, j2.trans s3⟩
      · obtain ⟨c2, o2, m2, h1, -⟩ := ht y (by simp [hy])
        rw [h1.item] at ho1
        obtain ⟨rfl, -⟩ : c2 = c1 ∧ o2 = o1 := by simpa using ho1
        exact i1 y hy c2 m1 ⟨⟨o2, (keep y hy c2 o2 h1).item⟩, hn1⟩
    · intro y q c1 o1 hy hq
      have hqs : q < h.size := (hf.made _ _ (hy.par hf)).1
      obtain ⟨j1, j2⟩ := s4 y q c1 o1 hy (hq x (by simp)).1 (hq x (by simp)).2
      obtain ⟨k1, k2⟩ := i2 y q c1 o1 j1 fun z hz => ⟨fun hw => (hq z (by simp [hz])).1 (back _ _ hqs hw),
        fun hw => (hq z (by simp [hz])).2 (back _ _ (hPs z (by simp [hz])) hw)⟩
      exact ⟨k1, k2.trans j2⟩
    · intro b hb hout
      rw [i3 b (hb.trans_le f2) fun z hz hw => hout z (by simp [hz]) (back _ _ (hPs z (by simp [hz])) hw)]
      exact s5 b hb (hout x (by simp))

/-- Assigning to each of some layers with parameters of their own. -/
theorem own_list {F : Fl} {f : Str} {v : PV} {h : Dom} (hf : Forest h) {l : List ℕ} (hnd : l.Nodup)
    (hown : ∀ x ∈ l, ∃ p, OwnFirst h x f p ∧ ∀ y ∈ l, ¬ Within h y p)
    (ht : ∀ x ∈ l, ∃ c m, TakesParam F h x f v c m ∧ fromTag m = .ok c) :
    ∃ h', forList (fun x => setPlain F x f v) l h = (h', .ok ()) ∧
      (∀ x ∈ l, ∀ c m, TakesParam F h x f v c m → ShowsParam h' x f c m) ∧
      ∀ b, b < h.size → (∀ x ∈ l, ∀ p, OwnFirst h x f p → ¬ Within h p b) → h'.node b = h.node b := by
  classical
  obtain ⟨P, hP⟩ : ∃ P : ℕ → ℕ, ∀ x ∈ l, OwnFirst h x f (P x) ∧ ∀ y ∈ l, ¬ Within h y (P x) := by
    refine ⟨fun x => if hx : x ∈ l then (hown x hx).choose else 0, fun x hx => ?_⟩
    simp only [dif_pos hx]
    exact (hown x hx).choose_spec
  have sep : ∀ x ∈ l, ∀ y ∈ l, x ≠ y → ¬ Within h (P x) (P y) := by
    intro x hx y hy hxy hw
    rcases ReflTransGen.cases_head hw with e | ⟨d, hd, hdy⟩
    · have h1 := (hP x hx).1.2
      rw [e, (hP y hy).1.2] at h1
      exact hxy (Option.some.inj h1).symm
    · rw [par_unique hd (hP x hx).1.2] at hdy
      exact (hP y hy).2 x hx hdy
  obtain ⟨h', e, e1, -, e3⟩ := own_each (F := F) (f := f) (v := v) P l h hf
    (hnd.imp_of_mem fun {x y} hx hy hxy => ⟨sep x hx y hy hxy, sep y hy x hx (Ne.symm hxy)⟩)
    (fun x hx => by
      obtain ⟨c, m, ⟨⟨o, ho⟩, hn⟩, hc⟩ := ht x hx
      obtain ⟨p, hp⟩ := getItem_iff.1 ho
      have : p = P x := Option.some.inj (hp.1.symm.trans (hP x hx).1.1)
      exact ⟨c, o, m, this ▸ hp, hn, hc⟩)
  exact ⟨h', e, e1, fun b hb hout => e3 b hb fun x hx => hout x hx _ (hP x hx).1⟩

/-- C181, in part. `for x in z.find_all(True): x[f] = v`, with groups among what is found, and layers in them, at whatever depth. If each
has a parameter `f` of its own, before those of the layers in it, and if there are no layers in those parameters, then each has the new
value, and nothing that none of the parameters is in has changed. -/
theorem c181_found_nested_partial {F : Fl} {f : Str} {v : PV} {h : Dom} (hf : Forest h) {z : ℕ}
    (hcl : ∀ x ∈ h.findLayers z, ∃ cl, layerOf (h.bare x) = .ok cl)
    (hown : ∀ x ∈ h.findLayers z, ∃ p, OwnFirst h x f p ∧ ∀ y ∈ h.findLayers z, ¬ Within h y p)
    (ht : ∀ x ∈ h.findLayers z, ∃ c m, TakesParam F h x f v c m ∧ fromTag m = .ok c) :
    ∃ h', forFound z (fun x => setPlain F x f v) h = (h', .ok ()) ∧
      (∀ x ∈ h.findLayers z, ∀ c m, TakesParam F h x f v c m → ShowsParam h' x f c m) ∧
      ∀ b, b < h.size → (∀ x ∈ h.findLayers z, ∀ p, OwnFirst h x f p → ¬ Within h p b) → h'.node b = h.node b := by
  obtain ⟨h', e, e1, e2⟩ := own_list hf (findLayers_nodup hf z) hown ht
  exact ⟨h', (c176_loop hcl _).trans e, e1, e2⟩

/-- C181, in part. `for x in group.children: x[f] = v`, if each of the children has a parameter `f` of its own, before those of the layers in
it: then nothing has changed that none of those parameters is in. The layers in the children, for instance, haven't. -/
theorem c181_children_own_partial {F : Fl} {f : Str} {v : PV} {h : Dom} (hf : Forest h) {k : GKind} {g c : ℕ} (hh : HolderAt h k g c)
    {l : List ℕ} (hl : h.children k g = .ok l) (hown : ∀ x ∈ l, ∃ p, OwnFirst h x f p)
    (ht : ∀ x ∈ l, ∃ c m, TakesParam F h x f v c m ∧ fromTag m = .ok c) :
    ∃ h', forChildren k g (fun x => setPlain F x f v) h = (h', .ok ()) ∧
      (∀ x ∈ l, ∀ c m, TakesParam F h x f v c m → ShowsParam h' x f c m) ∧
      ∀ b, b < h.size → (∀ x ∈ l, ∀ p, OwnFirst h x f p → ¬ Within h p b) → h'.node b = h.node b := by
  classical
  obtain ⟨P, hP⟩ : ∃ P : ℕ → ℕ, ∀ x ∈ l, OwnFirst h x f (P x) := by
    refine ⟨fun x => if hx : x ∈ l then (hown x hx).choose else 0, fun x hx => ?_⟩
    simp only [dif_pos hx]
    exact (hown x hx).choose_spec
  have up : ∀ x ∈ l, Within h (P x) x := fun x hx => .single (hP x hx).2
  obtain ⟨h', e, e1, -, e3⟩ := own_each (F := F) (f := f) (v := v) P l h hf
    ((children_apart hf hh hl).imp_of_mem fun {x y} hx hy hxy =>
      ⟨fun hw => (inside_total (up x hx) (hw.trans (up y hy))).elim hxy.1 hxy.2,
        fun hw => (inside_total (up y hy) (hw.trans (up x hx))).elim hxy.2 hxy.1⟩)
    (fun x hx => by
      obtain ⟨c, m, ⟨⟨o, ho⟩, hn⟩, hc⟩ := ht x hx
      obtain ⟨p, hp⟩ := getItem_iff.1 ho
      have : p = P x := Option.some.inj (hp.1.symm.trans (hP x hx).1)
      exact ⟨c, o, m, this ▸ hp, hn, hc⟩)
  exact ⟨h', (c171_assign F hf hh hl f v).trans e, e1, fun b hb hout => e3 b hb fun x hx => hout x hx _ (hP x hx)⟩

end Dom

open Dom

/-- A group, 1, with a parameter of its own, and a circle in it, 8, with one. -/
def exNestedDom : Dom := (Dom.empty.alloc (.tag "canvas" [] [.tag "layer" [("type", .str "group".toList)] [
  exParam "z_depth" (exRealTag "1.0"), .tag "param" [("name", .str "canvas".toList)] [.tag "canvas" []
    [.tag "layer" [("type", .str "circle".toList)] [exParam "z_depth" (exRealTag "2.0")]]]]])).1

theorem exNestedDom_forest : Forest exNestedDom := (alloc_made forest_empty _).forest

/-- The group and the circle both have the new value. -/
example : ∃ h', forFound 0 (fun x => setPlain double x "z_depth".toList (.float 3)) exNestedDom = (h', .ok ()) ∧
    ShowsParam h' 1 "z_depth".toList .real (exRealTag "3.0000000000") ∧
    ShowsParam h' 8 "z_depth".toList .real (exRealTag "3.0000000000") ∧ Within exNestedDom 8 1 := by
  have hfl : exNestedDom.findLayers 0 = [1, 8] := by decide +kernel
  have t1 : TakesParam double exNestedDom 1 "z_depth".toList (.float 3) .real (exRealTag "3.0000000000") :=
    ⟨⟨4, by decide +kernel⟩, three_real⟩
  have t8 : TakesParam double exNestedDom 8 "z_depth".toList (.float 3) .real (exRealTag "3.0000000000") :=
    ⟨⟨11, by decide +kernel⟩, three_real⟩
  have out : ∀ y ∈ [1, 8], ¬ Within exNestedDom y 2 ∧ ¬ Within exNestedDom y 9 := fun y hy =>
    ⟨fun hw => by
      have := (within_iff exNestedDom_forest).1 hw
      revert this
      have : y = 1 ∨ y = 8 := by simpa using hy
      rcases this with rfl | rfl <;> decide +kernel, fun hw => by
      have := (within_iff exNestedDom_forest).1 hw
      revert this
      have : y = 1 ∨ y = 8 := by simpa using hy
      rcases this with rfl | rfl <;> decide +kernel⟩
  obtain ⟨h', e, e1, -⟩ := c181_found_nested_partial (F := double) (v := .float 3) exNestedDom_forest (z := 0) (f := "z_depth".toList)
    (fun x hx => by
      have : x = 1 ∨ x = 8 := by simpa [hfl] using hx
      rcases this with rfl | rfl <;> exact ⟨_, rfl⟩)
    (fun x hx => by
      have : x = 1 ∨ x = 8 := by simpa [hfl] using hx
      rcases this with rfl | rfl
      · exact ⟨2, ⟨by decide +kernel, by decide +kernel⟩, fun y hy => (out y (hfl ▸ hy)).1⟩
      · exact ⟨9, ⟨by decide +kernel, by decide +kernel⟩, fun y hy => (out y (hfl ▸ hy)).2⟩)
    (fun x hx => by
      have : x = 1 ∨ x = 8 := by simpa [hfl] using hx
      rcases this with rfl | rfl
      · exact ⟨_, _, t1, three_class⟩
      · exact ⟨_, _, t8, three_class⟩)
  exact ⟨h', e, e1 1 (by simp [hfl]) _ _ t1, e1 8 (by simp [hfl]) _ _ t8, (within_iff exNestedDom_forest).2 (by decide +kernel)⟩

/-- A loop over the animation's children, of which there's only the group, leaves the circle in it alone. -/
example : ∃ h', forChildren .animation 0 (fun x => setPlain double x "z_depth".toList (.float 3)) exNestedDom = (h', .ok ()) ∧
    ShowsParam h' 1 "z_depth".toList .real (exRealTag "3.0000000000") ∧ h'.node 8 = exNestedDom.node 8 := by
  have t1 : TakesParam double exNestedDom 1 "z_depth".toList (.float 3) .real (exRealTag "3.0000000000") :=
    ⟨⟨4, by decide +kernel⟩, three_real⟩
  have own : OwnFirst exNestedDom 1 "z_depth".toList 2 := ⟨by decide +kernel, by decide +kernel⟩
  obtain ⟨h', e, e1, e2⟩ := c181_children_own_partial (F := double) (v := .float 3) exNestedDom_forest (k := .animation) (g := 0) (c := 0)
    (l := [1]) (f := "z_depth".toList) ⟨by decide +kernel, by decide +kernel, rfl, by decide +kernel⟩ (by decide +kernel)
    (fun x hx => by
      obtain rfl : x = 1 := by simpa using hx
      exact ⟨2, own⟩)
    (fun x hx => by
      obtain rfl : x = 1 := by simpa using hx
      exact ⟨_, _, t1, three_class⟩)
  refine ⟨h', e, e1 1 (by simp) _ _ t1, e2 8 (by decide +kernel) fun x hx p hp hw => ?_⟩
  obtain rfl : x = 1 := by simpa using hx
  obtain rfl : 2 = p := Option.some.inj (own.1.symm.trans hp.1)
  exact absurd ((within_iff exNestedDom_forest).1 hw) (by decide +kernel)

end Sang
