import Verif.Props.Dom
import Verif.Lemmas.Layer

/-!
# Documents in memory and documents as values

The functions on values that the rest of the model is about are what happens in memory.
-/

namespace Sang

open Relation Spec

namespace Dom

/-- Something that only looks at the element itself. -/
def Shallow (P : Node → Bool) : Prop :=
  ∀ n m : Node, n.isTag = m.isTag → n.name = m.name → n.attrs = m.attrs → P n = P m

theorem shallow_isParam (f : Str) : Shallow (isParam f) := by
  intro n m _ h2 h3
  rw [isParam, isParam, h2, h3]

theorem shallow_name (s : String) : Shallow fun n => n.name = s := by
  intro n m _ h2 _
  simp only [h2]

theorem Shallow.bare {P : Node → Bool} (hs : Shallow P) {h : Dom} (hf : Forest h) (x : ℕ) :
    P (h.bare x) = P (h.node x) :=
  hs _ _ (bare_shallow hf x).1 (bare_shallow hf x).2.1 (bare_shallow hf x).2.2

theorem subtree_node {h : Dom} (hf : Forest h) (x : ℕ) :
    (h.node x).subtree = (x :: h.desc x).map h.node := by
  rw [List.map_cons, desc_node hf]
  cases e : h.node x <;> rfl

theorem Clear.subtree {h : Dom} (hf : Forest h) {P : Node → Bool} (hs : Shallow P) {w : ℕ}
    (hc : Clear h P w) : ∀ n ∈ (h.node w).subtree, P n = false := by
  intro n hn
  rw [subtree_node hf, List.mem_map] at hn
  obtain ⟨z, hz, rfl⟩ := hn
  rw [← hs.bare hf]
  exact (clear_iff hf P w).1 hc z hz

theorem noneIn_of_clear {h : Dom} (hf : Forest h) {P : Node → Bool} (hs : Shallow P) {A : List ℕ}
    (hc : ∀ w ∈ A, Clear h P w) : NoneIn P (A.map h.node) := by
  induction A with
  | nil => intro y hy; simp [Node.nodesIn] at hy
  | cons w r ih =>
    intro y hy
    rw [List.map_cons, nodesIn_cons, List.mem_append] at hy
    rcases hy with hy | hy
    · exact (hc w (by simp)).subtree hf hs y hy
    · exact ih (fun z hz => hc z (by simp [hz])) y hy

/-- `find` on the value is `find` in memory. -/
theorem find_node {h : Dom} (hf : Forest h) {P : Node → Bool} (hs : Shallow P) (x : ℕ) :
    ((Node.nodesIn (h.node x).kids).filter P).head? = (h.find? P x).map h.node := by
  rw [← desc_node hf, List.head?_filter, List.find?_map, find?]
  congr 1
  congr 1
  funext y
  exact (hs.bare hf y).symm

theorem findParam_node {h : Dom} (hf : Forest h) (f : Str) (x : ℕ) :
    findParam f (h.node x) = (h.find? (isParam f) x).map h.node := by
  rw [findParam, Node.descTags, filter_isTag (tagOnly_isParam f), find_node hf (shallow_isParam f)]

theorem isCanvas_eq : (fun n : Node => n.isTag && decide (n.name = "canvas")) =
    fun n : Node => decide (n.name = "canvas") := by
  funext n
  cases n <;> simp [Node.isTag, Node.name]

theorem findCanvas_node {h : Dom} (hf : Forest h) (x : ℕ) :
    (h.node x).find "canvas" = (h.find? (fun n => n.isTag && n.name = "canvas") x).map h.node := by
  have ht : TagOnly (fun n => decide (n.name = "canvas")) := by intro s; simp [Node.name]
  rw [isCanvas_eq, Node.find, Node.findAll, Node.descTags, filter_isTag ht,
    find_node hf (shallow_name "canvas")]

theorem canvas_node {h : Dom} (hf : Forest h) (k : GKind) (g : ℕ) :
    canvasTag k (h.node g) = (h.canvas k g).map (Option.map h.node) := by
  cases k with
  | animation => rfl
  | group =>
    rw [canvasTag, Dom.canvas]
    simp only [findParam_node hf]
    cases h.find? (isParam "canvas".toList) g with
    | none => rfl
    | some p => simp only [Option.map_some, findCanvas_node hf]; rfl

theorem updKids_in (p : Node → Bool) (g : Node → Node) (pre post : List Node) {x y : Node}
    (h : NoneIn p pre) (hx : updNode p g x = some y) :
    updKids p g (pre ++ x :: post) = some (pre ++ y :: post) := by
  induction pre with
  | nil => simp [updKids, hx]
  | cons w pre ih =>
    have h1 : ∀ z ∈ w.subtree, p z = false := fun z hz => h z (by simp [nodesIn_cons, hz])
    have h2 : NoneIn p pre := fun z hz => h z (by simp [nodesIn_cons, hz])
    simp [updKids, updNode_none p g w h1, ih h2]

/-- Changing in memory what is found is changing in the value what is found. -/
theorem upd_node {h h' : Dom} (hf : Forest h) (hf' : Forest h') {P : Node → Bool} {G : Node → Node}
    {q : ℕ} (hs : Shallow P) (ht : TagOnly P) (hG : h'.node q = G (h.node q)) (y : ℕ)
    (hq : h.find? P y = some q)
    (same : ∀ z, Within h z y → ¬ Within h z q → h'.kids z = h.kids z ∧ h'.lbl z = h.lbl z) :
    h'.node y = updFirst P G (h.node y) := by
  have main : ∀ y, h.find? P y = some q →
      (∀ z, Within h z y → ¬ Within h z q → h'.kids z = h.kids z ∧ h'.lbl z = h.lbl z) →
      updKids P G ((h.kids y).map h.node) = some ((h.kids y).map h'.node) ∧
        ∃ n a, h.lbl y = .tag n a ∧ h'.node y = .tag n a ((h.kids y).map h'.node) := by
    intro y
    induction y using forest_induct hf with
    | step y ih =>
      intro hq same
      have hqy := ((find_iff hf _ _ _).1 hq).1
      have hyq : ¬ Within h y q := fun hi => hf.acyclic q (hqy.trans_left hi)
      have hyt : ∃ n a, h.lbl y = .tag n a := by
        cases e : h.lbl y with
        | tag n a => exact ⟨n, a, rfl⟩
        | text s =>
          obtain ⟨d, _, hd⟩ := TransGen.tail'_iff.1 hqy
          exact absurd e (tag_of_kid hf hd s)
      obtain ⟨n, a, hl⟩ := hyt
      refine ⟨?_, n, a, hl, ?_⟩
      · rw [find?, desc_eq hf] at hq
        obtain ⟨A, k, B, hAB, hA, hk⟩ := (find_kids hf P q (h.kids y)).1 hq
        have hky : Par h k y := (hf.child y k).1 (by rw [hAB]; simp)
        have hqk : Within h q k := by
          rcases hk with ⟨rfl, _⟩ | ⟨_, hk⟩
          · exact .refl
          · exact ((find_iff hf _ _ _).1 hk).1.to_reflTransGen
        have other : ∀ w ∈ A ++ B, h'.node w = h.node w := by
          intro w hw
          have hwy : Par h w y := (hf.child y w).1 (by rw [hAB]; simp at hw ⊢; tauto)
          have hwk : k ≠ w := by
            rintro rfl
            have := hf.nodup y
            rw [hAB, List.nodup_middle] at this
            exact (List.nodup_cons.1 this).1 hw
          refine node_congr hf hf' w fun z hz => same z (hz.tail hwy) fun hzq => ?_
          exact inside_siblings hf hky hwy hwk (hzq.trans hqk) hz
        have eA : A.map h'.node = A.map h.node :=
          List.map_congr_left fun w hw => other w (by simp [hw])
        have eB : B.map h'.node = B.map h.node :=
          List.map_congr_left fun w hw => other w (by simp [hw])
        rw [hAB, List.map_append, List.map_append, List.map_cons, List.map_cons, eA, eB]
        apply updKids_in _ _ _ _ (noneIn_of_clear hf hs hA)
        rcases hk with ⟨rfl, hk⟩ | ⟨hk, hkq⟩
        · rw [hs.bare hf] at hk
          cases e : h.node k with
          | text s => rw [e, ht s] at hk; cases hk
          | tag n a ks => rw [hG, e]; rw [e] at hk; rw [updNode, if_pos hk]
        · obtain ⟨i1, n, a, i2, i3⟩ := ih k (by rw [hAB]; simp) hkq fun z hz => same z (hz.tail hky)
          rw [hs.bare hf, node_tag hf i2] at hk
          rw [node_tag hf i2, updNode, if_neg (by simp [hk]), i1, i3]
          rfl
      · have hy := same y .refl hyq
        rw [node_tag hf' (hy.2.trans hl), hy.1]
  obtain ⟨i1, n, a, i2, i3⟩ := main y hq same
  rw [i3, node_tag hf i2, updFirst, i1]
  rfl

/-- Changing in memory what is in a canvas is changing in the value what is in the canvas. -/
theorem canvas_upd {h h' : Dom} (hf : Forest h) (hf' : Forest h') {k : GKind} {g c : ℕ}
    (hc : h.canvas k g = .ok (some c)) (ht : ∀ s, h.lbl c ≠ .text s) {G : List Node → List Node}
    (hG : (h'.kids c).map h'.node = G ((h.kids c).map h.node))
    (same : ∀ z, Within h z g → z ≠ c → ¬ TransGen (Par h) z c → h'.kids z = h.kids z)
    (hl : ∀ z, Within h z g → h'.lbl z = h.lbl z) :
    h'.node g = updCanvas k G (h.node g) := by
  have hcg := canvas_inside hf hc
  have hcn : h'.node c = (h.node c).setKids (G (h.node c).kids) := by
    cases e : h.lbl c with
    | text s => exact absurd e (ht s)
    | tag n a =>
      rw [node_tag hf e, node_tag hf' ((hl c hcg).trans e), hG]
      rfl
  have same' : ∀ z, Within h z g → ¬ Within h z c → h'.kids z = h.kids z ∧ h'.lbl z = h.lbl z :=
    fun z hz hn => ⟨same z hz (fun e => hn (e ▸ .refl)) fun ht => hn ht.to_reflTransGen, hl z hz⟩
  cases k with
  | animation =>
    simp only [Dom.canvas, Except.ok.injEq, Option.some.injEq] at hc
    subst hc
    exact hcn
  | group =>
    simp only [Dom.canvas] at hc
    split at hc
    · simp at hc
    · next p hp =>
      simp only [Except.ok.injEq] at hc
      rw [isCanvas_eq] at hc
      have hpg := ((find_iff hf _ _ _).1 hp).1.to_reflTransGen
      have hcp := ((find_iff hf _ _ _).1 hc).1.to_reflTransGen
      have h1 : h'.node p = updFirst (fun x => x.name = "canvas") (fun c => c.setKids (G c.kids)) (h.node p) :=
        upd_node hf hf' (shallow_name "canvas") (by intro s; simp [Node.name])
          (G := fun c => c.setKids (G c.kids)) hcn p hc fun z hz => same' z (hz.trans hpg)
      exact upd_node hf hf' (shallow_isParam _) (tagOnly_isParam _)
        (G := updFirst (fun x => x.name = "canvas") fun c => c.setKids (G c.kids)) h1 g hp
        fun z hz hn => same' z hz fun hi => hn (hi.trans hcp)

/-- When something that was nowhere is moved somewhere, everything keeps its looks but what it is put
into. -/
theorem Moved.node_other {h h' : Dom} {x p : ℕ} {l : List ℕ} (m : Moved h x p l h') (hf : Forest h)
    (hr : h.parent x = none) {w : ℕ} (hw : ¬ Within h p w) : h'.node w = h.node w := by
  refine node_congr hf m.forest w fun z hz => ⟨?_, by rw [m.lbl]⟩
  rw [m.there z fun e => hw (e ▸ hz)]
  apply filter_ne_self
  intro hm
  have := (hf.child z x).1 hm
  rw [Par, hr] at this
  cases this

end Dom

end Sang
