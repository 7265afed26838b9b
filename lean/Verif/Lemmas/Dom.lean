import Verif.Spec.Dom
import Verif.Lemmas.Layer
import Mathlib.Data.Finset.Card
import Mathlib.Data.List.InsertIdx
import Mathlib.Data.List.Nodup

/-!
# Lemmas about objects in memory
-/

namespace Sang

open Relation Spec

namespace Dom

theorem forest_empty : Forest empty where
  child p c := by simp [empty, Par]
  nodup p := by simp [empty]
  acyclic x h := by
    rcases TransGen.head'_iff.1 h with ⟨y, hy, _⟩
    simp [empty, Par] at hy
  made p c h := by simp [empty, Par] at h
  text p s _ := rfl

/-! ## Ranks: no tree is deeper than the number of objects -/

open Classical in
/-- How many objects are inside `x`. -/
noncomputable def rank (h : Dom) (x : ℕ) : ℕ :=
  ((Finset.range h.size).filter fun z => TransGen (Par h) z x).card

theorem rank_le (h : Dom) (x : ℕ) : h.rank x ≤ h.size := by
  classical
  exact (Finset.card_filter_le _ _).trans (by simp)

theorem rank_lt {h : Dom} (hf : Forest h) {c p : ℕ} (hc : Par h c p) : h.rank c < h.rank p := by
  classical
  apply Finset.card_lt_card
  refine ⟨fun z hz => ?_, fun hs => ?_⟩
  · rw [Finset.mem_filter] at hz ⊢
    exact ⟨hz.1, hz.2.tail hc⟩
  · have : c ∈ (Finset.range h.size).filter fun z => TransGen (Par h) z p := by
      rw [Finset.mem_filter, Finset.mem_range]
      exact ⟨(hf.made p c hc).2, TransGen.single hc⟩
    have := hs this
    rw [Finset.mem_filter] at this
    exact hf.acyclic c this.2

theorem forest_induct {h : Dom} (hf : Forest h) {P : ℕ → Prop}
    (step : ∀ x, (∀ c ∈ h.kids x, P c) → P x) (x : ℕ) : P x := by
  have : ∀ n x, h.rank x ≤ n → P x := by
    intro n
    induction n with
    | zero =>
      intro x hx
      exact step x fun c hc => absurd (rank_lt hf ((hf.child x c).1 hc)) (by omega)
    | succ n ih =>
      intro x hx
      exact step x fun c hc => ih c (by have := rank_lt hf ((hf.child x c).1 hc); omega)
  exact this _ x le_rfl

theorem descTo_stable {h : Dom} (hf : Forest h) : ∀ (n m x : ℕ), h.rank x ≤ n → h.rank x ≤ m →
    h.descTo n x = h.descTo m x := by
  have hk : ∀ x, h.rank x = 0 → h.kids x = [] := by
    intro x hx
    apply List.eq_nil_iff_forall_not_mem.2
    intro c hc
    have := rank_lt hf ((hf.child x c).1 hc)
    omega
  intro n
  induction n with
  | zero =>
    intro m x hx _
    cases m with
    | zero => rfl
    | succ m => simp [descTo, hk x (by omega)]
  | succ n ih =>
    intro m x hx hm
    cases m with
    | zero => simp [descTo, hk x (by omega)]
    | succ m =>
      simp only [descTo]
      have : ∀ l : List ℕ, (∀ c ∈ l, h.rank c < h.rank x) →
          (l.flatMap fun c => c :: h.descTo n c) = l.flatMap fun c => c :: h.descTo m c := by
        intro l hl
        induction l with
        | nil => rfl
        | cons c r ihl =>
          have hc := hl c (by simp)
          rw [List.flatMap_cons, List.flatMap_cons, ihl fun d hd => hl d (by simp [hd]),
            ih m c (by omega) (by omega)]
      exact this _ fun c hc => rank_lt hf ((hf.child x c).1 hc)

theorem desc_eq {h : Dom} (hf : Forest h) (x : ℕ) :
    h.desc x = (h.kids x).flatMap fun c => c :: h.desc c := by
  have : h.desc x = h.descTo (h.size + 1) x :=
    descTo_stable hf _ _ x (rank_le h x) (by have := rank_le h x; omega)
  rw [this]; rfl

theorem nodeTo_stable {h : Dom} (hf : Forest h) : ∀ (n m x : ℕ), h.rank x < n → h.rank x < m →
    h.nodeTo n x = h.nodeTo m x := by
  intro n
  induction n with
  | zero => intro m x hx; omega
  | succ n ih =>
    intro m x hx hm
    cases m with
    | zero => omega
    | succ m =>
      simp only [nodeTo]
      cases h.lbl x with
      | text s => rfl
      | tag nm a =>
        simp only [Node.tag.injEq, true_and]
        apply List.map_congr_left
        intro c hc
        have := rank_lt hf ((hf.child x c).1 hc)
        exact ih m c (by omega) (by omega)

theorem node_text {h : Dom} {x : ℕ} {s : Str} (e : h.lbl x = .text s) : h.node x = .text s := by
  simp [node, nodeTo, e]

theorem node_tag {h : Dom} (hf : Forest h) {x : ℕ} {n : String} {a : Attrs} (e : h.lbl x = .tag n a) :
    h.node x = .tag n a ((h.kids x).map h.node) := by
  have : h.node x = h.nodeTo (h.size + 2) x :=
    nodeTo_stable hf _ _ x (by have := rank_le h x; omega) (by have := rank_le h x; omega)
  rw [this, nodeTo, e]
  rfl

theorem node_kids {h : Dom} (hf : Forest h) (x : ℕ) : (h.node x).kids = (h.kids x).map h.node := by
  cases e : h.lbl x with
  | text s => rw [node_text e, hf.text x s e]; rfl
  | tag n a => rw [node_tag hf e]; rfl

/-- What can be seen of an object without looking into it. -/
theorem bare_shallow {h : Dom} (hf : Forest h) (x : ℕ) :
    (h.bare x).isTag = (h.node x).isTag ∧ (h.bare x).name = (h.node x).name ∧
    (h.bare x).attrs = (h.node x).attrs := by
  cases e : h.lbl x with
  | text s => rw [node_text e]; simp [bare, e]
  | tag n a => rw [node_tag hf e]; simp [bare, e, Node.isTag, Node.name, Node.attrs]

theorem mem_desc {h : Dom} (hf : Forest h) (x : ℕ) : ∀ z, z ∈ h.desc x ↔ TransGen (Par h) z x := by
  induction x using forest_induct hf with
  | step x ih =>
    intro z
    rw [desc_eq hf, List.mem_flatMap]
    constructor
    · rintro ⟨c, hc, hz⟩
      rcases List.mem_cons.1 hz with rfl | hz
      · exact .single ((hf.child x z).1 hc)
      · exact ((ih c hc z).1 hz).tail ((hf.child x c).1 hc)
    · intro hz
      rcases TransGen.tail'_iff.1 hz with ⟨c, hzc, hcx⟩
      refine ⟨c, (hf.child x c).2 hcx, ?_⟩
      rcases reflTransGen_iff_eq_or_transGen.1 hzc with e | ht
      · rw [e]; simp
      · exact List.mem_cons_of_mem _ ((ih c ((hf.child x c).2 hcx) z).2 ht)

theorem desc_node {h : Dom} (hf : Forest h) (x : ℕ) :
    (h.desc x).map h.node = Node.nodesIn (h.node x).kids := by
  induction x using forest_induct hf with
  | step x ih =>
    rw [node_kids hf, desc_eq hf]
    revert ih
    generalize h.kids x = l
    intro ih
    induction l with
    | nil => rfl
    | cons c r ihl =>
      rw [List.flatMap_cons, List.map_append, ihl fun d hd => ih d (by simp [hd]), List.map_cons,
        List.map_cons, nodesIn_cons]
      congr 1
      rw [ih c (by simp)]
      cases e : h.lbl c with
      | text s => rw [node_text e]; rfl
      | tag n a => rw [node_tag hf e, subtree_tag]; rfl

/-! ## One parent only -/

theorem par_unique {h : Dom} {c p q : ℕ} (hp : Par h c p) (hq : Par h c q) : p = q := by
  rw [Par, hp] at hq; exact Option.some.inj hq

/-- Two things around the same thing: one is inside the other. -/
theorem inside_total {h : Dom} {x y z : ℕ} (hy : Within h x y) (hz : Within h x z) :
    Within h y z ∨ Within h z y := by
  induction hy with
  | refl => exact .inl hz
  | @tail b c hb hbc ih =>
    rcases ih with hi | hi
    · rcases ReflTransGen.cases_head hi with rfl | ⟨d, hd, hdz⟩
      · exact .inr (.single hbc)
      · rw [par_unique hbc hd]; exact .inl hdz
    · exact .inr (hi.tail hbc)

/-- Different things in the same parent have nothing in common. -/
theorem inside_siblings {h : Dom} (hf : Forest h) {x a b p : ℕ} (ha : Par h a p) (hb : Par h b p)
    (hne : a ≠ b) (hxa : Within h x a) : ¬ Within h x b := by
  intro hxb
  have key : ∀ a b, Par h a p → Par h b p → a ≠ b → ¬ Within h a b := by
    intro a b ha hb hne hab
    rcases ReflTransGen.cases_head hab with e | ⟨d, hd, hdb⟩
    · exact hne e
    · rw [← par_unique ha hd] at hdb
      exact hf.acyclic p (TransGen.tail' hdb hb)
  rcases inside_total hxa hxb with hi | hi
  · exact key a b ha hb hne hi
  · exact key b a hb ha hne.symm hi

/-! ## Taking out and putting in -/

theorem extract_par {h : Dom} (x c p : ℕ) : Par (h.extract x) c p ↔ Par h c p ∧ c ≠ x := by
  unfold extract Par
  cases e : h.parent x with
  | none =>
    simp only
    constructor
    · intro hc; exact ⟨hc, fun hx => by rw [hx, e] at hc; simp at hc⟩
    · exact fun hc => hc.1
  | some q =>
    simp only [Function.update_apply]
    split <;> simp_all

theorem extract_kids {h : Dom} (hf : Forest h) (x p : ℕ) :
    (h.extract x).kids p = (h.kids p).filter (· ≠ x) := by
  unfold extract
  cases e : h.parent x with
  | none =>
    symm
    apply List.filter_eq_self.2
    intro c hc
    have : c ≠ x := by
      rintro rfl
      have := (hf.child p c).1 hc
      rw [Par, e] at this; simp at this
    simpa using this
  | some q =>
    simp only [Function.update_apply]
    split
    · next hpq => subst hpq; rw [(hf.nodup p).erase_eq_filter]; congr 1; funext c; rw [Bool.eq_iff_iff]; simp
    · next hpq =>
      symm
      apply List.filter_eq_self.2
      intro c hc
      have : c ≠ x := by
        rintro rfl
        have := (hf.child p c).1 hc
        rw [Par, e] at this
        exact hpq (Option.some.inj this).symm
      simpa using this

theorem extract_lbl (h : Dom) (x : ℕ) : (h.extract x).lbl = h.lbl := by
  unfold extract; cases h.parent x <;> rfl

theorem extract_size (h : Dom) (x : ℕ) : (h.extract x).size = h.size := by
  unfold extract; cases h.parent x <;> rfl

theorem extract_parent (h : Dom) (x y : ℕ) :
    (h.extract x).parent y = if y = x then none else h.parent y := by
  unfold extract
  cases e : h.parent x with
  | none => split <;> simp_all
  | some q => simp only [Function.update_apply]

theorem extract_forest {h : Dom} (hf : Forest h) (x : ℕ) : Forest (h.extract x) where
  child p c := by
    rw [extract_kids hf, List.mem_filter, extract_par, hf.child p c]
    simp
  nodup p := by rw [extract_kids hf]; exact (hf.nodup p).filter _
  acyclic y hy := hf.acyclic y (TransGen.mono (fun a b hab => ((extract_par x a b).1 hab).1) _ _ hy)
  made p c hc := by rw [extract_size]; exact hf.made p c ((extract_par x c p).1 hc).1
  text p s hp := by rw [extract_lbl] at hp; rw [extract_kids hf, hf.text p s hp]; rfl

/-- With one more edge, what is above what. -/
theorem trans_add {h h' : Dom} {x p : ℕ} (hpar : ∀ a b, Par h' a b ↔ Par h a b ∨ (a = x ∧ b = p))
    (hin : ¬ Within h p x) {a b : ℕ} (hab : TransGen (Par h') a b) :
    TransGen (Par h) a b ∨ (Within h a x ∧ Within h p b) := by
  induction hab with
  | single hb =>
    rcases (hpar _ _).1 hb with hb | ⟨rfl, rfl⟩
    · exact .inl (.single hb)
    · exact .inr ⟨.refl, .refl⟩
  | @tail b c _ hbc ih =>
    rcases (hpar _ _).1 hbc with hbc | ⟨rfl, rfl⟩
    · rcases ih with ih | ⟨i1, i2⟩
      · exact .inl (ih.tail hbc)
      · exact .inr ⟨i1, i2.tail hbc⟩
    · rcases ih with ih | ⟨_, i2⟩
      · exact .inr ⟨ih.to_reflTransGen, .refl⟩
      · exact absurd i2 hin

theorem insert_self (h : Dom) (p pos : ℕ) : h.insert p pos p = (h, .error .value) := by
  simp [insert]

theorem insert_ok {h : Dom} {p pos x : ℕ} (hx : x ≠ p) : (h.insert p pos x).2 = .ok () := by
  simp [insert, hx]

theorem insert_lbl (h : Dom) (p pos x : ℕ) : (h.insert p pos x).1.lbl = h.lbl := by
  unfold insert; split
  · rfl
  · simp [extract_lbl]

theorem insert_size (h : Dom) (p pos x : ℕ) : (h.insert p pos x).1.size = h.size := by
  unfold insert; split
  · rfl
  · simp [extract_size]

theorem insert_parent {h : Dom} {p pos x : ℕ} (hx : x ≠ p) (y : ℕ) :
    (h.insert p pos x).1.parent y = if y = x then some p else h.parent y := by
  simp only [insert, if_neg hx, Function.update_apply, extract_parent]
  split <;> rfl

theorem insert_par {h : Dom} {p pos x : ℕ} (hx : x ≠ p) (a b : ℕ) :
    Par (h.insert p pos x).1 a b ↔ Par (h.extract x) a b ∨ (a = x ∧ b = p) := by
  rw [extract_par, Par, Par, insert_parent hx]
  split
  · next e => subst e; simp [eq_comm]
  · next e => simp [e]

theorem insert_kids_ne {h : Dom} (hf : Forest h) {p pos x q : ℕ} (hx : x ≠ p) (hq : q ≠ p) :
    (h.insert p pos x).1.kids q = (h.kids q).filter (· ≠ x) := by
  simp only [insert, if_neg hx, Function.update_apply, if_neg hq, extract_kids hf]

/-- Where `x` comes to stand. -/
theorem insert_kids_eq {h : Dom} (hf : Forest h) {p pos x : ℕ} (hx : x ≠ p) :
    ∃ pos' ≤ ((h.kids p).filter (· ≠ x)).length,
      (h.insert p pos x).1.kids p = ((h.kids p).filter (· ≠ x)).insertIdx pos' x ∧
      (h.parent x ≠ some p → pos' = min pos (h.kids p).length) := by
  simp only [insert, if_neg hx, Function.update_self, extract_kids hf]
  refine ⟨_, ?_, rfl, fun hp => by simp [hp]⟩
  rw [show (h.kids p).filter (· ≠ x) = (h.kids p).erase x from
    by rw [(hf.nodup p).erase_eq_filter]; congr 1; funext c; rw [Bool.eq_iff_iff]; simp]
  split
  · next hc =>
    have : x ∈ h.kids p := (hf.child p x).2 hc.1
    rw [List.length_erase_of_mem this]
    omega
  · next hc =>
    by_cases hm : x ∈ h.kids p
    · rw [List.length_erase_of_mem hm]
      have h1 : h.parent x = some p := (hf.child p x).1 hm
      have h2 : (h.kids p).idxOf x < (h.kids p).length := List.idxOf_lt_length_of_mem hm
      have h3 : ¬ (h.kids p).idxOf x < min pos (h.kids p).length := fun hh => hc ⟨h1, hh⟩
      omega
    · rw [List.erase_of_not_mem hm]; omega

theorem insert_forest {h : Dom} (hf : Forest h) {p pos x : ℕ} (hp : p < h.size) (hxs : x < h.size)
    (hl : ∀ s, h.lbl p ≠ .text s) (hin : ¬ Within h p x) : Forest (h.insert p pos x).1 := by
  have hx : x ≠ p := fun e => hin (e ▸ .refl)
  have he := extract_forest hf x
  have hin' : ¬ Within (h.extract x) p x := fun hi =>
    hin (ReflTransGen.mono (fun a b hab => ((extract_par x a b).1 hab).1) _ _ hi)
  obtain ⟨pos', hpos, hk, _⟩ := insert_kids_eq hf (pos := pos) hx
  refine ⟨fun q c => ?_, fun q => ?_, fun y hy => ?_, fun q c hc => ?_, fun q s hq => ?_⟩
  · rw [insert_par hx, extract_par, ← hf.child]
    by_cases hq : q = p
    · subst hq
      rw [hk, List.mem_insertIdx hpos, List.mem_filter]
      by_cases hc : c = x <;> simp [hc]
    · rw [insert_kids_ne hf hx hq, List.mem_filter]
      simp [hq]
  · by_cases hq : q = p
    · subst hq
      rw [hk, (List.perm_insertIdx x _ hpos).nodup_iff, List.nodup_cons]
      exact ⟨by simp, (hf.nodup q).filter _⟩
    · rw [insert_kids_ne hf hx hq]; exact (hf.nodup q).filter _
  · rcases trans_add (insert_par hx) hin' hy with ht | ⟨h1, h2⟩
    · exact he.acyclic y ht
    · exact hin' (h2.trans h1)
  · rw [insert_size]
    rcases (insert_par hx c q).1 hc with hc | ⟨rfl, rfl⟩
    · exact hf.made q c ((extract_par x c q).1 hc).1
    · exact ⟨hp, hxs⟩
  · rw [insert_lbl] at hq
    by_cases hqp : q = p
    · exact absurd (hqp ▸ hq) (hl s)
    · rw [insert_kids_ne hf hx hqp, hf.text q s hq]; rfl

/-! ## Seeing the same -/

/-- What an element looks like depends only on what is inside it. -/
theorem node_congr {h h' : Dom} (hf : Forest h) (hf' : Forest h') (y : ℕ)
    (hs : ∀ z, Within h z y → h'.kids z = h.kids z ∧ h'.lbl z = h.lbl z) : h'.node y = h.node y := by
  induction y using forest_induct hf with
  | step y ih =>
    have hy := hs y .refl
    cases e : h.lbl y with
    | text s => rw [node_text e, node_text (hy.2.trans e)]
    | tag n a =>
      rw [node_tag hf e, node_tag hf' (hy.2.trans e), hy.1]
      congr 1
      apply List.map_congr_left
      intro c hc
      exact ih c hc fun z hz => hs z (hz.tail ((hf.child y c).1 hc))

theorem bare_congr {h h' : Dom} {y : ℕ} (e : h'.lbl y = h.lbl y) : h'.bare y = h.bare y := by
  simp [bare, e]

/-! ## New objects -/

/-- Objects have been made, and nothing has happened to those that were there. -/
structure Ext (h h' : Dom) : Prop where
  size : h.size ≤ h'.size
  lbl : ∀ y < h.size, h'.lbl y = h.lbl y
  kids : ∀ y < h.size, h'.kids y = h.kids y
  parent : ∀ y < h.size, h'.parent y = h.parent y

theorem Ext.refl (h : Dom) : Ext h h := ⟨le_rfl, fun _ _ => rfl, fun _ _ => rfl, fun _ _ => rfl⟩

theorem Ext.trans {a b c : Dom} (h : Ext a b) (h' : Ext b c) : Ext a c :=
  ⟨h.size.trans h'.size, fun y hy => (h'.lbl y (hy.trans_le h.size)).trans (h.lbl y hy),
   fun y hy => (h'.kids y (hy.trans_le h.size)).trans (h.kids y hy),
   fun y hy => (h'.parent y (hy.trans_le h.size)).trans (h.parent y hy)⟩

theorem inside_made {h : Dom} (hf : Forest h) {z y : ℕ} (hz : Within h z y) (hy : y < h.size) :
    z < h.size := by
  rcases ReflTransGen.cases_head hz with rfl | ⟨c, hc, _⟩
  · exact hy
  · exact (hf.made _ _ hc).2

theorem Ext.node {h h' : Dom} (e : Ext h h') (hf : Forest h) (hf' : Forest h') {y : ℕ}
    (hy : y < h.size) : h'.node y = h.node y :=
  node_congr hf hf' y fun z hz =>
    have := inside_made hf hz hy
    ⟨e.kids z this, e.lbl z this⟩

theorem unmade_kids {h : Dom} (hf : Forest h) {y : ℕ} (hy : h.size ≤ y) : h.kids y = [] := by
  apply List.eq_nil_iff_forall_not_mem.2
  intro c hc
  have := (hf.made y c ((hf.child y c).1 hc)).1
  omega

theorem unmade_parent {h : Dom} (hf : Forest h) {y : ℕ} (hy : h.size ≤ y) : h.parent y = none := by
  cases e : h.parent y with
  | none => rfl
  | some p =>
    have := (hf.made p y e).2
    omega

/-- One object made, with nothing in it. -/
theorem push_forest {h : Dom} (hf : Forest h) (l : Lbl) :
    Forest { h with size := h.size + 1, lbl := Function.update h.lbl h.size l } where
  child := hf.child
  nodup := hf.nodup
  acyclic := hf.acyclic
  made p c hc := by have := hf.made p c hc; simp only; omega
  text p s hp := by
    simp only [Function.update_apply] at hp
    split at hp
    · next e => exact unmade_kids hf (by omega)
    · exact hf.text p s hp

theorem push_ext (h : Dom) (l : Lbl) :
    Ext h { h with size := h.size + 1, lbl := Function.update h.lbl h.size l } where
  size := Nat.le_succ _
  lbl y hy := by simp [hy.ne]
  kids _ _ := rfl
  parent _ _ := rfl

/-- What making an object comes to. -/
structure Made (h : Dom) (n : Node) (r : Dom × ℕ) : Prop where
  forest : Forest r.1
  ext : Ext h r.1
  new : h.size ≤ r.2
  size : r.2 < r.1.size
  root : r.1.parent r.2 = none
  node : r.1.node r.2 = n

/-- What making several objects comes to. -/
structure MadeAll (h : Dom) (ns : List Node) (r : Dom × List ℕ) : Prop where
  forest : Forest r.1
  ext : Ext h r.1
  new : ∀ x ∈ r.2, h.size ≤ x ∧ x < r.1.size
  root : ∀ x ∈ r.2, r.1.parent x = none
  nodup : r.2.Nodup
  node : r.2.map r.1.node = ns

/-- Putting new objects into one that is empty. -/
theorem adopt_made {g : Dom} {i : ℕ} {n : String} {a : Attrs} (hi : i < g.size)
    (hl : g.lbl i = .tag n a) (hk : g.kids i = []) (hp : g.parent i = none) {ks : List Node}
    {r : Dom × List ℕ} (m : MadeAll g ks r) :
    ∃ h3 : Dom, h3 = { r.1 with
        kids := Function.update r.1.kids i r.2
        parent := fun c => if c ∈ r.2 then some i else r.1.parent c } ∧
      Forest h3 ∧ h3.parent i = none ∧ h3.node i = .tag n a ks ∧ h3.size = r.1.size ∧
      h3.lbl = r.1.lbl ∧ (∀ y, y ≠ i → h3.kids y = r.1.kids y) ∧
      (∀ y, y ∉ r.2 → h3.parent y = r.1.parent y) := by
  refine ⟨_, rfl, ?_⟩
  generalize hh : ({ r.1 with
        kids := Function.update r.1.kids i r.2
        parent := fun c => if c ∈ r.2 then some i else r.1.parent c } : Dom) = h3
  have hir : i ∉ r.2 := fun hm => by have := (m.new i hm).1; omega
  have hpi : r.1.parent i = none := (m.ext.parent i hi).trans hp
  have hki : r.1.kids i = [] := (m.ext.kids i hi).trans hk
  have hli : r.1.lbl i = .tag n a := (m.ext.lbl i hi).trans hl
  have e1 : h3.parent i = none := by rw [← hh]; simp [hir, hpi]
  have e2 : ∀ y, y ≠ i → h3.kids y = r.1.kids y := fun y hy => by rw [← hh]; simp [hy]
  have e3 : ∀ y, y ∉ r.2 → h3.parent y = r.1.parent y := fun y hy => by rw [← hh]; simp [hy]
  have e4 : h3.kids i = r.2 := by rw [← hh]; simp
  have e5 : h3.lbl = r.1.lbl := by rw [← hh]
  have e6 : h3.size = r.1.size := by rw [← hh]
  have hpar : ∀ c p, Par h3 c p ↔ Par r.1 c p ∨ (c ∈ r.2 ∧ p = i) := by
    intro c p
    by_cases hc : c ∈ r.2
    · have : r.1.parent c = none := m.root c hc
      rw [Par, Par, this, ← hh]; simp [hc, eq_comm]
    · rw [Par, e3 c hc]; simp [hc, Par]
  have htr : ∀ x y, TransGen (Par h3) x y → y ≠ i → TransGen (Par r.1) x y := by
    intro x y hxy
    induction hxy with
    | single hb =>
      intro hne
      rcases (hpar _ _).1 hb with hb | hb
      · exact .single hb
      · exact absurd hb.2 hne
    | @tail b c _ hbc ih =>
      intro hne
      rcases (hpar _ _).1 hbc with hb | hb
      · refine (ih ?_).tail hb
        rintro rfl
        rw [Par, hpi] at hb; simp at hb
      · exact absurd hb.2 hne
  have hf : Forest h3 := by
    refine ⟨fun p c => ?_, fun p => ?_, fun x hx => ?_, fun p c hc => ?_, fun p s hps => ?_⟩
    · rw [hpar]
      by_cases hpe : p = i
      · subst hpe
        rw [e4]
        have : ¬ Par r.1 c p := fun hc => by
          have := (m.forest.child p c).2 hc
          rw [hki] at this; simp at this
        simp [this]
      · rw [e2 p hpe, m.forest.child]; simp [hpe]
    · by_cases hpe : p = i
      · subst hpe; rw [e4]; exact m.nodup
      · rw [e2 p hpe]; exact m.forest.nodup p
    · have : x ≠ i := by
        rintro rfl
        rcases TransGen.head'_iff.1 hx with ⟨y, hy, _⟩
        rw [Par, e1] at hy; simp at hy
      exact m.forest.acyclic x (htr x x hx this)
    · rw [e6]
      rcases (hpar c p).1 hc with hc | ⟨hc, rfl⟩
      · exact m.forest.made p c hc
      · exact ⟨hi.trans_le m.ext.size, (m.new c hc).2⟩
    · rw [e5] at hps
      by_cases hpe : p = i
      · subst hpe; rw [hli] at hps; simp at hps
      · rw [e2 p hpe]; exact m.forest.text p s hps
  refine ⟨hf, e1, ?_, e6, e5, e2, e3⟩
  rw [node_tag hf (n := n) (a := a) (by rw [e5]; exact hli), e4, ← m.node]
  congr 1
  apply List.map_congr_left
  intro c hc
  apply node_congr m.forest hf
  intro z hz
  refine ⟨e2 z ?_, by rw [e5]⟩
  rintro rfl
  rcases ReflTransGen.cases_head hz with e | ⟨d, hd, _⟩
  · exact hir (e ▸ hc)
  · rw [Par, hpi] at hd; simp at hd

mutual
theorem alloc_made {h : Dom} (hf : Forest h) : (n : Node) → Made h n (h.alloc n)
  | .text s => by
    refine ⟨push_forest hf _, push_ext h _, le_rfl, Nat.lt_succ_self _, unmade_parent hf le_rfl, ?_⟩
    rw [alloc, node_text (s := s)]
    simp
  | .tag n a ks => by
    have h1 := push_forest hf (.tag n a)
    have e1 := push_ext h (.tag n a)
    have m := allocAll_made h1 ks
    obtain ⟨h3, e, h2, h4, h5, h6, h7, h8, h9⟩ := adopt_made
      (g := { h with size := h.size + 1, lbl := Function.update h.lbl h.size (.tag n a) })
      (i := h.size) (n := n) (a := a)
      (Nat.lt_succ_self _) (by simp) (unmade_kids hf le_rfl) (unmade_parent hf le_rfl) m
    have e' : h.alloc (.tag n a ks) = (h3, h.size) := by rw [alloc, e]
    rw [e']
    refine ⟨h2, ⟨?_, fun y hy => ?_, fun y hy => ?_, fun y hy => ?_⟩, le_rfl, ?_, h4, h5⟩
    · rw [h6]; exact e1.size.trans m.ext.size
    · rw [h7]; exact (e1.trans m.ext).lbl y hy
    · rw [h8 y hy.ne]; exact (e1.trans m.ext).kids y hy
    · rw [h9 y fun hm => by have := (m.new y hm).1; simp only at this; omega]
      exact (e1.trans m.ext).parent y hy
    · rw [h6]; exact (Nat.lt_succ_self _).trans_le m.ext.size
theorem allocAll_made {h : Dom} (hf : Forest h) : (ns : List Node) → MadeAll h ns (h.allocAll ns)
  | [] => ⟨hf, .refl h, by simp [allocAll], by simp [allocAll], by simp [allocAll], rfl⟩
  | n :: r => by
    have a := alloc_made hf n
    have b := allocAll_made a.forest r
    rw [allocAll]
    refine ⟨b.forest, a.ext.trans b.ext, ?_, ?_, ?_, ?_⟩
    · intro x hx
      rcases List.mem_cons.1 hx with rfl | hx
      · exact ⟨a.new, a.size.trans_le b.ext.size⟩
      · exact ⟨a.ext.size.trans (b.new x hx).1, (b.new x hx).2⟩
    · intro x hx
      rcases List.mem_cons.1 hx with rfl | hx
      · rw [b.ext.parent _ a.size, a.root]
      · exact b.root x hx
    · refine List.nodup_cons.2 ⟨fun hm => ?_, b.nodup⟩
      have := (b.new _ hm).1
      have := a.size
      omega
    · rw [List.map_cons, b.ext.node a.forest b.forest a.size, a.node, b.node]
end

/-! ## Searching -/

/-- Neither `w` nor anything in it matches. -/
def Clear (h : Dom) (P : Node → Bool) (w : ℕ) : Prop := ∀ z, Within h z w → P (h.bare z) = false

theorem clear_iff {h : Dom} (hf : Forest h) (P : Node → Bool) (w : ℕ) :
    Clear h P w ↔ ∀ z ∈ w :: h.desc w, P (h.bare z) = false := by
  simp only [Clear, List.mem_cons, mem_desc hf]
  constructor
  · rintro hc z (rfl | hz)
    · exact hc z .refl
    · exact hc z hz.to_reflTransGen
  · intro hc z hz
    rcases reflTransGen_iff_eq_or_transGen.1 hz with e | ht
    · exact hc z (.inl e.symm)
    · exact hc z (.inr ht)

theorem find_kids {h : Dom} (hf : Forest h) (P : Node → Bool) (q : ℕ) (l : List ℕ) :
    (l.flatMap fun c => c :: h.desc c).find? (fun y => P (h.bare y)) = some q ↔
    ∃ A k B, l = A ++ k :: B ∧ (∀ w ∈ A, Clear h P w) ∧
      ((k = q ∧ P (h.bare q) = true) ∨ (P (h.bare k) = false ∧ h.find? P k = some q)) := by
  induction l with
  | nil => simp
  | cons c r ih =>
    rw [List.flatMap_cons, List.find?_append, List.find?_cons]
    by_cases hc : P (h.bare c) = true
    · rw [hc]
      simp only [Option.some_or, Option.some.injEq]
      constructor
      · rintro rfl
        exact ⟨[], c, r, rfl, by simp, .inl ⟨rfl, hc⟩⟩
      · rintro ⟨A, k, B, e, hA, hk⟩
        cases A with
        | nil =>
          injection e with e1 e2
          subst e1
          rcases hk with ⟨e, _⟩ | ⟨hk, _⟩
          · exact e
          · rw [hc] at hk; simp at hk
        | cons w A =>
          injection e with e1 e2
          subst e1
          have := hA c (by simp) c .refl
          rw [hc] at this; simp at this
    · rw [Bool.not_eq_true] at hc
      rw [hc]
      simp only
      cases hd : (h.desc c).find? fun y => P (h.bare y) with
      | some x =>
        simp only [Option.some_or, Option.some.injEq]
        constructor
        · rintro rfl
          exact ⟨[], c, r, rfl, by simp, .inr ⟨hc, hd⟩⟩
        · rintro ⟨A, k, B, e, hA, hk⟩
          cases A with
          | nil =>
            injection e with e1 e2
            subst e1
            rcases hk with ⟨e, hk⟩ | ⟨_, hk⟩
            · rw [e, hk] at hc; simp at hc
            · rw [find?, hd] at hk; exact Option.some.inj hk
          | cons w A =>
            injection e with e1 e2
            subst e1
            have h1 := (clear_iff hf P c).1 (hA c (by simp)) x
              (List.mem_cons_of_mem _ (List.mem_of_find?_eq_some hd))
            have h2 := List.find?_some hd
            rw [h1] at h2; simp at h2
      | none =>
        rw [Option.none_or, ih]
        have hclear : Clear h P c := by
          rw [clear_iff hf]
          intro z hz
          rcases List.mem_cons.1 hz with rfl | hz
          · exact hc
          · simpa using List.find?_eq_none.1 hd z hz
        constructor
        · rintro ⟨A, k, B, rfl, hA, hk⟩
          refine ⟨c :: A, k, B, rfl, ?_, hk⟩
          intro w hw
          rcases List.mem_cons.1 hw with rfl | hw
          · exact hclear
          · exact hA w hw
        · rintro ⟨A, k, B, e, hA, hk⟩
          cases A with
          | nil =>
            injection e with e1 e2
            subst e1
            rcases hk with ⟨rfl, hk⟩ | ⟨_, hk⟩
            · rw [hk] at hc; simp at hc
            · rw [find?, hd] at hk; simp at hk
          | cons w A =>
            injection e with e1 e2
            exact ⟨A, k, B, e2, fun w hw => hA w (by simp [hw]), hk⟩

/-- What it is to be the first that matches, in terms of the way down to it. -/
theorem find_iff {h : Dom} (hf : Forest h) (P : Node → Bool) (q y : ℕ) :
    h.find? P y = some q ↔ TransGen (Par h) q y ∧ P (h.bare q) = true ∧
      ∀ z k, Within h z y → Par h k z → Within h q k →
        (k ≠ q → P (h.bare k) = false) ∧ ∃ A B, h.kids z = A ++ k :: B ∧ ∀ w ∈ A, Clear h P w := by
  induction y using forest_induct hf with
  | step y ih =>
    rw [find?, desc_eq hf, find_kids hf]
    constructor
    · rintro ⟨A, k, B, e, hA, hk⟩
      have hky : k ∈ h.kids y := by rw [e]; simp
      have hkp := (hf.child y k).1 hky
      have hqk : Within h q k := by
        rcases hk with ⟨rfl, _⟩ | ⟨_, hk⟩
        · exact .refl
        · exact ((ih k hky).1 hk).1.to_reflTransGen
      have hPq : P (h.bare q) = true := by
        rcases hk with ⟨_, hk⟩ | ⟨_, hk⟩
        · exact hk
        · exact ((ih k hky).1 hk).2.1
      refine ⟨TransGen.tail' hqk hkp, hPq, fun z k' hz hk' hq => ?_⟩
      rcases ReflTransGen.cases_tail hz with rfl | ⟨d, hzd, hdy⟩
      · have : k' = k := by
          by_contra hne
          exact inside_siblings hf hk' hkp hne hq hqk
        subst this
        refine ⟨fun hne => ?_, A, B, e, hA⟩
        rcases hk with ⟨e, _⟩ | ⟨hk, _⟩
        · exact absurd e hne
        · exact hk
      · have hqd : Within h q d := (hq.tail hk').trans hzd
        have : d = k := by
          by_contra hne
          exact inside_siblings hf hdy hkp hne hqd hqk
        subst this
        rcases hk with ⟨rfl, _⟩ | ⟨_, hk⟩
        · exact absurd (TransGen.tail' hq hk' |>.trans_left hzd) (hf.acyclic d)
        · exact ((ih d hky).1 hk).2.2 z k' hzd hk' hq
    · rintro ⟨ht, hP, hall⟩
      rcases TransGen.tail'_iff.1 ht with ⟨k, hqk, hky⟩
      obtain ⟨hne, A, B, e, hA⟩ := hall y k .refl hky hqk
      refine ⟨A, k, B, e, hA, ?_⟩
      by_cases hkq : k = q
      · exact .inl ⟨hkq, hP⟩
      · refine .inr ⟨hne hkq, (ih k ((hf.child y k).2 hky)).2 ⟨?_, hP, fun z k' hz => ?_⟩⟩
        · rcases reflTransGen_iff_eq_or_transGen.1 hqk with e | ht
          · exact absurd e hkq
          · exact ht
        · exact hall z k' (hz.tail hky)

/-! ## Moving -/

/-- `x` has been taken from where it was and put into `p`, whose contents are now `l`. -/
structure Moved (h : Dom) (x p : ℕ) (l : List ℕ) (h' : Dom) : Prop where
  forest : Forest h'
  lbl : h'.lbl = h.lbl
  size : h'.size = h.size
  here : h'.kids p = l
  there : ∀ q, q ≠ p → h'.kids q = (h.kids q).filter (· ≠ x)
  parent : ∀ z, h'.parent z = if z = x then some p else h.parent z

theorem insertIdx_length {α : Type} (A B : List α) (x : α) :
    (A ++ B).insertIdx A.length x = A ++ x :: B := by
  induction A with
  | nil => simp
  | cons a A ih => simp [ih]

theorem tag_of_kid {h : Dom} (hf : Forest h) {c p : ℕ} (hc : Par h c p) (s : Str) :
    h.lbl p ≠ .text s := fun e => by
  have := (hf.child p c).2 hc
  rw [hf.text p s e] at this; simp at this

theorem insert_moved {h : Dom} (hf : Forest h) {p x pos : ℕ} (hp : p < h.size) (hx : x < h.size)
    (hl : ∀ s, h.lbl p ≠ .text s) (hin : ¬ Within h p x) :
    Moved h x p ((h.insert p pos x).1.kids p) (h.insert p pos x).1 where
  forest := insert_forest hf hp hx hl hin
  lbl := insert_lbl h p pos x
  size := insert_size h p pos x
  here := rfl
  there _ hq := insert_kids_ne hf (fun e => hin (e ▸ .refl)) hq
  parent z := insert_parent (fun e : x = p => hin (e ▸ .refl)) z

theorem filter_ne_length {l : List ℕ} (hn : l.Nodup) {x : ℕ} (hm : x ∈ l) :
    (l.filter (· ≠ x)).length = l.length - 1 := by
  rw [← List.length_erase_of_mem hm, hn.erase_eq_filter]
  congr 2; funext c; rw [Bool.eq_iff_iff]; simp

theorem filter_ne_self {l : List ℕ} {x : ℕ} (hm : x ∉ l) : l.filter (· ≠ x) = l := by
  apply List.filter_eq_self.2
  intro c hc
  have : c ≠ x := fun e => hm (e ▸ hc)
  simpa using this

theorem insert_kids_split {h : Dom} (hf : Forest h) {p x : ℕ} (hne : x ≠ p) {A B : List ℕ}
    (hk : h.kids p = A ++ B) :
    (h.insert p A.length x).1.kids p = A.filter (· ≠ x) ++ x :: B.filter (· ≠ x) := by
  simp only [insert, if_neg hne, Function.update_self, extract_kids hf, hk, List.filter_append]
  have hn := hf.nodup p
  rw [hk] at hn
  have key : (if h.parent x = some p ∧ (A ++ B).idxOf x < min A.length (A ++ B).length
      then min A.length (A ++ B).length - 1 else min A.length (A ++ B).length) =
      (A.filter (· ≠ x)).length := by
    rw [List.length_append, min_eq_left (by omega)]
    by_cases hA : x ∈ A
    · have h1 : h.parent x = some p := (hf.child p x).1 (by rw [hk]; simp [hA])
      have h2 : (A ++ B).idxOf x < A.length := by
        rw [List.idxOf_append_of_mem hA]; exact List.idxOf_lt_length_of_mem hA
      rw [if_pos ⟨h1, h2⟩, filter_ne_length (List.nodup_append.1 hn).1 hA]
    · have h2 : ¬ (A ++ B).idxOf x < A.length := by
        rw [List.idxOf_append_of_notMem hA]; omega
      rw [if_neg fun hh => h2 hh.2, filter_ne_self hA]
  rw [key]
  exact insertIdx_length _ _ x

theorem append_moved {h : Dom} (hf : Forest h) {p x : ℕ} (hp : p < h.size) (hx : x < h.size)
    (hl : ∀ s, h.lbl p ≠ .text s) (hin : ¬ Within h p x) :
    Moved h x p ((h.kids p).filter (· ≠ x) ++ [x]) (h.append p x).1 ∧ (h.append p x).2 = .ok () := by
  have hne : x ≠ p := fun e => hin (e ▸ .refl)
  refine ⟨?_, insert_ok hne⟩
  have m := insert_moved hf (pos := (h.kids p).length) hp hx hl hin
  refine { m with here := ?_ }
  rw [append, insert_kids_split hf hne (A := h.kids p) (B := []) (by simp)]
  simp

theorem inside_extract {h : Dom} {a b x : ℕ} (hi : Within (h.extract x) a b) : Within h a b :=
  ReflTransGen.mono (fun _ _ hab => ((extract_par x _ _).1 hab).1) _ _ hi

/-- `x` next to `y`, at the beginning of `E ++ F = [y]`'s side. -/
theorem beside_moved {h : Dom} (hf : Forest h) {p x y : ℕ} (hy : Par h y p) (hxy : x ≠ y)
    (hx : x < h.size) (hin : ¬ Within h p x) {A B : List ℕ} (hk : h.kids p = A ++ y :: B) :
    (Moved h x p (A.filter (· ≠ x) ++ x :: y :: B.filter (· ≠ x)) (h.insertBefore y x).1 ∧
      (h.insertBefore y x).2 = .ok ()) ∧
    (Moved h x p (A.filter (· ≠ x) ++ y :: x :: B.filter (· ≠ x)) (h.insertAfter y x).1 ∧
      (h.insertAfter y x).2 = .ok ()) := by
  have hne : x ≠ p := fun e => hin (e ▸ .refl)
  have he := extract_forest hf x
  have hp := (hf.made p y hy).1
  have hk' : (h.extract x).kids p = A.filter (· ≠ x) ++ y :: B.filter (· ≠ x) := by
    rw [extract_kids hf, hk, List.filter_append, List.filter_cons_of_pos (by simpa using hxy.symm)]
  have hyA : y ∉ A.filter (· ≠ x) := by
    have := hf.nodup p
    rw [hk] at this
    intro hm
    exact (List.nodup_append.1 this).2.2 y (List.mem_filter.1 hm).1 y (by simp) rfl
  have hidx : ((h.extract x).kids p).idxOf y = (A.filter (· ≠ x)).length := by
    rw [hk', List.idxOf_append_of_notMem hyA]; simp
  have hf1 : (A.filter (· ≠ x)).filter (· ≠ x) = A.filter (· ≠ x) := by simp
  have hf2 : (B.filter (· ≠ x)).filter (· ≠ x) = B.filter (· ≠ x) := by simp
  have mv : ∀ pos, Moved h x p (((h.extract x).insert p pos x).1.kids p)
      ((h.extract x).insert p pos x).1 := by
    intro pos
    have m := insert_moved he (p := p) (x := x) (pos := pos) (by rw [extract_size]; exact hp)
      (by rw [extract_size]; exact hx) (fun s => by rw [extract_lbl]; exact tag_of_kid hf hy s)
      (fun hi => hin (inside_extract hi))
    refine ⟨m.forest, m.lbl.trans (extract_lbl h x), m.size.trans (extract_size h x), rfl, ?_, ?_⟩
    · intro q hq
      rw [m.there q hq, extract_kids hf]; simp
    · intro z
      rw [m.parent z, extract_parent]
      split <;> rfl
  constructor
  · have e : h.insertBefore y x = (h.extract x).insert p (A.filter (· ≠ x)).length x := by
      rw [insertBefore, hy]
      simp only [if_neg hxy, hidx]
    rw [e]
    refine ⟨{ mv _ with here := ?_ }, insert_ok hne⟩
    rw [insert_kids_split he hne hk', List.filter_cons_of_pos (by simpa using hxy.symm), hf1, hf2]
  · have e : h.insertAfter y x = (h.extract x).insert p (A.filter (· ≠ x) ++ [y]).length x := by
      rw [insertAfter, hy]
      simp only [if_neg hxy, hidx, List.length_append, List.length_singleton]
    rw [e]
    refine ⟨{ mv _ with here := ?_ }, insert_ok hne⟩
    rw [insert_kids_split he hne (B := B.filter (· ≠ x)) (by rw [hk']; simp), List.filter_append, hf1, hf2]
    have : [y].filter (· ≠ x) = [y] := by
      rw [List.filter_cons_of_pos (by simpa using hxy.symm)]; rfl
    rw [this]; simp

/-- `x` in place of `y`. -/
structure Replaced (h : Dom) (y x p : ℕ) (l : List ℕ) (h' : Dom) : Prop where
  forest : Forest h'
  lbl : h'.lbl = h.lbl
  size : h'.size = h.size
  here : h'.kids p = l
  there : ∀ q, q ≠ p → h'.kids q = (h.kids q).filter (· ≠ x)
  parent : ∀ z, h'.parent z = if z = x then some p else if z = y then none else h.parent z

theorem replaced {h : Dom} (hf : Forest h) {p x y : ℕ} (hy : Par h y p) (hxy : x ≠ y)
    (hx : x < h.size) (hin : ¬ Within h p x) {A B : List ℕ} (hk : h.kids p = A ++ y :: B) :
    Replaced h y x p (A.filter (· ≠ x) ++ x :: B.filter (· ≠ x)) (h.replaceWith y x).1 ∧
      (h.replaceWith y x).2 = .ok () := by
  have hne : x ≠ p := fun e => hin (e ▸ .refl)
  have he := extract_forest hf y
  have hp := (hf.made p y hy).1
  have hn := hf.nodup p
  rw [hk] at hn
  have hyA : y ∉ A := fun hm => (List.nodup_append.1 hn).2.2 y hm y (by simp) rfl
  have hyB : y ∉ B := (List.nodup_cons.1 (List.nodup_append.1 hn).2.1).1
  have hk' : (h.extract y).kids p = A ++ B := by
    rw [extract_kids hf, hk, List.filter_append, List.filter_cons_of_neg (by simp), filter_ne_self hyA,
      filter_ne_self hyB]
  have hidx : (h.kids p).idxOf y = A.length := by
    rw [hk, List.idxOf_append_of_notMem hyA]; simp
  have e : h.replaceWith y x = (h.extract y).insert p A.length x := by
    rw [replaceWith, hy]
    simp only [if_neg hxy, if_neg hne, hidx]
  have m := insert_moved he (p := p) (x := x) (pos := A.length) (by rw [extract_size]; exact hp)
      (by rw [extract_size]; exact hx) (fun s => by rw [extract_lbl]; exact tag_of_kid hf hy s)
      (fun hi => hin (inside_extract hi))
  rw [e]
  refine ⟨⟨m.forest, m.lbl.trans (extract_lbl h y), m.size.trans (extract_size h y), ?_, ?_, ?_⟩,
    insert_ok hne⟩
  · rw [insert_kids_split he hne hk']
  · intro q hq
    rw [m.there q hq, extract_kids hf]
    have : y ∉ h.kids q := fun hm => hq (par_unique ((hf.child q y).1 hm) hy)
    rw [filter_ne_self this]
  · intro z
    rw [m.parent z, extract_parent]

theorem clear_foldl {h : Dom} (hf : Forest h) (l : List ℕ) :
    Forest (l.foldl (fun h c => h.extract c) h) ∧
    (l.foldl (fun h c => h.extract c) h).lbl = h.lbl ∧
    (l.foldl (fun h c => h.extract c) h).size = h.size ∧
    (∀ q, (l.foldl (fun h c => h.extract c) h).kids q = (h.kids q).filter (· ∉ l)) ∧
    ∀ z, (l.foldl (fun h c => h.extract c) h).parent z = if z ∈ l then none else h.parent z := by
  induction l generalizing h with
  | nil => refine ⟨hf, rfl, rfl, fun q => ?_, fun z => ?_⟩ <;> simp
  | cons c r ih =>
    obtain ⟨i1, i2, i3, i4, i5⟩ := ih (extract_forest hf c)
    rw [List.foldl_cons]
    refine ⟨i1, i2.trans (extract_lbl h c), i3.trans (extract_size h c), fun q => ?_, fun z => ?_⟩
    · rw [i4, extract_kids hf, List.filter_filter]
      apply List.filter_congr
      intro d _
      by_cases hd : d = c <;> simp [hd]
    · rw [i5, extract_parent]
      by_cases h1 : z = c <;> by_cases h2 : z ∈ r <;> simp [h1, h2]

theorem clear_spec {h : Dom} (hf : Forest h) (x : ℕ) :
    Forest (h.clear x) ∧ (h.clear x).lbl = h.lbl ∧ (h.clear x).size = h.size ∧ (h.clear x).kids x = [] ∧
    (∀ q, q ≠ x → (h.clear x).kids q = h.kids q) ∧
    ∀ z, (h.clear x).parent z = if h.parent z = some x then none else h.parent z := by
  obtain ⟨i1, i2, i3, i4, i5⟩ := clear_foldl hf (h.kids x)
  refine ⟨i1, i2, i3, ?_, fun q hq => ?_, fun z => ?_⟩
  · rw [clear, i4]; simp
  · rw [clear, i4]
    apply List.filter_eq_self.2
    intro c hc
    have : c ∉ h.kids x := fun hm => hq (par_unique ((hf.child q c).1 hc) ((hf.child x c).1 hm))
    simpa using this
  · rw [clear, i5]
    simp only [hf.child x z, Par]

/-! ## Searching again after a change -/

/-- If the way down to `q` is still there, and nothing that matches has come before it, then `q` is still
found. -/
theorem find_transfer {h h' : Dom} (hf : Forest h) (hf' : Forest h') {P : Node → Bool} {y q : ℕ}
    (hq : h.find? P y = some q)
    (path : ∀ z k, Within h z y → Par h k z → Within h q k →
      Par h' k z ∧ P (h'.bare k) = P (h.bare k) ∧
      ∀ A B, h.kids z = A ++ k :: B → (∀ w ∈ A, Clear h P w) →
        ∃ A' B', h'.kids z = A' ++ k :: B' ∧ ∀ w ∈ A', Clear h' P w) :
    h'.find? P y = some q := by
  obtain ⟨ht, hP, hall⟩ := (find_iff hf P q y).1 hq
  have up : ∀ k, Within h q k → Within h k y → Within h' k y := by
    intro k hqk hky
    induction hky using ReflTransGen.head_induction_on with
    | refl => exact .refl
    | head hab hby ih =>
      exact ReflTransGen.head (path _ _ hby hab hqk).1 (ih (hqk.tail hab))
  have back : ∀ k, Within h' q k → Within h' k y → Within h q k ∧ Within h k y := by
    intro k hqk
    induction hqk with
    | refl => intro _; exact ⟨.refl, ht.to_reflTransGen⟩
    | @tail b c hqb hbc ih =>
      intro hcy
      obtain ⟨i1, i2⟩ := ih (ReflTransGen.head hbc hcy)
      rcases ReflTransGen.cases_head i2 with rfl | ⟨d, hd, hdy⟩
      · exact absurd (TransGen.head' hbc hcy) (hf'.acyclic b)
      · rw [par_unique hbc (path d b hdy hd i1).1]
        exact ⟨i1.tail hd, hdy⟩
  refine (find_iff hf' P q y).2 ⟨?_, ?_, fun z k hz hk hqk => ?_⟩
  · rcases TransGen.head'_iff.1 ht with ⟨c, hc, hcy⟩
    exact TransGen.head' (path c q hcy hc .refl).1 (up c (ReflTransGen.single hc) hcy)
  · rcases TransGen.head'_iff.1 ht with ⟨c, hc, hcy⟩
    rw [(path c q hcy hc .refl).2.1, hP]
  · have hz' := back z (hqk.tail hk) hz
    have hk' := back k hqk (ReflTransGen.head hk hz)
    have hkz : Par h k z := by
      rcases ReflTransGen.cases_head hk'.2 with rfl | ⟨d, hd, hdy⟩
      · exact absurd (TransGen.head' hk hz) (hf'.acyclic k)
      · rw [par_unique hk (path d k hdy hd hk'.1).1]; exact hd
    obtain ⟨p1, p2, p3⟩ := path z k hz'.2 hkz hk'.1
    obtain ⟨h1, A, B, e, hA⟩ := hall z k hz'.2 hkz hk'.1
    exact ⟨fun hne => by rw [p2, h1 hne], p3 A B e hA⟩

/-- With one new edge and some gone: what is inside what. -/
theorem inside_back {h h' : Dom} {x p : ℕ}
    (hpar : ∀ a b, Par h' a b → Par h a b ∨ (a = x ∧ b = p)) {a b : ℕ} (hab : Within h' a b) :
    Within h a b ∨ (Within h a x ∧ Within h p b) := by
  induction hab with
  | refl => exact .inl .refl
  | @tail b c _ hbc ih =>
    rcases hpar _ _ hbc with hb | ⟨rfl, rfl⟩
    · rcases ih with ih | ⟨i1, i2⟩
      · exact .inl (ih.tail hb)
      · exact .inr ⟨i1, i2.tail hb⟩
    · rcases ih with ih | ⟨i1, _⟩
      · exact .inr ⟨ih, .refl⟩
      · exact .inr ⟨i1, .refl⟩

theorem Moved.par {h h' : Dom} {x p : ℕ} {l : List ℕ} (m : Moved h x p l h') (a b : ℕ) :
    Par h' a b ↔ (a ≠ x ∧ Par h a b) ∨ (a = x ∧ b = p) := by
  rw [Par, m.parent, Par]
  by_cases e : a = x <;> simp [e, eq_comm]

theorem Replaced.par {h h' : Dom} {y x p : ℕ} {l : List ℕ} (m : Replaced h y x p l h') (a b : ℕ) :
    Par h' a b ↔ (a ≠ x ∧ a ≠ y ∧ Par h a b) ∨ (a = x ∧ b = p) := by
  rw [Par, m.parent, Par]
  by_cases e : a = x
  · simp [e, eq_comm]
  · by_cases e' : a = y
    · subst e'; simp [e]
    · simp [e, e']

theorem split_filter {l A B : List ℕ} {k x : ℕ} (e : l = A ++ k :: B) (hk : k ≠ x) :
    l.filter (· ≠ x) = A.filter (· ≠ x) ++ k :: B.filter (· ≠ x) := by
  rw [e, List.filter_append, List.filter_cons_of_pos (by simpa using hk)]

/-- Changes which leave the way down to `q` alone, and put nothing that matches before it. -/
theorem find_edit {h h' : Dom} (hf : Forest h) (hf' : Forest h') {P : Node → Bool} {y q x t : ℕ}
    (hq : h.find? P y = some q)
    (hpar : ∀ a b, Par h' a b → Par h a b ∨ (a = x ∧ b = t))
    (hbare : ∀ z, ¬ TransGen (Par h) z q → z < h.size → P (h'.bare z) = P (h.bare z))
    (hkids : ∀ z k, Within h z y → Par h k z → Within h q k → Par h' k z ∧
      ∀ A B, h.kids z = A ++ k :: B → ∃ A' B', h'.kids z = A' ++ k :: B' ∧ A' ⊆ A)
    (ht : Within h t q ∨ ∀ u, Within h u x → P (h'.bare u) = false) : h'.find? P y = some q := by
  refine find_transfer hf hf' hq fun z k hz hk hqk => ?_
  obtain ⟨h1, h2⟩ := hkids z k hz hk hqk
  refine ⟨h1, hbare k (fun hkq => hf.acyclic k (hkq.trans_left hqk)) (hf.made z k hk).2,
    fun A B e hA => ?_⟩
  obtain ⟨A', B', e', hsub⟩ := h2 A B e
  refine ⟨A', B', e', fun w hw u hu => ?_⟩
  have hwA := hsub hw
  have hwz : Par h w z := (hf.child z w).1 (by rw [e]; simp [hwA])
  have hwk : w ≠ k := by
    rintro rfl
    have := hf.nodup z
    rw [e] at this
    exact (List.nodup_append.1 this).2.2 w hwA w (by simp) rfl
  have sep : ∀ v, Within h v w → ¬ Within h v q := fun v hv hvq =>
    inside_siblings hf hk hwz hwk.symm (hvq.trans hqk) hv
  rcases inside_back hpar hu with hi | ⟨hi, hi'⟩
  · rw [hbare u (fun hh => sep u hi hh.to_reflTransGen) (inside_made hf hi (hf.made z w hwz).2)]
    exact hA w hwA u hi
  · rcases ht with ht | ht
    · exact absurd ht (sep t hi')
    · exact ht u hi

/-- Something moved into `q`, or somewhere in it, doesn't hide `q`. -/
theorem Moved.find {h h' : Dom} (hf : Forest h) {x p : ℕ} {l : List ℕ} (m : Moved h x p l h')
    {P : Node → Bool} {y q : ℕ} (hq : h.find? P y = some q) (hp : Within h p q)
    (hx : ¬ Within h q x) : h'.find? P y = some q := by
  refine find_edit hf m.forest hq (x := x) (t := p)
    (fun a b hab => ((m.par a b).1 hab).imp (·.2) id)
    (fun z _ _ => by rw [bare_congr (h := h) (h' := h') (by rw [m.lbl])])
    (fun z k hz hk hqk => ⟨?_, fun A B e => ?_⟩) (.inl hp)
  · refine (m.par k z).2 (.inl ⟨?_, hk⟩)
    rintro rfl; exact hx hqk
  · have hkx : k ≠ x := by rintro rfl; exact hx hqk
    have hzp : z ≠ p := by
      rintro rfl
      exact hf.acyclic z (TransGen.tail' (hp.trans hqk) hk)
    exact ⟨_, _, (m.there z hzp).trans (split_filter e hkx), fun _ hw => (List.mem_filter.1 hw).1⟩

/-- Replacing something doesn't hide `q`, if `q` wasn't in it, nor in what replaces it. -/
theorem Replaced.find {h h' : Dom} (hf : Forest h) {x o p : ℕ} {l : List ℕ} (m : Replaced h o x p l h')
    {P : Node → Bool} {y q : ℕ} (hq : h.find? P y = some q) (ho : ¬ Within h q o) (hx : ¬ Within h q x)
    (hp : ∀ k, Par h k p → ¬ Within h q k)
    (ht : Within h p q ∨ ∀ u, Within h u x → P (h.bare u) = false) : h'.find? P y = some q := by
  have hb : ∀ z, h'.bare z = h.bare z := fun z => bare_congr (by rw [m.lbl])
  refine find_edit hf m.forest hq (x := x) (t := p)
    (fun a b hab => ((m.par a b).1 hab).imp (·.2.2) id)
    (fun z _ _ => by rw [hb])
    (fun z k hz hk hqk => ⟨?_, fun A B e => ?_⟩) (by simpa only [hb] using ht)
  · refine (m.par k z).2 (.inl ⟨?_, ?_, hk⟩)
    · rintro rfl; exact hx hqk
    · rintro rfl; exact ho hqk
  · have hkx : k ≠ x := by rintro rfl; exact hx hqk
    have hzp : z ≠ p := by
      rintro rfl
      exact hp k hk hqk
    exact ⟨_, _, (m.there z hzp).trans (split_filter e hkx), fun _ hw => (List.mem_filter.1 hw).1⟩

theorem Ext.par {h h' : Dom} (e : Ext h h') (hf : Forest h) (hf' : Forest h') {a b : ℕ}
    (hb : b < h.size) : Par h' a b ↔ Par h a b := by
  rw [← hf'.child, ← hf.child, e.kids b hb]

theorem Ext.inside {h h' : Dom} (e : Ext h h') (hf : Forest h) (hf' : Forest h') {a b : ℕ}
    (hb : b < h.size) : Within h' a b ↔ Within h a b := by
  constructor
  · intro hab
    induction hab using ReflTransGen.head_induction_on with
    | refl => exact .refl
    | head hac hcb ih =>
      exact ReflTransGen.head ((e.par hf hf' (inside_made hf ih hb)).1 hac) ih
  · intro hab
    induction hab using ReflTransGen.head_induction_on with
    | refl => exact .refl
    | head hac hcb ih =>
      exact ReflTransGen.head ((e.par hf hf' (inside_made hf hcb hb)).2 hac) ih

theorem Ext.find {h h' : Dom} (e : Ext h h') (hf : Forest h) (hf' : Forest h') {P : Node → Bool}
    {y q : ℕ} (hy : y < h.size) (hq : h.find? P y = some q) : h'.find? P y = some q := by
  have hb : ∀ z, z < h.size → h'.bare z = h.bare z := fun z hz => bare_congr (e.lbl z hz)
  refine find_transfer hf hf' hq fun z k hz hk hqk => ?_
  have hzs := inside_made hf hz hy
  refine ⟨(e.par hf hf' hzs).2 hk, by rw [hb k (hf.made z k hk).2], fun A B ek hA => ?_⟩
  refine ⟨A, B, (e.kids z hzs).trans ek, fun w hw u hu => ?_⟩
  have hws : w < h.size := (hf.made z w ((hf.child z w).1 (by rw [ek]; simp [hw]))).2
  have hu' := (e.inside hf hf' hws).1 hu
  rw [hb u (inside_made hf hu' hws)]
  exact hA w hw u hu'

/-- Nothing is found in a bigger memory that wasn't found before. -/
theorem Ext.find_none {h h' : Dom} (e : Ext h h') (hf : Forest h) (hf' : Forest h') {P : Node → Bool}
    {y : ℕ} (hy : y < h.size) (hq : h.find? P y = none) : h'.find? P y = none := by
  rw [find?, List.find?_eq_none] at hq ⊢
  intro u hu
  have hu' := (mem_desc hf' y u).1 hu
  have hi := (e.inside hf hf' hy).1 hu'.to_reflTransGen
  have ht : TransGen (Par h) u y := by
    rcases reflTransGen_iff_eq_or_transGen.1 hi with e | ht
    · rw [e] at hu'; exact absurd hu' (hf'.acyclic u)
    · exact ht
  rw [bare_congr (e.lbl u (inside_made hf hi hy))]
  exact hq u ((mem_desc hf y u).2 ht)

/-- Emptying something inside `q` doesn't hide `q`. -/
theorem clear_find {h : Dom} (hf : Forest h) {v : ℕ} {P : Node → Bool} {y q : ℕ}
    (hq : h.find? P y = some q) (hv : Within h v q) : (h.clear v).find? P y = some q := by
  obtain ⟨c1, c2, c3, c4, c5, c6⟩ := clear_spec hf v
  have hpar : ∀ a b, Par (h.clear v) a b → Par h a b := by
    intro a b hab
    rw [Par, c6] at hab
    split at hab
    · simp at hab
    · exact hab
  refine find_edit hf c1 hq (x := v) (t := v) (fun a b hab => .inl (hpar a b hab))
    (fun z _ _ => by rw [bare_congr (h := h) (by rw [c2])])
    (fun z k hz hk hqk => ?_) (.inl hv)
  have hzv : z ≠ v := by
    rintro rfl
    exact hf.acyclic z (TransGen.tail' (hv.trans hqk) hk)
  refine ⟨?_, fun A B e => ⟨A, B, (c5 z hzv).trans e, List.Subset.refl _⟩⟩
  rw [← c1.child, c5 z hzv, hf.child]
  exact hk

/-! ## Other edits keep documents trees -/

/-- Nothing that was there is inside something new. -/
theorem Made.fresh {h : Dom} {n : Node} {r : Dom × ℕ} (hf : Forest h) (m : Made h n r) {p : ℕ}
    (hp : p < h.size) : ¬ Within r.1 p r.2 := by
  intro hi
  have : ∀ z, Within r.1 p z → z < h.size := by
    intro z hz
    induction hz with
    | refl => exact hp
    | tail _ hbc ih =>
      rw [Par, m.ext.parent _ ih] at hbc
      exact (hf.made _ _ hbc).1
  have h1 := this _ hi
  have h2 := m.new
  omega

theorem insertBefore_forest {h : Dom} (hf : Forest h) {x y : ℕ} (hx : x < h.size)
    (hin : ∀ p, Par h y p → ¬ Within h p x) : Forest (h.insertBefore y x).1 := by
  cases hp : h.parent y with
  | none => rw [insertBefore, hp]; exact hf
  | some p =>
    by_cases hxy : x = y
    · rw [insertBefore, hp]; simp only [if_pos hxy]; exact hf
    · obtain ⟨A, B, hk⟩ := List.append_of_mem ((hf.child p y).2 hp)
      exact (beside_moved hf hp hxy hx (hin p hp) hk).1.1.forest

theorem insertAfter_forest {h : Dom} (hf : Forest h) {x y : ℕ} (hx : x < h.size)
    (hin : ∀ p, Par h y p → ¬ Within h p x) : Forest (h.insertAfter y x).1 := by
  cases hp : h.parent y with
  | none => rw [insertAfter, hp]; exact hf
  | some p =>
    by_cases hxy : x = y
    · rw [insertAfter, hp]; simp only [if_pos hxy]; exact hf
    · obtain ⟨A, B, hk⟩ := List.append_of_mem ((hf.child p y).2 hp)
      exact (beside_moved hf hp hxy hx (hin p hp) hk).2.1.forest

theorem replaceWith_forest {h : Dom} (hf : Forest h) {x y : ℕ} (hx : x < h.size)
    (hin : ∀ p, Par h y p → ¬ Within h p x) : Forest (h.replaceWith y x).1 := by
  cases hp : h.parent y with
  | none => rw [replaceWith, hp]; exact hf
  | some p =>
    by_cases hxy : x = y
    · rw [replaceWith, hp]; simp only [if_pos hxy]; exact hf
    · obtain ⟨A, B, hk⟩ := List.append_of_mem ((hf.child p y).2 hp)
      exact (replaced hf hp hxy hx (hin p hp) hk).1.forest

theorem newlineAfter_forest {h : Dom} (hf : Forest h) (y : ℕ) : Forest (h.newlineAfter y).1 := by
  rw [newlineAfter]
  have m := alloc_made hf (.text ['\n'])
  refine insertAfter_forest m.forest m.size fun p hp => ?_
  by_cases hy : y < h.size
  · rw [Par, m.ext.parent y hy] at hp
    exact m.fresh hf (hf.made p y hp).1
  · exfalso
    have := (m.forest.made p y hp).2
    simp only [alloc] at this
    have hyy : y = h.size := by omega
    have hr := m.root
    simp only [alloc] at hr
    rw [Par, hyy] at hp
    simp only [alloc] at hp
    rw [hr] at hp
    cases hp

/-- A new name and attributes for an element. -/
theorem relabel_forest {h : Dom} (hf : Forest h) (v : ℕ) (n : String) (a : Attrs) :
    Forest { h with lbl := Function.update h.lbl v (.tag n a) } where
  child := hf.child
  nodup := hf.nodup
  acyclic := hf.acyclic
  made := hf.made
  text p s hp := by
    simp only [Function.update_apply] at hp
    split at hp
    · simp at hp
    · exact hf.text p s hp

/-- Several things moved to the end of an element. -/
theorem appendAll {v : ℕ} (l : List ℕ) {h : Dom} (hf : Forest h) (hv : v < h.size)
    (ht : ∀ s, h.lbl v ≠ .text s) (hn : l.Nodup) (hl : ∀ x ∈ l, x < h.size ∧ ¬ Within h v x) :
    let h' := l.foldl (fun h c => (h.append v c).1) h
    Forest h' ∧ h'.lbl = h.lbl ∧ h'.size = h.size ∧ h'.kids v = (h.kids v).filter (· ∉ l) ++ l ∧
    (∀ q, q ≠ v → h'.kids q = (h.kids q).filter (· ∉ l)) ∧
    ∀ z, h'.parent z = if z ∈ l then some v else h.parent z := by
  induction l generalizing h with
  | nil => simp [hf]
  | cons x r ih =>
    obtain ⟨hx, hr⟩ := List.nodup_cons.1 hn
    have hxs := hl x (by simp)
    obtain ⟨m, _⟩ := append_moved hf hv hxs.1 ht hxs.2
    have := ih m.forest (by rw [m.size]; exact hv) (by rw [m.lbl]; exact ht) hr (fun y hy => by
      rw [m.size]
      refine ⟨(hl y (by simp [hy])).1, fun hi => ?_⟩
      rcases inside_back (fun a b hab => ((m.par a b).1 hab).imp (·.2) id) hi with hi | ⟨hi, _⟩
      · exact (hl y (by simp [hy])).2 hi
      · exact hxs.2 hi)
    simp only [List.foldl_cons]
    obtain ⟨i1, i2, i3, i4, i5, i6⟩ := this
    refine ⟨i1, i2.trans m.lbl, i3.trans m.size, ?_, fun q hq => ?_, fun z => ?_⟩
    · rw [i4, m.here, List.filter_append, List.filter_filter]
      rw [List.filter_cons_of_pos (by simpa using hx)]
      simp only [List.filter_nil, List.append_assoc, List.singleton_append]
      congr 1
      apply List.filter_congr
      intro z _
      rw [Bool.eq_iff_iff]
      simp; tauto
    · rw [i5 q hq, m.there q hq, List.filter_filter]
      apply List.filter_congr
      intro z _
      rw [Bool.eq_iff_iff]
      simp; tauto
    · rw [i6, m.parent]
      by_cases h1 : z ∈ r <;> by_cases h2 : z = x <;> simp [h1, h2]

/-- What setting a value comes to. -/
theorem rewrite_spec {h : Dom} (hf : Forest h) {v : ℕ} (hv : v < h.size) (n : String) (a : Attrs)
    (ks : List Node) :
    Forest (h.rewrite v n a ks) ∧ (h.rewrite v n a ks).node v = .tag n a ks ∧
    (h.rewrite v n a ks).lbl v = .tag n a ∧
    h.size ≤ (h.rewrite v n a ks).size ∧
    (∀ q, q < h.size → q ≠ v → (h.rewrite v n a ks).kids q = h.kids q ∧
      (h.rewrite v n a ks).lbl q = h.lbl q) ∧
    (∀ z ∈ (h.rewrite v n a ks).kids v, h.size ≤ z) ∧
    ∀ z, z < h.size → (h.rewrite v n a ks).parent z = if h.parent z = some v then none else h.parent z := by
  obtain ⟨c1, c2, c3, c4, c5, c6⟩ := clear_spec hf v
  have hf1 := relabel_forest c1 v n a
  have mk := allocAll_made hf1 ks
  set h1 : Dom := { h.clear v with lbl := Function.update (h.clear v).lbl v (.tag n a) } with hh1
  set r := h1.allocAll ks with hr
  have s1 : h1.size = h.size := c3
  have hv1 : v < h1.size := by rw [s1]; exact hv
  have lv : r.1.lbl v = .tag n a := by rw [mk.ext.lbl v hv1]; simp [hh1]
  have up : ∀ z, Within r.1 v z → z < h1.size := by
    intro z hz
    induction hz with
    | refl => exact hv1
    | tail _ hbc ih =>
      rw [Par, mk.ext.parent _ ih] at hbc
      exact (hf1.made _ _ hbc).1
  obtain ⟨i1, i2, i3, i4, i5, i6⟩ := appendAll (v := v) r.2 mk.forest (hv1.trans_le mk.ext.size)
    (by rw [lv]; simp) mk.nodup (fun x hx => ⟨(mk.new x hx).2, fun hi => by
      have a := up x hi
      have b := (mk.new x hx).1
      omega⟩)
  have e : h.rewrite v n a ks = r.2.foldl (fun h c => (h.append v c).1) r.1 := rfl
  rw [← e] at i1 i2 i3 i4 i5 i6
  have kv : (h.rewrite v n a ks).kids v = r.2 := by
    rw [i4, mk.ext.kids v hv1]
    show List.filter _ ((h.clear v).kids v) ++ _ = _
    rw [c4]; rfl
  have keep : ∀ q, q ≠ v → (h.rewrite v n a ks).kids q = r.1.kids q := by
    intro q hq
    rw [i5 q hq]
    apply List.filter_eq_self.2
    intro z hz
    have hzp := (mk.forest.child q z).1 hz
    have : z ∉ r.2 := fun hm => by
      have := mk.root z hm
      rw [Par, this] at hzp
      cases hzp
    simpa using this
  refine ⟨i1, ?_, by rw [i2, lv], ?_, fun q hq hqv => ⟨?_, ?_⟩, ?_, fun z hz => ?_⟩
  · rw [node_tag i1 (by rw [i2, lv]), kv]
    congr 1
    refine Eq.trans ?_ mk.node
    apply List.map_congr_left
    intro x hx
    refine node_congr mk.forest i1 x fun z hz => ⟨?_, by rw [i2]⟩
    apply keep
    rintro rfl
    have a := up x hz
    have b := (mk.new x hx).1
    omega
  · rw [i3]; have := mk.ext.size; omega
  · rw [keep q hqv, mk.ext.kids q (by omega)]
    exact c5 q hqv
  · rw [i2, mk.ext.lbl q (by omega)]
    show Function.update (h.clear v).lbl v _ q = _
    rw [Function.update_of_ne hqv, c2]
  · rw [kv]
    intro z hz
    have := (mk.new z hz).1
    omega
  · rw [i6, if_neg, mk.ext.parent z (by omega)]
    · exact c6 z
    · intro hm
      have := (mk.new z hm).1
      omega

end Dom

end Sang
