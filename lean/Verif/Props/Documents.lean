import Verif.Props.DomNode
import Verif.Spec.Documents

/-!
# C143, C144: what a change in memory changes
-/

namespace Sang
open Dom Spec Relation

namespace Dom

/-- `S` has nothing to do with the rest. -/
structure Aside (S : ℕ → Prop) (h : Dom) : Prop where
  up : ∀ z p, ¬ S z → h.parent z = some p → ¬ S p
  down : ∀ p c, ¬ S p → c ∈ h.kids p → ¬ S c

/-- `S` is as it was, and still has nothing to do with the rest. -/
structure Keeps (S : ℕ → Prop) (h h' : Dom) : Prop where
  kids : ∀ z, S z → h'.kids z = h.kids z
  lbl : ∀ z, S z → h'.lbl z = h.lbl z
  parent : ∀ z, S z → h'.parent z = h.parent z
  apart : Aside S h'
  size : h.size ≤ h'.size

variable {S : ℕ → Prop}

theorem Keeps.refl {h : Dom} (ha : Aside S h) : Keeps S h h :=
  ⟨fun _ _ => rfl, fun _ _ => rfl, fun _ _ => rfl, ha, le_rfl⟩

theorem Keeps.trans {h h' h'' : Dom} (a : Keeps S h h') (b : Keeps S h' h'') : Keeps S h h'' :=
  ⟨fun z hz => (b.kids z hz).trans (a.kids z hz), fun z hz => (b.lbl z hz).trans (a.lbl z hz),
    fun z hz => (b.parent z hz).trans (a.parent z hz), b.apart, a.size.trans b.size⟩

theorem keeps_extract {h : Dom} (ha : Aside S h) {x : ℕ} (hx : ¬ S x) : Keeps S h (h.extract x) := by
  unfold extract
  cases e : h.parent x with
  | none => exact .refl ha
  | some p =>
    have hp := ha.up x p hx e
    refine ⟨fun z hz => ?_, fun _ _ => rfl, fun z hz => ?_, ⟨fun z q hz hq => ?_,
      fun q c hq hc => ?_⟩, le_rfl⟩
    · simp only [Function.update_apply]
      rw [if_neg (by rintro rfl; exact hp hz)]
    · simp only [Function.update_apply]
      rw [if_neg (by rintro rfl; exact hx hz)]
    · simp only [Function.update_apply] at hq
      split at hq
      · cases hq
      · exact ha.up z q hz hq
    · simp only [Function.update_apply] at hc
      split at hc
      · next e => subst e; exact ha.down _ c hq (List.mem_of_mem_erase hc)
      · exact ha.down q c hq hc

theorem keeps_insert {h : Dom} (ha : Aside S h) {p pos x : ℕ} (hp : ¬ S p) (hx : ¬ S x) :
    Keeps S h (h.insert p pos x).1 := by
  unfold Dom.insert
  split
  · exact .refl ha
  · have k := keeps_extract ha hx
    refine k.trans ⟨fun z hz => ?_, fun _ _ => rfl, fun z hz => ?_, ⟨fun z q hz hq => ?_,
      fun q c hq hc => ?_⟩, le_rfl⟩
    · simp only [Function.update_apply]
      rw [if_neg (by rintro rfl; exact hp hz)]
    · simp only [Function.update_apply]
      rw [if_neg (by rintro rfl; exact hx hz)]
    · simp only [Function.update_apply] at hq
      split at hq
      · cases hq; exact hp
      · exact k.apart.up z q hz hq
    · simp only [Function.update_apply] at hc
      split at hc
      · next e =>
        subst e
        rcases List.eq_or_mem_of_mem_insertIdx hc with e | e
        · subst e; exact hx
        · exact k.apart.down _ c hq e
      · exact k.apart.down q c hq hc

theorem keeps_insertBefore {h : Dom} (ha : Aside S h) {y x : ℕ} (hy : ¬ S y) (hx : ¬ S x) :
    Keeps S h (h.insertBefore y x).1 := by
  unfold insertBefore
  cases e : h.parent y with
  | none => exact .refl ha
  | some p =>
    simp only
    split
    · exact .refl ha
    · have k := keeps_extract ha hx
      exact k.trans (keeps_insert k.apart (ha.up y p hy e) hx)

theorem keeps_insertAfter {h : Dom} (ha : Aside S h) {y x : ℕ} (hy : ¬ S y) (hx : ¬ S x) :
    Keeps S h (h.insertAfter y x).1 := by
  unfold insertAfter
  cases e : h.parent y with
  | none => exact .refl ha
  | some p =>
    simp only
    split
    · exact .refl ha
    · have k := keeps_extract ha hx
      exact k.trans (keeps_insert k.apart (ha.up y p hy e) hx)

theorem keeps_replaceWith {h : Dom} (ha : Aside S h) {y x : ℕ} (hy : ¬ S y) (hx : ¬ S x) :
    Keeps S h (h.replaceWith y x).1 := by
  unfold replaceWith
  cases e : h.parent y with
  | none => exact .refl ha
  | some p =>
    simp only
    split
    · exact .refl ha
    · split
      · exact .refl ha
      · have k := keeps_extract ha hy
        exact k.trans (keeps_insert k.apart (ha.up y p hy e) hx)

theorem keeps_clear {h : Dom} (ha : Aside S h) {v : ℕ} (hv : ¬ S v) : Keeps S h (h.clear v) := by
  unfold clear
  have : ∀ (l : List ℕ), (∀ c ∈ l, ¬ S c) → ∀ h : Dom, Aside S h →
      Keeps S h (l.foldl (fun h c => h.extract c) h) := by
    intro l
    induction l with
    | nil => intro _ h ha; exact .refl ha
    | cons c r ih =>
      intro hl h ha
      have k := keeps_extract ha (hl c (by simp))
      exact k.trans (ih (fun c hc => hl c (by simp [hc])) _ k.apart)
  exact this _ (fun c hc => ha.down v c hv hc) h ha

/-- New objects are outside whatever there was. -/
theorem keeps_ext {h h' : Dom} (hf : Forest h) (hf' : Forest h') (e : Ext h h') (ha : Aside S h)
    (hS : ∀ z, S z → z < h.size) : Keeps S h h' := by
  refine ⟨fun z hz => e.kids z (hS z hz), fun z hz => e.lbl z (hS z hz), fun z hz => e.parent z (hS z hz),
    ⟨fun z p hz hp hS' => ?_, fun p c hp hc hS' => ?_⟩, e.size⟩
  · have hm := (hf'.child p z).2 hp
    rw [e.kids p (hS p hS')] at hm
    exact ha.up z p hz ((hf.child p z).1 hm) hS'
  · have hm : h'.parent c = some p := (hf'.child p c).1 hc
    rw [e.parent c (hS c hS')] at hm
    exact ha.down p c hp ((hf.child p c).2 hm) hS'

theorem keeps_newlineAfter {h : Dom} (ha : Aside S h) (hS : ∀ z, S z → z < h.size) {y : ℕ} (hy : ¬ S y) :
    Keeps S h (h.newlineAfter y).1 := by
  have hn : ¬ S h.size := fun hs => absurd (hS _ hs) (by omega)
  have k : Keeps S h (h.alloc (.text ['\n'])).1 := by
    refine ⟨fun _ _ => rfl, fun z hz => ?_, fun _ _ => rfl, ⟨ha.up, ha.down⟩,
      Nat.le_succ _⟩
    simp only [alloc, Function.update_apply]
    rw [if_neg (by rintro rfl; exact hn hz)]
  exact k.trans (keeps_insertAfter k.apart hy hn)

theorem keeps_appendAll {v : ℕ} (hv : ¬ S v) : ∀ (l : List ℕ), (∀ c ∈ l, ¬ S c) → ∀ h : Dom, Aside S h →
    Keeps S h (l.foldl (fun h c => (h.append v c).1) h) := by
  intro l
  induction l with
  | nil => intro _ h ha; exact .refl ha
  | cons c r ih =>
    intro hl h ha
    have k : Keeps S h (h.append v c).1 := keeps_insert ha hv (hl c (by simp))
    exact k.trans (ih (fun c hc => hl c (by simp [hc])) _ k.apart)

theorem keeps_rewrite {h : Dom} (hf : Forest h) (ha : Aside S h) (hS : ∀ z, S z → z < h.size) {v : ℕ}
    (hv : ¬ S v) (n : String) (a : Attrs) (ks : List Node) : Keeps S h (h.rewrite v n a ks) := by
  obtain ⟨c1, c2, c3, c4, c5, c6⟩ := clear_spec hf v
  have k1 := keeps_clear ha hv
  have hf1 := relabel_forest c1 v n a
  have mk := allocAll_made hf1 ks
  set h1 : Dom := { h.clear v with lbl := Function.update (h.clear v).lbl v (.tag n a) } with hh1
  have k2 : Keeps S (h.clear v) h1 := by
    refine ⟨fun _ _ => rfl, fun z hz => ?_, fun _ _ => rfl, ⟨k1.apart.up, k1.apart.down⟩, le_rfl⟩
    simp only [hh1, Function.update_apply]
    rw [if_neg (by rintro rfl; exact hv hz)]
  have s1 : h1.size = h.size := c3
  have k3 := keeps_ext hf1 mk.forest mk.ext k2.apart (fun z hz => by rw [s1]; exact hS z hz)
  refine k1.trans (k2.trans (k3.trans (keeps_appendAll hv _ (fun c hc hs => ?_) _ k3.apart)))
  have := (mk.new c hc).1
  have := hS c hs
  omega

theorem keeps_unanimate {h : Dom} (hf : Forest h) (ha : Aside S h) (hS : ∀ z, S z → z < h.size) {v : ℕ}
    (hv : ¬ S v) (m : Node) : Keeps S h (h.unanimate v m).1.1 := by
  obtain ⟨c1, c2, c3, c4, c5, c6⟩ := clear_spec hf v
  have k1 := keeps_clear ha hv
  have mk := alloc_made c1 m
  have k2 := keeps_ext c1 mk.forest mk.ext k1.apart (fun z hz => by rw [c3]; exact hS z hz)
  have hn : ¬ S ((h.clear v).alloc m).2 := fun hs => by
    have := mk.new
    have := hS _ hs
    omega
  have k3 := keeps_replaceWith k2.apart hv hn
  have k := k1.trans (k2.trans k3)
  rw [Dom.unanimate]
  cases he : ((h.clear v).alloc m).1.replaceWith v ((h.clear v).alloc m).2 with
  | mk h3 r =>
    rw [he] at k
    cases r <;> exact k

end Dom

/-- What is in a document is apart from everything else. -/
theorem apart_document {h : Dom} (hf : Forest h) {d : ℕ} (hd : h.parent d = none) :
    Aside (fun z => Within h z d) h := by
  refine ⟨fun z p hz hp hw => hz (ReflTransGen.head hp hw), fun p c hp hc hw => ?_⟩
  have hcp := (hf.child p c).1 hc
  rcases ReflTransGen.cases_head hw with rfl | ⟨q, hq, hqd⟩
  · rw [Par, hd] at hcp; cases hcp
  · rw [← par_unique hcp hq] at hqd
    exact hp hqd

/-- What is inside something outside a document is outside it. -/
theorem outside_inside {h : Dom} {d x y : ℕ} (hd : h.parent d = none) (hx : ¬ Within h x d)
    (hy : Within h y x) : ¬ Within h y d := by
  intro hw
  rcases inside_total hy hw with e | e
  · exact hx e
  · rcases ReflTransGen.cases_head e with rfl | ⟨q, hq, _⟩
    · exact hx .refl
    · rw [Par, hd] at hq; cases hq

theorem keeps_step {h : Dom} (hf : Forest h) {d : ℕ} (hds : d < h.size) (hd : h.parent d = none) {o : DOp}
    (hout : ∀ z ∈ given o, ¬ Within h z d) : Keeps (fun z => Within h z d) h (run o h) := by
  have ha := apart_document hf hd
  have hS : ∀ z, Within h z d → z < h.size := fun z hz => inside_made hf hz hds
  cases o with
  | make n =>
    have mk := alloc_made hf n
    exact keeps_ext hf mk.forest mk.ext ha hS
  | append k g x =>
    have hg := hout g (by simp [given])
    have hx := hout x (by simp [given])
    show Keeps _ h (h.groupAppend k g x).1
    rw [Dom.groupAppend]
    cases hc : h.canvas k g with
    | error e => exact .refl ha
    | ok c =>
      cases c with
      | none => exact .refl ha
      | some c =>
        have hcd := outside_inside hd hg (canvas_inside hf hc)
        simp only
        cases hy : (h.kids c).find? fun y => isLayer (h.bare y) with
        | none => exact keeps_insert ha hcd hx
        | some y => exact keeps_insertBefore ha (ha.down c y hcd (List.mem_of_find?_eq_some hy)) hx
  | insert k g i x =>
    have hg := hout g (by simp [given])
    have hx := hout x (by simp [given])
    show Keeps _ h (h.groupInsert k g i x).1
    rw [Dom.groupInsert]
    cases hl : h.children k g with
    | error e => exact .refl ha
    | ok l =>
      simp only
      cases hi : pyIndex l i with
      | error e => exact .refl ha
      | ok y =>
        have hy : ¬ Within h y d := by
          cases hc : h.canvas k g with
          | error e => rw [Dom.children, hc] at hl; cases hl
          | ok c =>
            cases c with
            | none => rw [Dom.children, hc] at hl; cases hl
            | some c =>
              obtain ⟨hl', _⟩ := (children_iff hc l).1 hl
              have hyl : y ∈ l := pyIndex_mem hi
              rw [hl', List.mem_reverse, layersOf_eq, List.mem_filter] at hyl
              exact ha.down c y (outside_inside hd hg (canvas_inside hf hc)) hyl.1
        simp only
        have k1 := keeps_newlineAfter ha hS hy
        cases e1 : h.newlineAfter y with
        | mk h1 r1 =>
          rw [e1] at k1
          cases r1 with
          | error e => exact k1
          | ok u =>
            simp only
            have k2 := keeps_insertAfter k1.apart hy hx
            cases e2 : h1.insertAfter y x with
            | mk h2 r2 =>
              rw [e2] at k2
              cases r2 with
              | error e => exact k1.trans k2
              | ok u =>
                have s1 := k1.size
                have s2 := k2.size
                exact k1.trans (k2.trans (keeps_newlineAfter k2.apart
                  (fun z hz => ((hS z hz).trans_le s1).trans_le s2) hy))
  | assign a f v =>
    have hga := hout a (by simp [given])
    have hv := hout v.2 (by simp [given])
    show Keeps _ h (h.setItem a f v).1
    rw [Dom.setItem]
    cases hg : h.getItem a f with
    | error e => exact .refl ha
    | ok r =>
      obtain ⟨c, old⟩ := r
      obtain ⟨p, hp, hkp, _⟩ := getItem_iff.1 hg
      have hpd := outside_inside hd hga ((find_iff hf _ _ _).1 hp).1.to_reflTransGen
      simp only
      split
      · exact keeps_replaceWith ha (ha.down p old hpd (filter_single hkp).1) hv
      · exact .refl ha
  | plain F a f x =>
    have hga := hout a (by simp [given])
    show Keeps _ h (h.setPlain F a f x).1
    rw [setPlain]
    cases hg : h.getItem a f with
    | error e => exact .refl ha
    | ok r =>
      obtain ⟨c, old⟩ := r
      obtain ⟨p, hp, hkp, _⟩ := getItem_iff.1 hg
      have hpd := outside_inside hd hga ((find_iff hf _ _ _).1 hp).1.to_reflTransGen
      simp only
      cases hn : newValue F c x with
      | error e => exact .refl ha
      | ok m =>
        have mk := alloc_made hf m
        have k := keeps_ext hf mk.forest mk.ext ha hS
        refine k.trans (keeps_replaceWith k.apart (ha.down p old hpd (filter_single hkp).1) fun hs => ?_)
        have := mk.new
        have := hS _ hs
        omega
  | set v n a ks => exact keeps_rewrite hf ha hS (hout v (by simp [given])) n a ks
  | unanimate v m => exact keeps_unanimate hf ha hS (hout v (by simp [given])) m

/-- What is in a document is what was in it, if its parts have the contents they had. -/
theorem keeps_within {h h' : Dom} (hf : Forest h) (hf' : Forest h') {d : ℕ}
    (k : Keeps (fun z => Within h z d) h h') (z : ℕ) : Within h' z d ↔ Within h z d := by
  constructor
  · intro hw
    induction hw using ReflTransGen.head_induction_on with
    | refl => exact .refl
    | @head a b hab _ ih =>
      have := (hf'.child b a).2 hab
      rw [k.kids b ih] at this
      exact ReflTransGen.head ((hf.child b a).1 this) ih
  · intro hw
    induction hw using ReflTransGen.head_induction_on with
    | refl => exact .refl
    | @head a b hab hb ih =>
      exact ReflTransGen.head (by rw [Par, k.parent a (ReflTransGen.head hab hb)]; exact hab) ih

/-- C143. Whatever program works on things that aren't in a document -- other documents, layers and values
not in any document -- whatever it puts where, and whichever of its statements raise exceptions: the
document, and everything in it, looks as it did; and what is in it is what was in it. -/
theorem c143_other_documents {h : Dom} (hr : Reached h) {d : ℕ} (hds : d < h.size)
    (hd : h.parent d = none) {os : List DOp} (hp : ProperAll h os)
    (hout : ∀ o ∈ os, ∀ z ∈ given o, ¬ Within h z d) :
    (runAll os h).parent d = none ∧
      ∀ z, (Within (runAll os h) z d ↔ Within h z d) ∧
        (Within h z d → (runAll os h).node z = h.node z ∧ (runAll os h).kids z = h.kids z) := by
  have hf : Forest h := by
    clear hd hds hout hp
    induction hr with
    | start => exact forest_empty
    | step _ hp ih => exact step_forest ih hp
  clear hr
  induction os generalizing h with
  | nil => exact ⟨hd, fun z => ⟨.rfl, fun _ => ⟨rfl, rfl⟩⟩⟩
  | cons o r ih =>
    have k := keeps_step hf hds hd (hout o (by simp))
    have hf' := step_forest hf hp.1
    have hw := keeps_within hf hf' k
    obtain ⟨i1, i2⟩ := ih (h := run o h) (hds.trans_le k.size) (by rw [k.parent d .refl]; exact hd) hp.2
      (fun o' ho z hz => by rw [hw]; exact hout o' (by simp [ho]) z hz) hf'
    refine ⟨i1, fun z => ⟨(i2 z).1.trans (hw z), fun hz => ?_⟩⟩
    obtain ⟨j1, j2⟩ := (i2 z).2 ((hw z).2 hz)
    refine ⟨j1.trans (node_congr hf hf' z fun y hy => ?_), j2.trans (k.kids z hz)⟩
    exact ⟨k.kids y (ReflTransGen.trans hy hz), k.lbl y (ReflTransGen.trans hy hz)⟩

/-! ## C144 -/

/-- Above a place where something has been swapped. -/
theorem swapped_up {h h' : Dom} (hf : Forest h) (hf' : Forest h') {b : ℕ} {X Y : Node}
    (base : Swapped X Y (h.node b) (h'.node b))
    (hs : ∀ q, q < h.size → ¬ Within h q b → h'.kids q = h.kids q ∧ h'.lbl q = h.lbl q) {x : ℕ}
    (hx : Within h b x) : Swapped X Y (h.node x) (h'.node x) := by
  induction hx with
  | refl => exact base
  | @tail c e hbc hce ih =>
    have hes := (hf.made e c hce).1
    have heb : ¬ Within h e b := fun hi => hf.acyclic e (TransGen.tail' (hi.trans hbc) hce)
    obtain ⟨k1, l1⟩ := hs e hes heb
    obtain ⟨A, B, hk⟩ := List.append_of_mem ((hf.child e c).2 hce)
    have hn := hf.nodup e
    have same : ∀ z ∈ h.kids e, z ≠ c → h'.node z = h.node z := by
      intro z hz hzc
      have hze := (hf.child e z).1 hz
      refine node_congr hf hf' z fun y hy => hs y (inside_made hf hy (hf.made e z hze).2) fun hyb => ?_
      exact inside_siblings hf hze hce hzc hy (hyb.trans hbc)
    have hA : ∀ z ∈ A, z ≠ c := by
      rintro z hz rfl
      rw [hk] at hn
      exact (List.nodup_append.1 hn).2.2 z hz z (by simp) rfl
    have hB : ∀ z ∈ B, z ≠ c := by
      rintro z hz rfl
      rw [hk] at hn
      exact (List.nodup_cons.1 (List.nodup_append.1 hn).2.1).1 hz
    cases el : h.lbl e with
    | text s => rw [hf.text e s el] at hk; simp at hk
    | tag n a =>
      rw [node_tag hf el, node_tag hf' (l1.trans el), k1, hk, List.map_append, List.map_cons,
        List.map_append, List.map_cons,
        List.map_congr_left (f := h'.node) (g := h.node) (l := A)
          fun z hz => same z (by rw [hk]; simp [hz]) (hA z hz),
        List.map_congr_left (f := h'.node) (g := h.node) (l := B)
          fun z hz => same z (by rw [hk]; simp [hz]) (hB z hz)]
      exact .inside ih

/-- C144. Setting or animating a value, or changing its timeline, in memory: its element becomes what it
should; everything it is in looks as it did, with the new where the old was; and everything else looks as
it did. -/
theorem c144_set {h : Dom} (hf : Forest h) {v : ℕ} (hv : v < h.size) (n : String) (a : Attrs)
    (ks : List Node) :
    (∀ b, Within h v b → Swapped (h.node v) (.tag n a ks) (h.node b) ((h.rewrite v n a ks).node b)) ∧
      ∀ b, b < h.size → ¬ Within h v b → (h.rewrite v n a ks).node b = h.node b := by
  obtain ⟨r1, r2, r3, r4, r5, r6, r7⟩ := rewrite_spec hf hv n a ks
  refine ⟨fun b hb => ?_, fun b hbs hb => ?_⟩
  · refine swapped_up hf r1 (b := v) (by rw [r2]; exact .here) (fun q hq hqv => ?_) hb
    exact r5 q hq fun e => hqv (e ▸ .refl)
  · exact node_congr hf r1 b fun z hz => r5 z (inside_made hf hz hbs) fun e => hb (e ▸ hz)

/-- What is replaced by something which isn't in any document. -/
theorem replace_swapped {h : Dom} (hf : Forest h) {p x y : ℕ} (hy : Par h y p) (hxs : x < h.size)
    (hr : h.parent x = none) (hin : ¬ Within h p x) :
    ∃ h', h.replaceWith y x = (h', .ok ()) ∧ Forest h' ∧ h'.node x = h.node x ∧
      (∀ b, Within h y b → b ≠ y → Swapped (h.node y) (h.node x) (h.node b) (h'.node b)) ∧
      ∀ b, b < h.size → ¬ (Within h y b ∧ b ≠ y) → h'.node b = h.node b := by
  have hxy : x ≠ y := by rintro rfl; rw [Par, hr] at hy; cases hy
  obtain ⟨A, B, hk⟩ := List.append_of_mem ((hf.child p y).2 hy)
  obtain ⟨m, e⟩ := replaced hf hy hxy hxs hin hk
  have hnot : ∀ q, x ∉ h.kids q := fun q hm => by
    have := (hf.child q x).1 hm
    rw [Par, hr] at this; cases this
  have hnA : x ∉ A := fun hm => hnot p (by rw [hk]; simp [hm])
  have hnB : x ∉ B := fun hm => hnot p (by rw [hk]; simp [hm])
  have hyp : y ≠ p := by rintro rfl; exact hf.acyclic y (.single hy)
  have other : ∀ q, q ≠ p → (h.replaceWith y x).1.kids q = h.kids q ∧
      (h.replaceWith y x).1.lbl q = h.lbl q := fun q hq =>
    ⟨by rw [m.there q hq, filter_ne_self (hnot q)], by rw [m.lbl]⟩
  have hnx := m.node_new hf hin
  have base : Swapped (h.node y) (h.node x) (h.node p) ((h.replaceWith y x).1.node p) := by
    have hn := hf.nodup p
    have same : ∀ z ∈ h.kids p, (h.replaceWith y x).1.node z = h.node z := by
      intro z hz
      have hzp := (hf.child p z).1 hz
      exact node_congr hf m.forest z fun w hw => other w (by
        rintro rfl; exact hf.acyclic w (TransGen.tail' hw hzp))
    cases el : h.lbl p with
    | text s => rw [hf.text p s el] at hk; simp at hk
    | tag n a =>
      rw [node_tag hf el, node_tag m.forest (by rw [m.lbl]; exact el), m.here, filter_ne_self hnA,
        filter_ne_self hnB, hk, List.map_append, List.map_cons, List.map_append, List.map_cons, hnx,
        List.map_congr_left (f := (h.replaceWith y x).1.node) (g := h.node) (l := A)
          fun z hz => same z (by rw [hk]; simp [hz]),
        List.map_congr_left (f := (h.replaceWith y x).1.node) (g := h.node) (l := B)
          fun z hz => same z (by rw [hk]; simp [hz])]
      exact .inside .here
  have up : ∀ b, Within h y b → b ≠ y → Within h p b := by
    intro b hb hne
    rcases ReflTransGen.cases_head hb with e | ⟨d, hd, hdb⟩
    · exact absurd e.symm hne
    · rw [par_unique hy hd]; exact hdb
  refine ⟨_, Prod.ext rfl e, m.forest, hnx, fun b hb hne => ?_, fun b hbs hb => ?_⟩
  · exact swapped_up hf m.forest base (fun q _ hqp => other q fun e => hqp (e ▸ .refl)) (up b hb hne)
  · refine node_congr hf m.forest b fun z hz => other z ?_
    rintro rfl
    refine hb ⟨ReflTransGen.head hy hz, ?_⟩
    rintro rfl
    exact hf.acyclic b (TransGen.head' hy hz)

/-- C144, assigning to a layer's subscript: a value object whose element isn't in any document. -/
theorem c144_assign_object {h : Dom} (hf : Forest h) {a : ℕ} {f : Str} {c : VCls} {old v : ℕ}
    (ha : h.getItem a f = .ok (c, old)) (hv : v < h.size) (hr : h.parent v = none)
    (hav : ¬ Within h a v) :
    ∃ h', h.setItem a f (c, v) = (h', .ok ()) ∧ h'.node v = h.node v ∧
      (∀ b, Within h old b → b ≠ old → Swapped (h.node old) (h.node v) (h.node b) (h'.node b)) ∧
      ∀ b, b < h.size → ¬ (Within h old b ∧ b ≠ old) → h'.node b = h.node b := by
  obtain ⟨p, hp, hkp, _⟩ := getItem_iff.1 ha
  have hop := (hf.child p old).1 (filter_single hkp).1
  have hpa := ((find_iff hf _ _ _).1 hp).1.to_reflTransGen
  have hpv : ¬ Within h p v := fun hi => by
    rcases inside_total hpa hi with h1 | h1
    · exact hav h1
    · rcases ReflTransGen.cases_head h1 with e | ⟨d, hd, _⟩
      · exact hav (e ▸ .refl)
      · rw [Par, hr] at hd; cases hd
  obtain ⟨h', e, _, i2, i3, i4⟩ := replace_swapped hf hop hv hr hpv
  refine ⟨h', ?_, i2, i3, i4⟩
  rw [Dom.setItem, ha]
  simp only [if_true]
  exact e

/-- C144, assigning anything else to a layer's subscript. -/
theorem c144_assign_plain {h : Dom} (hf : Forest h) (F : Fl) {a : ℕ} {f : Str} {c : VCls} {old : ℕ}
    (ha : h.getItem a f = .ok (c, old)) {x : PV} {m : Node} (hm : newValue F c x = .ok m) :
    ∃ h', h.setPlain F a f x = (h', .ok ()) ∧
      (∀ b, Within h old b → b ≠ old → Swapped (h.node old) m (h.node b) (h'.node b)) ∧
      ∀ b, b < h.size → ¬ (Within h old b ∧ b ≠ old) → h'.node b = h.node b := by
  obtain ⟨p, hp, hkp, _⟩ := getItem_iff.1 ha
  have hop := (hf.child p old).1 (filter_single hkp).1
  have hps := (hf.made p old hop).1
  have mk := alloc_made hf m
  have hos := (hf.made p old hop).2
  have hin : ∀ b, b < h.size → (Within (h.alloc m).1 old b ↔ Within h old b) := fun b hb =>
    mk.ext.inside hf mk.forest hb
  have hop' : Par (h.alloc m).1 old p := by rw [Par, mk.ext.parent old hos]; exact hop
  obtain ⟨h', e, _, i2, i3, i4⟩ := replace_swapped mk.forest hop' mk.size mk.root (mk.fresh hf hps)
  refine ⟨h', ?_, fun b hb hne => ?_, fun b hbs hb => ?_⟩
  · rw [setPlain, ha]
    simp only [hm]
    exact e
  · have hbs : b < h.size := by
      rcases ReflTransGen.cases_tail hb with e | ⟨d, _, hd⟩
      · rw [e]; exact hos
      · exact (hf.made _ _ hd).1
    have := i3 b ((hin b hbs).2 hb) hne
    rwa [mk.node, mk.ext.node hf mk.forest hos, mk.ext.node hf mk.forest hbs] at this
  · rw [i4 b (hbs.trans_le mk.ext.size) fun hh => hb ⟨(hin b hbs).1 hh.1, hh.2⟩, mk.ext.node hf mk.forest hbs]

/-- C144, un-animating a value which is in a document or in anything else. (For one
that isn't it raises `ValueError`.) -/
theorem c144_unanimate {h : Dom} (hf : Forest h) {v p : ℕ} (hv : Par h v p) (m : Node) :
    ∃ h' v', h.unanimate v m = ((h', v'), .ok ()) ∧ h'.node v' = m ∧ h'.parent v' = some p ∧
      (∀ b, Within h v b → b ≠ v → Swapped (h.node v) m (h.node b) (h'.node b)) ∧
      ∀ b, b < h.size → ¬ Within h v b → h'.node b = h.node b := by
  obtain ⟨c1, c2, c3, c4, c5, c6⟩ := clear_spec hf v
  have hvp : v ≠ p := by rintro rfl; exact hf.acyclic v (.single hv)
  have hps := (hf.made p v hv).1
  have hvs := (hf.made p v hv).2
  have mk := alloc_made c1 m
  set r := (h.clear v).alloc m with hr
  have hv1 : Par r.1 v p := by
    rw [Par, mk.ext.parent v (by rw [c3]; exact hvs), c6, if_neg]
    · exact hv
    · intro e
      exact hvp (Option.some.inj (e.symm.trans hv)).symm.symm
  obtain ⟨A, B, hAB⟩ := List.append_of_mem ((hf.child p v).2 hv)
  have hAB' : r.1.kids p = A ++ v :: B := by
    rw [mk.ext.kids p (by rw [c3]; exact hps), c5 p hvp.symm, hAB]
  have hnv : r.2 ≠ v := by have := mk.new; rw [c3] at this; omega
  have hpr := mk.fresh c1 (show p < (h.clear v).size by rw [c3]; exact hps)
  obtain ⟨mr, e⟩ := replaced mk.forest hv1 hnv mk.size hpr hAB'
  have hold : ∀ z ∈ h.kids p, z < h.size := fun z hz => (hf.made p z ((hf.child p z).1 hz)).2
  have hnA : r.2 ∉ A := fun hm => by
    have := hold r.2 (by rw [hAB]; simp [hm]); have := mk.new; rw [c3] at this; omega
  have hnB : r.2 ∉ B := fun hm => by
    have := hold r.2 (by rw [hAB]; simp [hm]); have := mk.new; rw [c3] at this; omega
  have hnode : (r.1.replaceWith v r.2).1.node r.2 = m := by
    rw [← mk.node]
    exact mr.node_new mk.forest hpr
  have hl : ∀ q, q < h.size → (r.1.replaceWith v r.2).1.lbl q = h.lbl q := fun q hq => by
    rw [mr.lbl, mk.ext.lbl q (by rw [c3]; exact hq), c2]
  have other : ∀ q, q < h.size → q ≠ p → q ≠ v → (r.1.replaceWith v r.2).1.kids q = h.kids q ∧
      (r.1.replaceWith v r.2).1.lbl q = h.lbl q := fun q hq hqp hqv => by
    refine ⟨?_, hl q hq⟩
    rw [mr.there q hqp, mk.ext.kids q (by rw [c3]; exact hq), c5 q hqv]
    refine filter_ne_self fun hm => ?_
    have := (hf.made q r.2 ((hf.child q r.2).1 hm)).2
    have := mk.new
    rw [c3] at this
    omega
  have base : Swapped (h.node v) m (h.node p) ((r.1.replaceWith v r.2).1.node p) := by
    have hn := hf.nodup p
    have same : ∀ z ∈ h.kids p, z ≠ v → (r.1.replaceWith v r.2).1.node z = h.node z := by
      intro z hz hzv
      have hzp := (hf.child p z).1 hz
      refine node_congr hf mr.forest z fun w hw => other w (inside_made hf hw (hold z hz)) ?_ ?_
      · rintro rfl; exact hf.acyclic w (TransGen.tail' hw hzp)
      · rintro rfl; exact inside_siblings hf hv hzp hzv.symm .refl hw
    have hA : ∀ z ∈ A, z ≠ v := by
      rintro z hz rfl
      rw [hAB] at hn
      exact (List.nodup_append.1 hn).2.2 z hz z (by simp) rfl
    have hB : ∀ z ∈ B, z ≠ v := by
      rintro z hz rfl
      rw [hAB] at hn
      exact (List.nodup_cons.1 (List.nodup_append.1 hn).2.1).1 hz
    cases el : h.lbl p with
    | text s => rw [hf.text p s el] at hAB; simp at hAB
    | tag n a =>
      rw [node_tag hf el, node_tag mr.forest (by rw [hl p hps]; exact el), mr.here, filter_ne_self hnA,
        filter_ne_self hnB, hAB, List.map_append, List.map_cons, List.map_append, List.map_cons, hnode,
        List.map_congr_left (f := (r.1.replaceWith v r.2).1.node) (g := h.node) (l := A)
          fun z hz => same z (by rw [hAB]; simp [hz]) (hA z hz),
        List.map_congr_left (f := (r.1.replaceWith v r.2).1.node) (g := h.node) (l := B)
          fun z hz => same z (by rw [hAB]; simp [hz]) (hB z hz)]
      exact .inside .here
  refine ⟨_, r.2, ?_, hnode, by rw [mr.parent, if_pos rfl], fun b hb hne => ?_, fun b hbs hb => ?_⟩
  · rw [Dom.unanimate]
    rw [← hr, show r.1.replaceWith v r.2 = ((r.1.replaceWith v r.2).1, .ok ()) from Prod.ext rfl e]
  · refine swapped_up hf mr.forest base (fun q hq hqp => other q hq (fun e => hqp (e ▸ .refl))
      fun e => hqp (e ▸ .single hv)) ?_
    rcases ReflTransGen.cases_head hb with e | ⟨d, hd, hdb⟩
    · exact absurd e.symm hne
    · rw [par_unique hv hd]; exact hdb
  · refine node_congr hf mr.forest b fun z hz => other z (inside_made hf hz hbs) ?_ ?_
    · rintro rfl; exact hb (ReflTransGen.head hv hz)
    · rintro rfl; exact hb hz

theorem exDom_reached : Reached exDom :=
  .step (o := .make (exLayer "text")) (.step (o := .make exDocNode) .start trivial) trivial

/-- C143 on a concrete document: another one is opened, a layer is put into it, and a value there is set;
the first document stays as it is. -/
example : (runAll [.make exDocNode, .append .animation 15 14, .set 22 "real" [] []] exDom).node 0 =
    exDom.node 0 := by
  have hf1 : Forest (run (.make exDocNode) exDom) := (alloc_made exDom_forest _).forest
  have hp : ProperAll exDom [.make exDocNode, .append .animation 15 14, .set 22 "real" [] []] := by
    refine ⟨trivial, ⟨by decide +kernel, by decide +kernel, ?_, ?_⟩,
      (by decide +kernel : 22 < (run (.append .animation 15 14) (run (.make exDocNode) exDom)).size), trivial⟩
    · intro s hs
      have : (run (.make exDocNode) exDom).lbl 15 = .tag "canvas" [] := by decide +kernel
      rw [hs] at this
      cases this
    · intro c hc
      obtain rfl : 15 = c := by simpa [Dom.canvas] using hc
      rw [within_iff hf1]
      decide +kernel
  refine ((c143_other_documents exDom_reached (d := 0) (by decide +kernel) (by decide +kernel) hp ?_).2 0).2
    .refl |>.1
  · intro o ho z hz
    refine exDom_outside ?_
    simp only [List.mem_cons, List.not_mem_nil, or_false] at ho
    rcases ho with rfl | rfl | rfl
    · simp [given] at hz
    · simp only [given, List.mem_cons, List.not_mem_nil, or_false] at hz
      rcases hz with rfl | rfl <;> decide +kernel
    · simp only [given, List.mem_cons, List.not_mem_nil, or_false] at hz
      subst hz
      decide +kernel

/-- C144 on a concrete document: the circle's depth is set; the whole document has the new element in place
of the old, and the star is as it was. -/
example : Swapped (exRealTag "1.0") (exRealTag "5.0") (exDom.node 0)
      ((exDom.rewrite 7 "real" [("value", .str "5.0".toList)] []).node 0) ∧
    (exDom.rewrite 7 "real" [("value", .str "5.0".toList)] []).node 9 = exDom.node 9 := by
  obtain ⟨h1, h2⟩ := c144_set exDom_forest (v := 7) (by decide +kernel) "real"
    [("value", .str "5.0".toList)] []
  refine ⟨?_, h2 9 (by decide +kernel) (exDom_outside (by decide +kernel))⟩
  have := h1 0 ((within_iff exDom_forest).2 (by decide +kernel))
  rwa [show exDom.node 7 = exRealTag "1.0" by decide +kernel] at this

end Sang
