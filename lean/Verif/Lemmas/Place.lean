import Verif.Program
import Verif.Spec.Program
import Verif.Lemmas.Layer
import Verif.Props.Find

/-!
# Lemmas about places
-/

namespace Sang

open Spec

theorem nodeAt_append (p q : List ℕ) (d : Node) :
    nodeAt (p ++ q) d = (nodeAt p d).bind (nodeAt q) := by
  induction p generalizing d with
  | nil => rfl
  | cons i p ih =>
    rw [List.cons_append, nodeAt, nodeAt]
    cases d.kids[i]? with
    | none => rfl
    | some x => exact ih x

theorem nodeAt_cons (i : ℕ) (p : List ℕ) (d : Node) : nodeAt (i :: p) d = (d.kids[i]?).bind (nodeAt p) := by
  rw [nodeAt]; cases d.kids[i]? <;> rfl

theorem shapeAt_append {p q : List ℕ} {d x : Node} (h : nodeAt p d = some x) :
    shapeAt (p ++ q) d = shapeAt q x := by
  rw [shapeAt, nodeAt_append, h]; rfl

theorem nodeAt_text {p : List ℕ} (hp : p ≠ []) (s : Str) : nodeAt p (.text s) = none := by
  cases p with
  | nil => exact absurd rfl hp
  | cons i p => simp [nodeAt, Node.kids]

/-- What a statement does to other places. -/
theorem actAt_other {g : Node → Node × Res Unit} {p : Place} {d : Node} {q : List ℕ}
    (h : ∀ x r, nodeAt p d = some x → q = p ++ r → shapeAt r (g x).1 = shapeAt r x) :
    shapeAt q (actAt g p d).1 = shapeAt q d := by
  induction p generalizing d q with
  | nil => exact h d q rfl rfl
  | cons i p ih =>
    cases d with
    | text s => rw [actAt]
    | tag n a ks =>
      rw [actAt]
      cases hi : ks[i]? with
      | none => rfl
      | some x =>
        cases q with
        | nil => simp [shapeAt, nodeAt, shape]
        | cons j q =>
          simp only [shapeAt, nodeAt_cons, Node.kids]
          by_cases hj : j = i
          · subst hj
            have hlt : j < ks.length := (List.getElem?_eq_some_iff.1 hi).1
            rw [List.getElem?_set_self hlt, hi]
            have := ih (d := x) (q := q) fun y r hy hr =>
              h y r (by rw [nodeAt_cons, Node.kids, hi]; exact hy) (by rw [hr]; rfl)
            simpa [shapeAt] using this
          · rw [List.getElem?_set_ne (Ne.symm hj)]

theorem actAt_at {g : Node → Node × Res Unit} {p : Place} {d x : Node} (h : nodeAt p d = some x) :
    nodeAt p (actAt g p d).1 = some (g x).1 ∧ (actAt g p d).2 = (g x).2 := by
  induction p generalizing d with
  | nil =>
    rw [nodeAt] at h; injection h with h; subst h
    exact ⟨rfl, rfl⟩
  | cons i p ih =>
    cases d with
    | text s => rw [nodeAt_text (by simp)] at h; cases h
    | tag n a ks =>
      rw [nodeAt_cons, Node.kids] at h
      cases hi : ks[i]? with
      | none => rw [hi] at h; cases h
      | some y =>
        rw [hi] at h
        have hlt : i < ks.length := (List.getElem?_eq_some_iff.1 hi).1
        have := ih (d := y) h
        rw [actAt, hi]
        refine ⟨?_, this.2⟩
        rw [nodeAt_cons, Node.kids, List.getElem?_set_self hlt]
        exact this.1

theorem actAt_none {g : Node → Node × Res Unit} {p : Place} {d : Node} (h : nodeAt p d = none) :
    actAt g p d = (d, .error .unmodelled) := by
  induction p generalizing d with
  | nil => cases h
  | cons i p ih =>
    cases d with
    | text s => rfl
    | tag n a ks =>
      rw [nodeAt_cons, Node.kids] at h
      rw [actAt]
      cases hi : ks[i]? with
      | none => rfl
      | some y =>
        rw [hi] at h
        have hlt : i < ks.length := (List.getElem?_eq_some_iff.1 hi).1
        have := ih (d := y) h
        simp only [this]
        have : ks.set i y = ks := by
          rw [(List.getElem?_eq_some_iff.1 hi).2.symm]; simp
        rw [this]

theorem Spec.NotNested.symm {p q : List ℕ} (h : NotNested p q) : NotNested q p := ⟨h.2, h.1⟩

theorem actAt_apart {g : Node → Node × Res Unit} {p q : Place} {d : Node} (h : NotNested p q) :
    nodeAt q (actAt g p d).1 = nodeAt q d := by
  induction p generalizing d q with
  | nil => exact absurd (List.nil_prefix) h.1
  | cons i p ih =>
    cases d with
    | text s => rw [actAt]
    | tag n a ks =>
      rw [actAt]
      cases hi : ks[i]? with
      | none => rfl
      | some x =>
        cases q with
        | nil => exact absurd (List.nil_prefix) h.2
        | cons j q =>
          rw [nodeAt_cons, nodeAt_cons, Node.kids, Node.kids]
          by_cases hj : j = i
          · subst hj
            have hlt : j < ks.length := (List.getElem?_eq_some_iff.1 hi).1
            rw [List.getElem?_set_self hlt, hi]
            refine ih (d := x) ⟨fun hp => h.1 ?_, fun hp => h.2 ?_⟩ <;>
            exact List.cons_prefix_cons.2 ⟨rfl, hp⟩
          · rw [List.getElem?_set_ne (Ne.symm hj)]

theorem actAt_append {g : Node → Node × Res Unit} (p q : Place) {d x : Node} (h : nodeAt p d = some x) :
    actAt g (p ++ q) d = actAt (actAt g q) p d := by
  induction p generalizing d with
  | nil => rfl
  | cons i p ih =>
    cases d with
    | text s => rfl
    | tag n a ks =>
      rw [nodeAt_cons, Node.kids] at h
      rw [List.cons_append, actAt, actAt]
      cases hi : ks[i]? with
      | none => rfl
      | some y =>
        rw [hi] at h
        simp only [ih (d := y) h]

theorem actAt_congr {g g' : Node → Node × Res Unit} {p : Place} {d x : Node} (h : nodeAt p d = some x)
    (hg : (g x).1 = (g' x).1) : (actAt g p d).1 = (actAt g' p d).1 := by
  induction p generalizing d with
  | nil => rw [nodeAt] at h; injection h with h; subst h; exact hg
  | cons i p ih =>
    cases d with
    | text s => rfl
    | tag n a ks =>
      rw [nodeAt_cons, Node.kids] at h
      rw [actAt, actAt]
      cases hi : ks[i]? with
      | none => rfl
      | some y =>
        rw [hi] at h
        simp only [ih (d := y) h]

/-! ## The first param of a name -/

mutual
theorem updNode_place {p : Node → Bool} (htag : TagOnly p) : ∀ {n : Node}, (∃ y ∈ n.subtree, y.isTag = true ∧ p y = true) →
    ∃ q x, nodeAt q n = some x ∧ x.isTag = true ∧ p x = true ∧ ((n.subtree.filter Node.isTag).filter p).head? = some x ∧
      ∀ g, updNode p g n = some (actAt (fun y => (g y, .ok ())) q n).1
  | .text s, h => by
    obtain ⟨y, hy, ht, hp⟩ := h
    rw [Node.subtree, List.mem_singleton] at hy; subst hy; simp [Node.isTag] at ht
  | .tag n a ks, h => by
    by_cases hp : p (.tag n a ks) = true
    · refine ⟨[], _, rfl, rfl, hp, ?_, fun g => ?_⟩
      · simp [Node.subtree, Node.isTag, hp]
      · rw [updNode, if_pos hp]; rfl
    · have h' : ∃ y ∈ Node.nodesIn ks, y.isTag = true ∧ p y = true := by
        obtain ⟨y, hy, ht, hpy⟩ := h
        rw [Node.subtree] at hy
        rcases List.mem_cons.1 hy with rfl | hy
        · exact absurd hpy hp
        · exact ⟨y, hy, ht, hpy⟩
      obtain ⟨i, z, q, x, hi, hq, ht, hpx, hh, hg⟩ := updKids_place htag h'
      refine ⟨i :: q, x, by rw [nodeAt_cons, Node.kids, hi]; exact hq, ht, hpx, ?_, fun g => ?_⟩
      · simp only [Node.subtree, List.filter_cons, Node.isTag, if_true, hp]
        exact hh
      · rw [updNode, if_neg hp, hg g, actAt, hi]; rfl
theorem updKids_place {p : Node → Bool} (htag : TagOnly p) : ∀ {ks : List Node}, (∃ y ∈ Node.nodesIn ks, y.isTag = true ∧ p y = true) →
    ∃ i z q x, ks[i]? = some z ∧ nodeAt q z = some x ∧ x.isTag = true ∧ p x = true ∧
      (((Node.nodesIn ks).filter Node.isTag).filter p).head? = some x ∧
      ∀ g, updKids p g ks = some (ks.set i (actAt (fun y => (g y, .ok ())) q z).1)
  | [], h => by simp [Node.nodesIn] at h
  | x :: r, h => by
    by_cases hx : ∃ y ∈ x.subtree, y.isTag = true ∧ p y = true
    · obtain ⟨q, y, hq, ht, hp, hh, hg⟩ := updNode_place htag hx
      refine ⟨0, x, q, y, rfl, hq, ht, hp, ?_, fun g => ?_⟩
      · rw [nodesIn_cons, List.filter_append, List.filter_append, List.head?_append, hh]; rfl
      · rw [updKids, hg g]; rfl
    · have hr : ∃ y ∈ Node.nodesIn r, y.isTag = true ∧ p y = true := by
        obtain ⟨y, hy, ht, hp⟩ := h
        rw [nodesIn_cons] at hy
        rcases List.mem_append.1 hy with hy | hy
        · exact absurd ⟨y, hy, ht, hp⟩ hx
        · exact ⟨y, hy, ht, hp⟩
      obtain ⟨i, z, q, y, hi, hq, ht, hp, hh, hg⟩ := updKids_place htag hr
      refine ⟨i + 1, z, q, y, by simpa using hi, hq, ht, hp, ?_, fun g => ?_⟩
      · rw [nodesIn_cons, List.filter_append, List.filter_append]
        have : (x.subtree.filter Node.isTag).filter p = [] := by
          rw [List.filter_eq_nil_iff]
          intro y hy hpy
          obtain ⟨h1, h2⟩ := List.mem_filter.1 hy
          exact hx ⟨y, h1, h2, hpy⟩
        rw [this, List.nil_append]; exact hh
      · rw [updKids]
        have hn : updNode p g x = none := by
          clear hg hh
          refine updNode_none p g x fun y hy => ?_
          cases y with
          | text s => exact htag s
          | tag m b l =>
            by_contra hc
            exact hx ⟨_, hy, rfl, by simpa using hc⟩
        rw [hn, hg g]; rfl
end

/-- Where a value of a layer is: in the first param of its name. -/
theorem value_place {f : Str} {n p : Node} (hp : findParam f n = some p) {s : Str} {c : VCls} {v : Node}
    (hv : nameAndValue p = .ok (s, c, v)) :
    ∃ q i, nodeAt q n = some p ∧ nodeAt (q ++ [i]) n = some v ∧ q ≠ [] ∧
      ∀ m, updFirst (isParam f) (replaceValue m) n = (actAt (fun _ => (m, .ok ())) (q ++ [i]) n).1 := by
  obtain ⟨h1, h2, h3⟩ := findParam_some hp
  cases n with
  | text s => simp [Node.kids, Node.nodesIn] at h3
  | tag nm a ks =>
    obtain ⟨i, z, q, x, hi, hq, ht, hpx, hh, hg⟩ :=
      updKids_place (tagOnly_isParam f) ⟨p, by simpa [Node.kids] using h3, h2, h1⟩
    have hx : x = p := by
      rw [findParam, Node.descTags, Node.kids, hh] at hp
      injection hp
    subst hx
    have hk : ∃ l b j, x = .tag l b x.kids ∧ x.kids[j]? = some v ∧ ∀ m, (replaceValue m x) = .tag l b (x.kids.set j m) := by
      rw [nameAndValue] at hv
      split at hv
      · cases hv
      · split at hv
        · cases hv
        · split at hv
          · next w hw =>
            split at hv
            · cases hv
            · injection hv with hv; injection hv with _ hv; injection hv with _ hv; subst hv
              cases x with
              | text s => simp [Node.isTag] at ht
              | tag l b kk =>
                rw [Node.tagKids, Node.kids] at hw
                obtain ⟨l1, l2, rfl, hl1, hv, hl2⟩ : ∃ l1 l2, kk = l1 ++ w :: l2 ∧ (∀ y ∈ l1, y.isTag = false) ∧ w.isTag = true ∧ ∀ y ∈ l2, y.isTag = false := by
                  clear * - hw
                  induction kk with
                  | nil => simp at hw
                  | cons y r ih =>
                    rw [List.filter_cons] at hw
                    split at hw
                    · next hy =>
                      injection hw with h1 h2; subst h1
                      refine ⟨[], r, rfl, by simp, hy, fun z hz => ?_⟩
                      have := List.filter_eq_nil_iff.1 h2 z hz
                      simpa using this
                    · next hy =>
                      obtain ⟨l1, l2, rfl, h1, h2, h3⟩ := ih hw
                      refine ⟨y :: l1, l2, rfl, fun z hz => ?_, h2, h3⟩
                      rcases List.mem_cons.1 hz with rfl | hz
                      · simpa using hy
                      · exact h1 z hz
                refine ⟨l, b, l1.length, rfl, by simp [Node.kids], fun m => ?_⟩
                simp only [replaceValue, Node.setKids, Node.kids]
                congr 1
                rw [List.map_append, List.map_cons, if_pos hv, List.set_append_right _ _ (le_refl _), Nat.sub_self,
                  List.set_cons_zero]
                congr 1
                · rw [List.map_congr_left (g := id)]
                  · simp
                  · intro y hy; rw [if_neg (by simp [hl1 y hy])]; rfl
                · congr 1
                  rw [List.map_congr_left (g := id)]
                  · simp
                  · intro y hy; rw [if_neg (by simp [hl2 y hy])]; rfl
          · cases hv
        · cases hv
    obtain ⟨l, b, j, hx, hj, hrep⟩ := hk
    have hat : nodeAt (i :: q) (.tag nm a ks) = some x := by rw [nodeAt_cons, Node.kids, hi]; exact hq
    refine ⟨i :: q, j, hat, ?_, by simp, fun m => ?_⟩
    · rw [nodeAt_append, hat]
      show nodeAt [j] x = _
      rw [nodeAt_cons, hj]; rfl
    · rw [updFirst, hg, actAt_append _ _ hat, actAt, hi]
      simp only [Option.getD_some]
      congr 2
      refine actAt_congr hq ?_
      have e : actAt (fun _ => (m, .ok ())) [j] (.tag l b x.kids) = (.tag l b (x.kids.set j m), .ok ()) := by
        rw [actAt, hj]; rfl
      rw [← hx] at e
      rw [e]; exact hrep m

theorem isParam_iff {f : String} {n : Node} : isParam f.toList n = true ↔ IsParam f n := by
  simp [isParam, IsParam]

/-- What is in the value of a param named `f`. -/
def InValue (f : String) (n : Node) (r : List ℕ) : Prop :=
  ∃ q i s, r = q ++ i :: s ∧ ∃ y, nodeAt q n = some y ∧ IsParam f y

theorem upd_other {f : String} {n p : Node} (hp : findParam f.toList n = some p) {s : Str} {c : VCls} {v : Node}
    (hv : nameAndValue p = .ok (s, c, v)) (m : Node) {r : List ℕ} (hr : ¬ InValue f n r) :
    shapeAt r (updFirst (isParam f.toList) (replaceValue m) n) = shapeAt r n := by
  obtain ⟨q, i, h1, h2, -, h3⟩ := value_place hp hv
  rw [h3]
  apply actAt_other
  intro x t hx ht
  refine absurd ⟨q, i, t, ?_, p, h1, isParam_iff.1 (findParam_some hp).1⟩ hr
  rw [ht, List.append_assoc]; rfl

theorem setParam_other {F : Fl} {f : String} {v : PV} {n : Node} {r : List ℕ} (hr : ¬ InValue f n r) :
    shapeAt r (setParam F f.toList v n).1 = shapeAt r n := by
  rw [setParam]
  split
  · rfl
  · next p hp =>
    split
    · rfl
    · next hv =>
      split
      · rfl
      · exact upd_other hp hv _ hr

theorem onParam_other {f : String} {g : VCls → Node → Node × Res Unit} {n : Node} {r : List ℕ}
    (hr : ¬ InValue f n r) : shapeAt r (onParam f.toList g n).1 = shapeAt r n := by
  rw [onParam]
  split
  · rfl
  · next p hp =>
    split
    · rfl
    · next hv => exact upd_other hp hv _ hr

/-! ## Statements and loops which change only values of one param -/

/-- What changes only values of the param `f`. -/
def OnlyValue (f : String) (g : Node → Node × Res Unit) : Prop :=
  ∀ n r, ¬ InValue f n r → shapeAt r (g n).1 = shapeAt r n

theorem inParam_mono {f : String} {want : List ℕ → Prop} {d : Node} {p : List ℕ} (h : InParam f want d p)
    (t : List ℕ) : InParam f want d (p ++ t) := by
  obtain ⟨q, r, i, s, rfl, h1, h2⟩ := h
  exact ⟨q, r, i, s ++ t, by simp, h1, h2⟩

theorem isParam_of_shape {f : String} {n m : Node} (h : shape m = shape n) (hn : IsParam f n) : IsParam f m := by
  cases n with
  | text s => simp [IsParam, Node.name] at hn
  | tag a b c =>
    cases m with
    | text s => simp [shape] at h
    | tag a' b' c' =>
      simp only [shape, Shape.element.injEq] at h
      obtain ⟨rfl, rfl, -⟩ := h
      exact hn

theorem actAt_same {f : String} {want : List ℕ → Prop} {d e : Node} {g : Node → Node × Res Unit}
    (hg : OnlyValue f g) {p : Place} (hp : want p)
    (he : SameBut (InParam f want d) d e) : SameBut (InParam f want d) d (actAt g p e).1 := by
  intro q hq
  rw [← he q hq]
  apply actAt_other
  intro x r hx hr
  apply hg
  rintro ⟨t, i, s, rfl, y, hy, hparam⟩
  apply hq
  subst hr
  by_cases hin : InParam f want d (p ++ t)
  · have := inParam_mono hin (i :: s)
    rwa [List.append_assoc] at this
  · have hs := he _ hin
    rw [shapeAt, nodeAt_append, hx] at hs
    simp only [Option.bind_some, hy, Option.map_some] at hs
    rw [shapeAt] at hs
    cases hd : nodeAt (p ++ t) d with
    | none => rw [hd] at hs; simp at hs
    | some z =>
      rw [hd] at hs
      simp only [Option.map_some, Option.some.injEq] at hs
      exact ⟨p, t, i, s, by simp, hp, z, hd, isParam_of_shape hs.symm hparam⟩

theorem forEach_same {f : String} {want : List ℕ → Prop} {d : Node} {g : Node → Node × Res Unit}
    (hg : OnlyValue f g) {ps : List Place} (hps : ∀ p ∈ ps, want p) {e : Node}
    (he : SameBut (InParam f want d) d e) : SameBut (InParam f want d) d (forEach g ps e).1 := by
  induction ps generalizing e with
  | nil => exact he
  | cons p ps ih =>
    rw [forEach]
    have h1 := actAt_same hg (hps p (by simp)) he
    split
    · next h => rw [h] at h1; exact h1
    · next h => rw [h] at h1; exact ih (fun q hq => hps q (by simp [hq])) h1

theorem sameBut_refl (P : List ℕ → Prop) (d : Node) : SameBut P d d := fun _ _ => rfl

/-- The outcome of a loop over things not in one another. -/
theorem forEach_ok {g : Node → Node × Res Unit} {ps : List Place} (hps : ps.Pairwise NotNested) {d : Node}
    (h : (forEach g ps d).2 = .ok ()) :
    (∀ p ∈ ps, ∃ x, nodeAt p d = some x ∧ (g x).2 = .ok () ∧ nodeAt p (forEach g ps d).1 = some (g x).1) ∧
    ∀ q, (∀ p ∈ ps, NotNested p q) → nodeAt q (forEach g ps d).1 = nodeAt q d := by
  induction ps generalizing d with
  | nil => exact ⟨by simp, fun q _ => rfl⟩
  | cons p ps ih =>
    obtain ⟨hp, hps⟩ := List.pairwise_cons.1 hps
    rw [forEach] at h ⊢
    cases hx : nodeAt p d with
    | none => rw [actAt_none hx] at h; cases h
    | some x =>
      obtain ⟨h1, h2⟩ := actAt_at (g := g) hx
      cases hr : actAt g p d with
      | mk e r =>
        rw [hr] at h1 h2
        cases r with
        | error er => rw [hr] at h; cases h
        | ok u =>
          have hd' : e = (actAt g p d).1 := by rw [hr]
          rw [hr] at h
          obtain ⟨i1, i2⟩ := ih hps h
          refine ⟨fun q hq => ?_, fun q hq => ?_⟩
          · rcases List.mem_cons.1 hq with rfl | hq
            · refine ⟨x, hx, h2.symm, ?_⟩
              rw [i2 q fun q' hq' => (hp q' hq').symm]; exact h1
            · obtain ⟨y, hy, hy2, hy3⟩ := i1 q hq
              rw [hd', actAt_apart (hp q hq)] at hy
              exact ⟨y, hy, hy2, hy3⟩
          · rw [i2 q fun q' hq' => hq q' (by simp [hq']), hd', actAt_apart (hq p (by simp))]

/-! ## Finding -/

mutual
theorem placesOf_nodes : ∀ (p : Place) (n : Node), (placesOf p n).map Prod.snd = n.subtree.filter Node.isTag
  | p, .text s => rfl
  | p, .tag n a ks => by
    rw [placesOf, List.map_cons, placesIn_nodes, Node.subtree, List.filter_cons]; rfl
theorem placesIn_nodes : ∀ (p : Place) (i : ℕ) (ks : List Node),
    (placesIn p i ks).map Prod.snd = (Node.nodesIn ks).filter Node.isTag
  | p, i, [] => rfl
  | p, i, x :: r => by
    rw [placesIn, List.map_append, placesOf_nodes, placesIn_nodes, nodesIn_cons, List.filter_append]
end

mutual
theorem mem_placesOf : ∀ {p : Place} {n : Node} {q : Place} {x : Node},
    (q, x) ∈ placesOf p n ↔ ∃ r, q = p ++ r ∧ nodeAt r n = some x ∧ x.isTag = true
  | p, .text s, q, x => by
    rw [placesOf]
    refine ⟨fun h => (List.not_mem_nil h).elim, ?_⟩
    rintro ⟨r, rfl, h1, h2⟩
    cases r with
    | nil => rw [nodeAt] at h1; injection h1 with h1; subst h1; simp [Node.isTag] at h2
    | cons i r => rw [nodeAt_text (by simp)] at h1; cases h1
  | p, .tag n a ks, q, x => by
    rw [placesOf, List.mem_cons, mem_placesIn]
    constructor
    · rintro (h | ⟨j, r, y, rfl, hj, h1, h2⟩)
      · injection h with h1 h2
        subst h1 h2
        exact ⟨[], by simp, rfl, rfl⟩
      · exact ⟨j :: r, by simp, by rw [nodeAt_cons, Node.kids, hj]; exact h1, h2⟩
    · rintro ⟨r, rfl, h1, h2⟩
      cases r with
      | nil =>
        rw [nodeAt] at h1; injection h1 with h1; subst h1
        left; simp
      | cons j r =>
        rw [nodeAt_cons, Node.kids] at h1
        cases hj : ks[j]? with
        | none => rw [hj] at h1; cases h1
        | some y =>
          rw [hj] at h1
          exact .inr ⟨j, r, y, by simp, hj, h1, h2⟩
theorem mem_placesIn : ∀ {p : Place} {i : ℕ} {ks : List Node} {q : Place} {x : Node},
    (q, x) ∈ placesIn p i ks ↔ ∃ j r y, q = p ++ (i + j) :: r ∧ ks[j]? = some y ∧ nodeAt r y = some x ∧ x.isTag = true
  | p, i, [], q, x => by simp [placesIn]
  | p, i, z :: l, q, x => by
    rw [placesIn, List.mem_append, mem_placesOf, mem_placesIn]
    constructor
    · rintro (⟨r, rfl, h1, h2⟩ | ⟨j, r, y, rfl, hj, h1, h2⟩)
      · exact ⟨0, r, z, by simp, rfl, h1, h2⟩
      · exact ⟨j + 1, r, y, by rw [show i + (j + 1) = i + 1 + j by omega], by simpa using hj, h1, h2⟩
    · rintro ⟨j, r, y, rfl, hj, h1, h2⟩
      cases j with
      | zero =>
        simp only [List.getElem?_cons_zero, Option.some.injEq] at hj
        subst hj
        exact .inl ⟨r, by simp, h1, h2⟩
      | succ j =>
        exact .inr ⟨j, r, y, by rw [show i + (j + 1) = i + 1 + j by omega], by simpa using hj, h1, h2⟩
end

theorem mem_places {n : Node} {p q : Place} {x : Node} :
    (q, x) ∈ placesIn p 0 n.kids ↔ ∃ r, q = p ++ r ∧ r ≠ [] ∧ nodeAt r n = some x ∧ x.isTag = true := by
  rw [mem_placesIn]
  constructor
  · rintro ⟨j, r, y, rfl, hj, h1, h2⟩
    exact ⟨j :: r, by simp, by simp, by rw [nodeAt_cons, hj]; exact h1, h2⟩
  · rintro ⟨r, rfl, hr, h1, h2⟩
    cases r with
    | nil => exact absurd rfl hr
    | cons j r =>
      rw [nodeAt_cons] at h1
      cases hj : n.kids[j]? with
      | none => rw [hj] at h1; cases h1
      | some y => rw [hj] at h1; exact ⟨j, r, y, by simp, hj, h1, h2⟩

theorem filterRes_map {α β : Type} (f : β → Res Bool) (g : α → β) (xs : List α) :
    filterRes f (xs.map g) = match filterRes (fun x => f (g x)) xs with
      | .error e => .error e
      | .ok l => .ok (l.map g) := by
  induction xs with
  | nil => rfl
  | cons x xs ih =>
    rw [List.map_cons, filterRes, filterRes, ih]
    cases f (g x) with
    | error e => rfl
    | ok b =>
      cases filterRes (fun x => f (g x)) xs with
      | error e => rfl
      | ok l => cases b <;> rfl

theorem mapRes_asLayerAt (xs : List (Place × Node)) :
    mapRes asLayer (xs.map Prod.snd) = match mapRes asLayerAt xs with
      | .error e => .error e
      | .ok l => .ok (l.map Prod.snd) := by
  induction xs with
  | nil => rfl
  | cons x xs ih =>
    rw [List.map_cons, mapRes, mapRes, ih, asLayerAt]
    cases asLayer x.2 with
    | error e => rfl
    | ok c =>
      cases mapRes asLayerAt xs with
      | error e => rfl
      | ok l => rfl

/-- Searching with places finds what searching finds. -/
theorem findAllAt_layers (F : Fl) (d : Defaults) (a : FindArgs) (p : Place) (n : Node) :
    findAllLayers F d a true n = match findAllAt F d a p n with
      | .error e => .error e
      | .ok l => .ok (l.map Prod.snd) := by
  rw [findAllLayers, findAllAt]
  cases posArg a with
  | error e => rfl
  | ok sk =>
    obtain ⟨sp, kw⟩ := sk
    simp only [if_true]
    cases criteria a kw with
    | error e => rfl
    | ok ts =>
      simp only
      have : n.descTags = (placesIn p 0 n.kids).map Prod.snd := by rw [placesIn_nodes]; rfl
      rw [this, filterRes_map]
      cases filterRes (fun x : Place × Node => matcher F d sp ts x.2) (placesIn p 0 n.kids) with
      | error e => rfl
      | ok l => exact mapRes_asLayerAt l

theorem mem_mapRes_asLayerAt {xs : List (Place × Node)} {l : List (Place × LObj)} (h : mapRes asLayerAt xs = .ok l)
    {y : Place × LObj} : y ∈ l ↔ (y.1, y.2.2) ∈ xs ∧ layerOf y.2.2 = .ok y.2.1 := by
  induction xs generalizing l with
  | nil => injection h with h; subst h; simp
  | cons x xs ih =>
    rw [mapRes] at h
    split at h
    · cases h
    · next z hz =>
      split at h
      · cases h
      · next l' hl =>
        injection h with h; subst h
        rw [List.mem_cons, ih hl, List.mem_cons]
        rw [asLayerAt, asLayer] at hz
        cases hc : layerOf x.2 with
        | error e => rw [hc] at hz; cases hz
        | ok c =>
          rw [hc] at hz
          injection hz with hz; subst hz
          constructor
          · rintro (rfl | h)
            · exact ⟨.inl rfl, hc⟩
            · exact ⟨.inr h.1, h.2⟩
          · rintro ⟨h1 | h1, h2⟩
            · left
              rw [← h1] at hc
              simp only at hc
              rw [h2] at hc
              injection hc with hc
              rw [← h1]
              simp [← hc]
            · exact .inr ⟨h1, h2⟩

/-- What is found, and where. -/
theorem mem_findAllAt {F : Fl} {d : Defaults} {a : FindArgs} {p : Place} {n : Node} {sp : Special}
    {kw : List (String × Want)} {ts : List (String × PV)} (h1 : posArg a = .ok (sp, kw))
    (h2 : criteria a kw = .ok ts) {l : List (Place × LObj)} (h : findAllAt F d a p n = .ok l) {q : Place}
    {c : LClass} {x : Node} : (q, (c, x)) ∈ l ↔
      (∃ r, q = p ++ r ∧ r ≠ [] ∧ nodeAt r n = some x) ∧ isLayerElt x = true ∧ layerOf x = .ok c ∧
        matcher F d sp ts x = .ok true := by
  simp only [findAllAt, h1, h2] at h
  split at h
  · cases h
  · next m hm =>
    rw [mem_mapRes_asLayerAt h]
    obtain ⟨-, rfl⟩ := filterRes_ok.1 hm
    simp only [List.mem_filter, mem_places]
    constructor
    · rintro ⟨⟨⟨r, hq, hr, hx, ht⟩, hmx⟩, hc⟩
      have hmt : matcher F d sp ts x = .ok true := by
        cases hmm : matcher F d sp ts x with
        | error e => rw [hmm] at hmx; cases hmx
        | ok b => rw [hmm] at hmx; exact congrArg _ hmx
      refine ⟨⟨r, hq, hr, hx⟩, ?_, hc, hmt⟩
      cases x with
      | text s => simp [Node.isTag] at ht
      | tag nm b ks =>
        rw [isLayerElt, decide_eq_true_eq]
        by_contra hn
        rw [matcher, if_pos (by exact hn)] at hmt; cases hmt
    · rintro ⟨⟨r, hq, hr, hx⟩, hl, hc, hm⟩
      refine ⟨⟨⟨r, hq, hr, hx, ?_⟩, by rw [hm]⟩, hc⟩
      cases x with
      | text s => simp [isLayerElt] at hl
      | tag _ _ _ => rfl

mutual
theorem placesOf_nodup : ∀ (p : Place) (n : Node), ((placesOf p n).map Prod.fst).Nodup
  | p, .text s => by simp [placesOf]
  | p, .tag n a ks => by
    rw [placesOf, List.map_cons, List.nodup_cons]
    refine ⟨fun h => ?_, placesIn_nodup p 0 ks⟩
    obtain ⟨⟨q, x⟩, hx, hq⟩ := List.mem_map.1 h
    obtain ⟨j, r, y, e, -⟩ := mem_placesIn.1 hx
    simp only at hq
    rw [e] at hq
    simp at hq
theorem placesIn_nodup : ∀ (p : Place) (i : ℕ) (ks : List Node), ((placesIn p i ks).map Prod.fst).Nodup
  | p, i, [] => by simp [placesIn]
  | p, i, x :: r => by
    rw [placesIn, List.map_append, List.nodup_append]
    refine ⟨placesOf_nodup _ _, placesIn_nodup _ _ _, fun q hq q' hq' e => ?_⟩
    obtain ⟨⟨q1, x1⟩, hx, rfl⟩ := List.mem_map.1 hq
    obtain ⟨⟨q2, x2⟩, hx2, rfl⟩ := List.mem_map.1 hq'
    obtain ⟨t, e1, -⟩ := mem_placesOf.1 hx
    obtain ⟨j, t', y, e2, -⟩ := mem_placesIn.1 hx2
    simp only at e
    rw [e1, e2, List.append_assoc] at e
    have := List.append_cancel_left e
    simp at this
    omega
end

theorem findAllAt_sublist {F : Fl} {d : Defaults} {a : FindArgs} {p : Place} {n : Node}
    {l : List (Place × LObj)} (h : findAllAt F d a p n = .ok l) :
    (l.map Prod.fst).Sublist ((placesIn p 0 n.kids).map Prod.fst) := by
  rw [findAllAt] at h
  split at h
  · cases h
  · split at h
    · cases h
    · split at h
      · cases h
      · next m hm =>
        obtain ⟨-, rfl⟩ := filterRes_ok.1 hm
        have : ∀ (xs : List (Place × Node)) l, mapRes asLayerAt xs = .ok l → l.map Prod.fst = xs.map Prod.fst := by
          intro xs
          induction xs with
          | nil => intro l h; injection h with h; subst h; rfl
          | cons x xs ih =>
            intro l h
            rw [mapRes] at h
            split at h
            · cases h
            · next z hz =>
              split at h
              · cases h
              · next l' hl =>
                injection h with h; subst h
                rw [asLayerAt] at hz
                split at hz
                · cases hz
                · injection hz with hz; subst hz
                  rw [List.map_cons, ih _ hl]; rfl
        rw [this _ _ h]
        exact List.filter_sublist.map _

theorem findAllAt_nodup {F : Fl} {d : Defaults} {a : FindArgs} {p : Place} {n : Node}
    {l : List (Place × LObj)} (h : findAllAt F d a p n = .ok l) : (l.map Prod.fst).Nodup :=
  (findAllAt_sublist h).nodup (placesIn_nodup _ _ _)

end Sang
