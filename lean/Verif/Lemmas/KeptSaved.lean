import Verif.Lemmas.Clean

/-!
# Lemmas: what bywords finds in an animation that has been saved and opened
-/

namespace Sang

open Spec

/-! ## Saving and opening what has been saved and opened -/

theorem sortAttrs_read (F : Fl) (a : Attrs) : sortAttrs (readAttrs F a) = readAttrs F (sortAttrs a) :=
  (List.map_insertionSort (fun p q : String × AttrV => p.1 ≤ q.1) (fun p q : String × AttrV => p.1 ≤ q.1)
    (fun p => (p.1, AttrV.str (attrSpaces (p.2.str' F)))) a fun _ _ _ _ => Iff.rfl).symm

mutual
theorem sorted_sorted : ∀ n : Node, n.sorted.sorted = n.sorted
  | .text _ => rfl
  | .tag n a ks => by rw [Node.sorted, Node.sorted, sortAttrs_idem, sortedKids_sorted]
theorem sortedKids_sorted : ∀ ks : List Node, Node.sortedKids (Node.sortedKids ks) = Node.sortedKids ks
  | [] => rfl
  | x :: r => by rw [Node.sortedKids, Node.sortedKids, sorted_sorted, sortedKids_sorted]
end

theorem sortedKids_append (a b : List Node) : Node.sortedKids (a ++ b) = Node.sortedKids a ++ Node.sortedKids b := by
  rw [sortedKids_map, sortedKids_map, sortedKids_map, List.map_append]

theorem sortedKids_readText (s : Str) : Node.sortedKids (readText s) = readText s := by
  rw [readText]
  split
  · rfl
  · split <;> rfl

mutual
theorem sorted_reload (F : Fl) : ∀ n : Node, (n.reload F).sorted = n.sorted.reload F
  | .text _ => rfl
  | .tag n a ks => by
    rw [Node.sorted, Node.reload, Node.reload, Node.sorted, sortedKids_reload F ks []]
    congr 1
    exact sortAttrs_read F a
theorem sortedKids_reload (F : Fl) : ∀ (ks : List Node) (acc : Str),
    Node.sortedKids (Node.reloadKids F acc ks) = Node.reloadKids F acc (Node.sortedKids ks)
  | [], acc => by rw [Node.sortedKids, Node.reloadKids, sortedKids_readText]
  | .text s :: r, acc => by
    rw [Node.sortedKids, Node.sorted, Node.reloadKids, Node.reloadKids, sortedKids_reload F r]
  | .tag n a ks :: r, acc => by
    rw [Node.sortedKids, Node.reloadKids, sortedKids_append, sortedKids_readText, Node.sortedKids,
      sortedKids_reload F r, sorted_reload F (.tag n a ks)]
    rw [Node.sorted, Node.reloadKids]
end

theorem opened_tidy {F : Fl} {n : Node} (hx : n.XmlOk F) (ht : n.isTag = true) : (n.opened F).Tidy := by
  have := parse_docText (e := fun _ => true) hx ht
  refine (parse_tidy this (reload_direct F _ ?_)).1
  cases n with
  | text => cases ht
  | tag => rfl

theorem tidy_opened {F : Fl} {n : Node} (h : n.Tidy) : n.opened F = n.sorted := by
  rw [Node.opened, (Node.Tidy.sorted h).reload F]

theorem opened_opened {F : Fl} {n : Node} (hx : n.XmlOk F) (ht : n.isTag = true) :
    (n.opened F).opened F = n.opened F := by
  rw [tidy_opened (opened_tidy hx ht), Node.opened, sorted_reload, sorted_sorted]

theorem tidy_at {p : List ℕ} {n x : Node} (hc : n.Tidy) (h : nodeAt p n = some x) : x.Tidy := by
  induction p generalizing n with
  | nil => injection h with h; subst h; exact hc
  | cons i p ih =>
    cases n with
    | text s => rw [nodeAt_text (by simp)] at h; cases h
    | tag n a ks =>
      rw [nodeAt_cons, Node.kids] at h
      cases hi : ks[i]? with
      | none => rw [hi] at h; cases h
      | some y =>
        rw [hi] at h
        have hall : ∀ {ks : List Node}, Node.TidyAll ks → ∀ y ∈ ks, y.Tidy := by
          intro ks
          induction ks with
          | nil => simp
          | cons x r ih' =>
            rintro ⟨h1, h2⟩ y hy
            rcases List.mem_cons.1 hy with rfl | hy
            · exact h1
            · exact ih' h2 y hy
        exact ih (hall hc.2.2.2 y (List.mem_of_getElem? hi)) h

theorem xmlOk_at {F : Fl} {p : List ℕ} {n x : Node} (hc : n.XmlOk F) (h : nodeAt p n = some x) : x.XmlOk F := by
  induction p generalizing n with
  | nil => injection h with h; subst h; exact hc
  | cons i p ih =>
    cases n with
    | text s => rw [nodeAt_text (by simp)] at h; cases h
    | tag n a ks =>
      rw [nodeAt_cons, Node.kids] at h
      cases hi : ks[i]? with
      | none => rw [hi] at h; cases h
      | some y =>
        rw [hi] at h
        exact ih (XmlOk.kid hc (List.mem_of_getElem? hi)) h

/-! ## The groups -/

theorem layersAt_ok {F : Fl} {p : Place} {n : Node} (hx : n.XmlOk F) (hc : Clean n) {x : Place × Node}
    (h : x ∈ layersAt p n) : x.2.XmlOk F ∧ Clean x.2 := by
  obtain ⟨r, -, hr⟩ := layersAt_node h
  exact ⟨xmlOk_at hx hr, clean_at hc hr⟩

theorem Known.opened {F : Fl} {n : Node} (hx : n.XmlOk F) (hc : Clean n) (h : Known n) : Known (n.opened F) := by
  intro p x hm
  rw [opened_layersAt hc] at hm
  obtain ⟨y, hy, rfl⟩ := List.mem_map.1 hm
  obtain ⟨c, h'⟩ := h p y hy
  obtain ⟨h1, h2⟩ := layersAt_ok hx hc hy
  exact ⟨c, by rw [Prod.map_snd, opened_layerOf h1 h2, h']⟩

open Classical in
/-- An element after saving and opening, if it is such an element. -/
noncomputable def reopened (F : Fl) (n : Node) : Node := if n.XmlOk F ∧ Clean n then n.opened F else n

theorem reopened_getDesc (F : Fl) (n : Node) : getDesc F (reopened F n) = getDesc F n := by
  rw [reopened]
  split
  · next h => exact opened_getDesc h.1 h.2
  · rfl

theorem opened_ofType {F : Fl} {ty : String} {n : Node} {p : Place} (hx : n.XmlOk F) (hc : Clean n) :
    (layersAt p (n.opened F)).filter (ofType ty) =
      ((layersAt p n).filter (ofType ty)).map (Prod.map id (reopened F)) := by
  rw [opened_layersAt hc, List.filter_map]
  have e : (layersAt p n).filter (ofType ty ∘ Prod.map id (Node.opened F)) = (layersAt p n).filter (ofType ty) := by
    apply List.filter_congr
    intro x hm
    obtain ⟨h1, h2⟩ := layersAt_ok hx hc hm
    simp only [Function.comp_apply, ofType, Prod.map_snd, opened_get_clean h1 h2 (k := "type") (by decide)]
  rw [e]
  apply List.map_congr_left
  intro x hm
  rw [Prod.map_apply', Prod.map_apply', reopened, if_pos (layersAt_ok hx hc (List.mem_filter.1 hm).1)]

theorem opened_bwGroup {F : Fl} (d : Defaults) (i : ℕ) (desc : Str) {n : Node} {b : Bool} (hx : n.XmlOk F)
    (hcl : Clean n) (hc : Calm b n) (hk : Known n) : bwGroup F d i desc (n.opened F) = bwGroup F d i desc n := by
  rw [bwGroup, bwGroup, findAllAt_layers F d _ [] (n.opened F), findAllAt_layers F d _ [] n,
    findAllAt_known text_targets.1 text_targets.2 text_known.1 text_known.2 hc hk,
    findAllAt_known text_targets.1 text_targets.2 text_known.1 text_known.2 (opened_calm hx hcl hc)
      (hk.opened hx hcl)]
  simp only [opened_ofType hx hcl, List.map_map]
  have e : ((layersAt [] n).filter (ofType "text")).map
      (Prod.snd ∘ (fun x : Place × Node => (x.1, (lcText, x.2))) ∘ Prod.map id (reopened F)) =
      (((layersAt [] n).filter (ofType "text")).map (Prod.snd ∘ fun x : Place × Node => (x.1, (lcText, x.2)))).map
        fun x => (x.1, reopened F x.2) := by
    rw [List.map_map]; rfl
  rw [e, ← List.map_reverse, List.zipIdx_map, mapRes_map']
  simp only [Prod.map_fst, Prod.map_snd, reopened_getDesc, id]

theorem reopened_wantedAt (F : Fl) (l : List (Place × Node)) (c : LClass) :
    bwWantedAt F ((l.map (Prod.map id (reopened F))).map fun x => (x.1, (c, x.2))) =
      (bwWantedAt F (l.map fun x => (x.1, (c, x.2)))).map (Prod.map id (reopened F)) := by
  rw [bwWantedAt, bwWantedAt]
  generalize "bywords".toList = pre
  induction l with
  | nil => rfl
  | cons x l ih =>
    simp only [List.map_cons, List.filterMap_cons, Prod.map_snd, Prod.map_fst, reopened_getDesc, ih, id]
    cases getDesc F x.2 with
    | none => rfl
    | some s =>
      simp only
      split
      · rename_i h; split at h
        · cases h
        · rename_i h'; rw [if_neg h']
      · rename_i y h; split at h
        · rename_i h'
          injection h with h
          subst h
          rw [if_pos h']; rfl
        · cases h

/-- Saving and opening doesn't matter to which groups there are. -/
theorem opened_bwGroups {F : Fl} (d : Defaults) {n : Node} {b : Bool} (hx : n.XmlOk F)
    (hcl : Clean n) (hc : Calm b n) (hk : Known n) : bwGroups F d (n.opened F) = bwGroups F d n := by
  rw [bwGroups, bwGroups, findAllAt_layers F d _ [] (n.opened F), findAllAt_layers F d _ [] n,
    findAllAt_known group_targets.1 group_targets.2 group_known.1 group_known.2 hc hk,
    findAllAt_known group_targets.1 group_targets.2 group_known.1 group_known.2 (opened_calm hx hcl hc)
      (hk.opened hx hcl)]
  simp only [wantedAt_wanted, opened_ofType hx hcl, reopened_wantedAt]
  have e : ∀ l : List (Place × Node), ((l.map (Prod.map id (reopened F))).map fun p => ((getDesc F p.2).getD [], p.2)) =
      (l.map fun p => ((getDesc F p.2).getD [], p.2)).map fun x => (x.1, reopened F x.2) := by
    intro l
    simp only [List.map_map]
    apply List.map_congr_left
    intro x _
    simp only [Function.comp_apply, Prod.map_snd, reopened_getDesc]
  rw [e, List.zipIdx_map, mapRes_map']
  have e2 : ∀ l : List ((Str × Node) × ℕ), (∀ x ∈ l, ∃ r, nodeAt r n = some x.1.2) →
      mapRes (fun x : (Str × Node) × ℕ => bwGroup F d (Prod.map (fun x => (x.1, reopened F x.2)) id x).2
        (Prod.map (fun x : Str × Node => (x.1, reopened F x.2)) id x).1.1
        (Prod.map (fun x : Str × Node => (x.1, reopened F x.2)) id x).1.2) l =
      mapRes (fun x : (Str × Node) × ℕ => bwGroup F d x.2 x.1.1 x.1.2) l := by
    intro l hl
    apply mapRes_congr'
    intro x hm
    obtain ⟨r, hr⟩ := hl x hm
    obtain ⟨c, hcx, -⟩ := hc.at hr
    have h1 := xmlOk_at hx hr
    have h2 := clean_at hcl hr
    simp only [Prod.map_fst, Prod.map_snd, id, reopened, if_pos (And.intro h1 h2)]
    exact opened_bwGroup d _ _ h1 h2 hcx (hk.at hr)
  rw [e2]
  rintro ⟨⟨s, x⟩, i⟩ hm
  have hm := List.mem_of_getElem? (List.mem_zipIdx_iff_getElem?.1 hm)
  obtain ⟨y, hy, e⟩ := List.mem_map.1 hm
  obtain ⟨r, hr⟩ := wantedAt_node hy
  injection e with _ e
  rw [e] at hr
  exact ⟨r, hr⟩

theorem opened_bwTextsAt {F : Fl} (d : Defaults) (p : Place) {n : Node} {b : Bool} (hx : n.XmlOk F)
    (hcl : Clean n) (hc : Calm b n) (hk : Known n) : bwTextsAt F d (p, n.opened F) = bwTextsAt F d (p, n) := by
  simp only [bwTextsAt, findAllAt_known text_targets.1 text_targets.2 text_known.1 text_known.2 hc hk,
    findAllAt_known text_targets.1 text_targets.2 text_known.1 text_known.2 (opened_calm hx hcl hc)
      (hk.opened hx hcl), opened_ofType hx hcl, List.map_map]
  rfl

/-- Nor to where they are. -/
theorem opened_bwPlaces {F : Fl} (d : Defaults) {n : Node} {b : Bool} (hx : n.XmlOk F)
    (hcl : Clean n) (hc : Calm b n) (hk : Known n) : bwPlaces F d (n.opened F) = bwPlaces F d n := by
  rw [bwPlaces, bwPlaces,
    findAllAt_known group_targets.1 group_targets.2 group_known.1 group_known.2 hc hk,
    findAllAt_known group_targets.1 group_targets.2 group_known.1 group_known.2 (opened_calm hx hcl hc)
      (hk.opened hx hcl)]
  simp only [opened_ofType hx hcl, reopened_wantedAt, mapRes_map']
  apply mapRes_congr'
  intro x hm
  obtain ⟨r, hr⟩ := wantedAt_node hm
  obtain ⟨c, hcx, -⟩ := hc.at hr
  have h1 := xmlOk_at hx hr
  have h2 := clean_at hcl hr
  rw [Prod.map_apply', reopened, if_pos ⟨h1, h2⟩]
  exact opened_bwTextsAt d x.1 h1 h2 hcx (hk.at hr)

/-! ## Putting a text in a layer -/

/-- Both elements, or the same text. -/
def KidLike (x y : Node) : Prop := x.isTag = y.isTag ∧ (x.isTag = false → x = y)

theorem KidLike.refl (x : Node) : KidLike x x := ⟨rfl, fun _ => rfl⟩

theorem KidLike.of_tags {x y : Node} (hx : x.isTag = true) (hy : y.isTag = true) : KidLike x y :=
  ⟨hx.trans hy.symm, fun h => by rw [hx] at h; cases h⟩

theorem kidsLike_refl (ks : List Node) : List.Forall₂ KidLike ks ks := List.forall₂_same.2 fun x _ => KidLike.refl x

theorem kidsLike_noAdj {ks ks' : List Node} (h : List.Forall₂ KidLike ks ks') (hn : NoAdj ks) : NoAdj ks' := by
  induction h with
  | nil => exact hn
  | @cons x y l l' hxy hl ih =>
    have ht : NoAdj l' := ih hn.tail
    cases hl with
    | nil => exact List.IsChain.singleton _
    | cons hab hl =>
      rw [NoAdj, List.isChain_cons_cons] at hn ⊢
      exact ⟨by rw [← hxy.1, ← hab.1]; exact hn.1, ht⟩

theorem kidsLike_texts {ks ks' : List Node} (h : List.Forall₂ KidLike ks ks') {s : Str} (hs : Node.text s ∈ ks') :
    Node.text s ∈ ks := by
  induction h with
  | nil => cases hs
  | @cons x y l l' hxy hl ih =>
    rcases List.mem_cons.1 hs with e | hs
    · subst e
      have := hxy.2 (by rw [hxy.1]; rfl)
      subst this
      simp
    · exact List.mem_cons_of_mem _ (ih hs)

theorem kidsLike_solid {ks ks' : List Node} (h : List.Forall₂ KidLike ks ks') (hs : SolidKids ks) : SolidKids ks' := by
  rcases hs with ⟨h1, h2⟩ | ⟨s, rfl⟩
  · exact .inl ⟨kidsLike_noAdj h h1, fun s hs => h2 s (kidsLike_texts h hs)⟩
  · rcases h with _ | ⟨hxy, hl⟩
    cases hl
    exact .inr ⟨s, by rw [hxy.2 rfl]⟩

theorem solid_opened {F : Fl} {n : String} {a : Attrs} {ks : List Node} (h1 : NoAdj ks)
    (h2 : ∀ s, Node.text s ∈ ks → readText s = [.text s]) :
    (Node.tag n a ks).opened F = .tag n (readAttrs F (sortAttrs a)) (ks.map (Node.opened F)) := by
  rw [opened_tag, reloadKids_solid h1 h2]

theorem updKids_alike {P : Node → Bool} {g : Node → Node} (hg : ∀ x, x.isTag = true → (g x).isTag = true) :
    ∀ {ks ks' : List Node}, updKids P g ks = some ks' → List.Forall₂ KidLike ks ks'
  | [], _, h => by cases h
  | x :: r, ks', h => by
    rw [updKids] at h
    cases hx : updNode P g x with
    | some y =>
      rw [hx] at h
      injection h with h
      subst h
      refine .cons ?_ (kidsLike_refl r)
      cases x with
      | text s => cases hx
      | tag n a ks =>
        refine KidLike.of_tags rfl ?_
        rw [updNode] at hx
        split at hx
        · injection hx with hx
          rw [← hx]; exact hg _ rfl
        · cases hk : updKids P g ks with
          | none => rw [hk] at hx; cases hx
          | some ks' =>
            rw [hk] at hx
            injection hx with hx
            rw [← hx]; rfl
    | none =>
      rw [hx] at h
      simp only at h
      cases hr : updKids P g r with
      | none => rw [hr] at h; cases h
      | some r' =>
        rw [hr] at h
        injection h with h
        subst h
        exact .cons (KidLike.refl x) (updKids_alike hg hr)

theorem replaceValue_opened {F : Fl} {u : Node} (hu : u.isTag = true) {n : String} {a : Attrs} {ks : List Node}
    (hs : SolidKids ks) :
    (replaceValue u (.tag n a ks)).opened F = replaceValue (u.opened F) ((Node.tag n a ks).opened F) := by
  have hal : List.Forall₂ KidLike ks (ks.map fun x => if x.isTag then u else x) := by
    rw [List.forall₂_map_right_iff, List.forall₂_same]
    intro x _
    by_cases hx : x.isTag = true
    · rw [if_pos hx]; exact KidLike.of_tags hx hu
    · rw [if_neg hx]; exact KidLike.refl x
  rw [replaceValue, replaceValue, Node.kids, Node.setKids]
  rcases hs with ⟨h1, h2⟩ | ⟨s, rfl⟩
  · rw [solid_opened (kidsLike_noAdj hal h1) fun s hs => h2 s (kidsLike_texts hal hs), solid_opened h1 h2, Node.kids,
      Node.setKids, List.map_map, List.map_map]
    congr 1
    apply List.map_congr_left
    intro x _
    simp only [Function.comp_apply, opened_isTag]
    split <;> rfl
  · have hr : Node.reloadKids F [] [Node.text s] = readText s := by
      rw [Node.reloadKids, Node.reloadKids, List.nil_append]
    rw [opened_tag, opened_tag, Node.kids, Node.setKids]
    simp only [List.map_cons, List.map_nil, Node.isTag, Bool.false_eq_true, if_false, Node.sorted, hr]
    congr 1
    rw [readText]
    split
    · rfl
    · split <;> rfl

theorem updKids_text {P : Node → Bool} {g : Node → Node} (s : Str) : updKids P g [.text s] = none := rfl

theorem updKids_readText {P : Node → Bool} {g : Node → Node} (s : Str) : updKids P g (readText s) = none := by
  rw [readText]
  split
  · rfl
  · split <;> rfl

mutual
theorem updNode_opened {F : Fl} {f : Str} {u : Node} (hu : u.isTag = true) : ∀ {n : Node}, n.XmlOk F → Clean n →
    updNode (isParam f) (replaceValue (u.opened F)) (n.opened F) =
      (updNode (isParam f) (replaceValue u) n).map (Node.opened F)
  | .text s, _, _ => rfl
  | .tag n a ks, hx, hc => by
    have hp := opened_isParam hx hc f
    have hrep := replaceValue_opened (F := F) hu (n := n) (a := a) hc.2.1
    rw [updNode]
    by_cases hpp : isParam f (.tag n a ks) = true
    · rw [if_pos hpp, Option.map_some, hrep]
      rw [opened_tag] at hp ⊢
      rw [updNode, if_pos (hp.trans hpp)]
    · rw [if_neg hpp]
      rcases hc.2.1 with ⟨h1, h2⟩ | ⟨s, rfl⟩
      · rw [solid_opened h1 h2] at hp ⊢
        rw [updNode, if_neg (by rw [hp]; exact hpp), updKids_opened hu hx.2.2 hc.2.2]
        cases hk : updKids (isParam f) (replaceValue u) ks with
        | none => rfl
        | some ks' =>
          have hal := updKids_alike (fun x hx => by cases x <;> exact hx) hk
          simp only [Option.map_some]
          rw [solid_opened (kidsLike_noAdj hal h1) fun s hs => h2 s (kidsLike_texts hal hs)]
      · rw [updKids_text, opened_tag, updNode]
        rw [opened_tag] at hp
        rw [if_neg (by rw [hp]; exact hpp)]
        have hr : Node.reloadKids F [] ([Node.text s].map Node.sorted) = readText s := by
          rw [List.map_cons, Node.sorted, List.map_nil, Node.reloadKids, Node.reloadKids, List.nil_append]
        rw [hr, updKids_readText]
        rfl
theorem updKids_opened {F : Fl} {f : Str} {u : Node} (hu : u.isTag = true) : ∀ {ks : List Node},
    Node.XmlOkKids F ks → CleanAll ks →
    updKids (isParam f) (replaceValue (u.opened F)) (ks.map (Node.opened F)) =
      (updKids (isParam f) (replaceValue u) ks).map (List.map (Node.opened F))
  | [], _, _ => rfl
  | x :: r, hx, hc => by
    rw [List.map_cons, updKids, updKids, updNode_opened hu hx.1 hc.1]
    cases updNode (isParam f) (replaceValue u) x with
    | some y => rfl
    | none =>
      simp only [Option.map_none]
      rw [updKids_opened hu hx.2 hc.2]
      cases updKids (isParam f) (replaceValue u) r <;> rfl
end

/-- Putting a text in a layer, and saving and opening. -/
theorem putText_opened {F : Fl} {u z : Node} (hu : u.isTag = true) (hx : z.XmlOk F) (hc : Clean z) :
    (putText u z).opened F = putText (u.opened F) (z.opened F) := by
  cases z with
  | text s => rfl
  | tag n a ks =>
    rw [putText, putText, updFirst]
    rcases hc.2.1 with ⟨h1, h2⟩ | ⟨s, rfl⟩
    · rw [solid_opened h1 h2, updFirst, updKids_opened hu hx.2.2 hc.2.2]
      cases hk : updKids (isParam "text".toList) (replaceValue u) ks with
      | none => rw [Option.getD_none, solid_opened h1 h2]; rfl
      | some ks' =>
        have hal := updKids_alike (fun x hx => by cases x <;> exact hx) hk
        rw [Option.getD_some, solid_opened (kidsLike_noAdj hal h1) fun s hs => h2 s (kidsLike_texts hal hs)]
        rfl
    · rw [updKids_text, Option.getD_none, opened_tag, updFirst]
      have hr : Node.reloadKids F [] ([Node.text s].map Node.sorted) = readText s := by
        rw [List.map_cons, Node.sorted, List.map_nil, Node.reloadKids, Node.reloadKids, List.nil_append]
      rw [hr, updKids_readText]
      rfl

mutual
theorem clean_updNode {P : Node → Bool} {u : Node} (hu : u.isTag = true) (huc : Clean u) : ∀ {n m : Node}, Clean n →
    updNode P (replaceValue u) n = some m → Clean m
  | .text s, _, _, h => by cases h
  | .tag n a ks, m, hc, h => by
    rw [updNode] at h
    split at h
    · injection h with h
      subst h
      rw [replaceValue, Node.kids, Node.setKids]
      refine ⟨hc.1, kidsLike_solid (ks := ks) ?_ hc.2.1, cleanAll_iff.2 ?_⟩
      · rw [List.forall₂_map_right_iff, List.forall₂_same]
        intro x _
        by_cases hx : x.isTag = true
        · rw [if_pos hx]; exact KidLike.of_tags hx hu
        · rw [if_neg hx]; exact KidLike.refl x
      · intro k hk
        obtain ⟨x, hx, rfl⟩ := List.mem_map.1 hk
        split
        · exact huc
        · exact hc.kid hx
    · cases hk : updKids P (replaceValue u) ks with
      | none => rw [hk] at h; cases h
      | some ks' =>
        rw [hk] at h
        injection h with h
        subst h
        exact ⟨hc.1, kidsLike_solid (updKids_alike (fun x hx => by cases x <;> exact hx) hk) hc.2.1,
          clean_updKids hu huc hc.2.2 hk⟩
theorem clean_updKids {P : Node → Bool} {u : Node} (hu : u.isTag = true) (huc : Clean u) : ∀ {ks ms : List Node},
    CleanAll ks → updKids P (replaceValue u) ks = some ms → CleanAll ms
  | [], _, _, h => by cases h
  | x :: r, ms, hc, h => by
    rw [updKids] at h
    cases hx : updNode P (replaceValue u) x with
    | some y =>
      rw [hx] at h
      injection h with h
      subst h
      exact ⟨clean_updNode hu huc hc.1 hx, hc.2⟩
    | none =>
      rw [hx] at h
      simp only at h
      cases hr : updKids P (replaceValue u) r with
      | none => rw [hr] at h; cases h
      | some r' =>
        rw [hr] at h
        injection h with h
        subst h
        exact ⟨hc.1, clean_updKids hu huc hc.2 hr⟩
end

theorem clean_putText {u z : Node} (hu : u.isTag = true) (huc : Clean u) (hc : Clean z) : Clean (putText u z) := by
  cases z with
  | text s => trivial
  | tag n a ks =>
    rw [putText, updFirst]
    cases hk : updKids (isParam "text".toList) (replaceValue u) ks with
    | none => exact hc
    | some ks' =>
      exact ⟨hc.1, kidsLike_solid (updKids_alike (fun x hx => by cases x <;> exact hx) hk) hc.2.1,
        clean_updKids hu huc hc.2.2 hk⟩

end Sang
