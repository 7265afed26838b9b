import Verif.Props.Twice
import Verif.Props.SaveOpen

/-!
# Lemmas: documents which saving and opening keeps in shape
-/

namespace Sang

open Spec

/-- Children which are read as they are written: no two texts next to each other, and only such texts as reading
keeps. Or else a text is all there is. -/
def SolidKids (ks : List Node) : Prop :=
  (NoAdj ks ∧ ∀ s, Node.text s ∈ ks → readText s = [.text s]) ∨ ∃ s, ks = [.text s]

/-- Attributes which are read as they are written, except perhaps times. -/
def CleanAttrs (a : Attrs) : Prop := ∀ p ∈ a, p.1 ≠ "time" → ∃ s, p.2 = .str s ∧ Plain s

mutual
/-- A document in which everything is so. -/
def Clean : Node → Prop
  | .text _ => True
  | .tag _ a ks => CleanAttrs a ∧ SolidKids ks ∧ CleanAll ks
def CleanAll : List Node → Prop
  | [] => True
  | x :: r => Clean x ∧ CleanAll r
end

theorem cleanAll_iff {ks : List Node} : CleanAll ks ↔ ∀ k ∈ ks, Clean k := by
  induction ks with
  | nil => simp [CleanAll]
  | cons x r ih => simp [CleanAll, ih]

mutual
theorem Node.Tidy.clean : ∀ {n : Node}, n.Tidy → Clean n
  | .text _, _ => trivial
  | .tag n a ks, h => by
    refine ⟨fun p hp _ => ?_, .inl ⟨h.2.2.1, fun s hs => ?_⟩, Node.TidyAll.clean h.2.2.2⟩
    · obtain ⟨-, v, hv, h1, h2, h3, h4⟩ := h.2.1.2 p hp
      refine ⟨v, hv, fun c hc => ⟨?_, ?_, ?_⟩⟩ <;> rintro rfl <;> contradiction
    · exact readText_id (Node.TidyAll.text h.2.2.2 hs)
theorem Node.TidyAll.clean : ∀ {ks : List Node}, Node.TidyAll ks → CleanAll ks
  | [], _ => trivial
  | _ :: _, h => ⟨Node.Tidy.clean h.1, Node.TidyAll.clean h.2⟩
theorem Node.TidyAll.text : ∀ {ks : List Node}, Node.TidyAll ks → ∀ {s}, Node.text s ∈ ks → KeptText s
  | [], _, s, hs => by cases hs
  | x :: r, h, s, hs => by
    rcases List.mem_cons.1 hs with rfl | hs
    · exact h.1.1
    · exact Node.TidyAll.text h.2 hs
end

/-! ## Saved and opened -/

theorem opened_text (F : Fl) (s : Str) : (Node.text s).opened F = .text s := rfl

theorem opened_tag (F : Fl) (n : String) (a : Attrs) (ks : List Node) :
    (Node.tag n a ks).opened F = .tag n (readAttrs F (sortAttrs a)) (Node.reloadKids F [] (ks.map Node.sorted)) := by
  rw [Node.opened, Node.sorted, Node.reload, sortedKids_map]
  rfl

theorem reloadKids_solid {F : Fl} : ∀ {ks : List Node}, NoAdj ks → (∀ s, Node.text s ∈ ks → readText s = [.text s]) →
    Node.reloadKids F [] (ks.map Node.sorted) = ks.map (Node.opened F)
  | [], _, _ => by rw [List.map_nil, Node.reloadKids]; rfl
  | [.text s], _, ht => by
    rw [List.map_singleton, Node.sorted, Node.reloadKids, Node.reloadKids, List.nil_append, ht s (by simp)]
    rfl
  | .text s :: .text t :: r, hn, _ => by
    rw [NoAdj, List.isChain_cons_cons] at hn
    simp [Node.isTag] at hn
  | .text s :: .tag n a ks :: r, hn, ht => by
    rw [NoAdj, List.isChain_cons_cons] at hn
    have ih := reloadKids_solid (F := F) (ks := r) hn.2.tail fun s hs => ht s (by simp [hs])
    rw [List.map_cons, List.map_cons, Node.sorted, Node.sorted, Node.reloadKids, List.nil_append, Node.reloadKids,
      ht s (by simp), ih]
    rfl
  | .tag n a ks :: r, hn, ht => by
    have ih := reloadKids_solid (F := F) (ks := r) hn.tail fun s hs => ht s (by simp [hs])
    rw [List.map_cons, Node.sorted, Node.reloadKids, ih]
    rfl

/-- The children after saving and opening, as far as they are elements. -/
theorem opened_kids {F : Fl} {n : String} {a : Attrs} {ks : List Node} (h : SolidKids ks) :
    ((Node.tag n a ks).opened F).kids = ks.map (Node.opened F) ∨
      (∃ s, ks = [.text s]) ∧ (((Node.tag n a ks).opened F).kids = [] ∨
        ∃ t, ((Node.tag n a ks).opened F).kids = [.text t]) := by
  rw [opened_tag, Node.kids]
  rcases h with ⟨h1, h2⟩ | ⟨s, rfl⟩
  · exact .inl (reloadKids_solid h1 h2)
  · refine .inr ⟨⟨s, rfl⟩, ?_⟩
    rw [List.map_singleton, Node.sorted, Node.reloadKids, Node.reloadKids, List.nil_append, readText]
    split
    · exact .inl rfl
    · split
      · exact .inr ⟨_, rfl⟩
      · exact .inr ⟨_, rfl⟩

theorem opened_get_clean {F : Fl} {n : Node} (hx : n.XmlOk F) (hc : Clean n) {k : String} (hk : k ≠ "time") :
    (n.opened F).attrs.get k = n.attrs.get k := by
  rw [opened_get hx]
  cases ha : n.attrs.get k with
  | none => rfl
  | some v =>
    cases n with
    | text s => cases ha
    | tag m a ks =>
      have hm : (k, v) ∈ a := by
        rw [Node.attrs, Attrs.get] at ha
        obtain ⟨l1, l2, rfl, -⟩ := List.lookup_eq_some_iff.1 ha
        simp
      obtain ⟨s, hs, hp⟩ := hc.1 _ hm hk
      simp only at hs
      subst hs
      rw [Option.map_some, AttrV.str', attrSpaces_id hp]

theorem Clean.kid {n : String} {a : Attrs} {ks : List Node} (h : Clean (.tag n a ks)) {k : Node} (hk : k ∈ ks) :
    Clean k := cleanAll_iff.1 h.2.2 k hk

theorem XmlOk.kid {F : Fl} {n : String} {a : Attrs} {ks : List Node} (h : (Node.tag n a ks).XmlOk F) {k : Node}
    (hk : k ∈ ks) : k.XmlOk F := xmlOkKids_iff.1 h.2.2 k hk

/-- Elements stay in their places. -/
theorem opened_at {F : Fl} : ∀ {p : List ℕ} {n x : Node}, Clean n → nodeAt p n = some x → x.isTag = true →
    nodeAt p (n.opened F) = some (x.opened F)
  | [], n, x, _, h, _ => by injection h with h; subst h; rfl
  | i :: p, .text s, x, _, h, _ => by rw [nodeAt_text (by simp)] at h; cases h
  | i :: p, .tag n a ks, x, hc, h, ht => by
    rw [nodeAt_cons, Node.kids] at h
    rw [nodeAt_cons]
    cases hi : ks[i]? with
    | none => rw [hi] at h; cases h
    | some y =>
      rw [hi] at h
      rcases opened_kids (F := F) (n := n) (a := a) hc.2.1 with hk | ⟨⟨s, rfl⟩, -⟩
      · rw [hk, List.getElem?_map, hi]
        exact opened_at (hc.kid (List.mem_of_getElem? hi)) h ht
      · cases i with
        | succ i => cases hi
        | zero =>
          injection hi with hi
          subst hi
          cases p with
          | nil => injection h with h; subst h; cases ht
          | cons j p => rw [Option.bind_some, nodeAt_text (by simp)] at h; cases h

theorem of_opened_at {F : Fl} : ∀ {p : List ℕ} {n z : Node}, Clean n → nodeAt p (n.opened F) = some z →
    z.isTag = true → ∃ x, nodeAt p n = some x ∧ x.isTag = true ∧ z = x.opened F
  | [], n, z, _, h, ht => by
    injection h with h
    subst h
    exact ⟨n, rfl, by rwa [opened_isTag] at ht, rfl⟩
  | i :: p, .text s, x, _, h, _ => by rw [opened_text, nodeAt_text (by simp)] at h; cases h
  | i :: p, .tag n a ks, z, hc, h, ht => by
    rw [nodeAt_cons] at h
    rcases opened_kids (F := F) (n := n) (a := a) hc.2.1 with hk | ⟨-, hk | ⟨t, hk⟩⟩
    · rw [hk, List.getElem?_map] at h
      cases hi : ks[i]? with
      | none => rw [hi] at h; cases h
      | some y =>
        rw [hi] at h
        obtain ⟨x, h1, h2⟩ := of_opened_at (hc.kid (List.mem_of_getElem? hi)) h ht
        exact ⟨x, by rw [nodeAt_cons, Node.kids, hi]; exact h1, h2⟩
    · rw [hk] at h; cases h
    · rw [hk] at h
      cases i with
      | succ i => cases h
      | zero =>
        simp only [List.getElem?_cons_zero] at h
        cases p with
        | nil => injection h with h; subst h; cases ht
        | cons j p => rw [Option.bind_some, nodeAt_text (by simp)] at h; cases h

theorem clean_at {p : List ℕ} {n x : Node} (hc : Clean n) (h : nodeAt p n = some x) : Clean x := by
  induction p generalizing n with
  | nil => injection h with h; subst h; exact hc
  | cons i p ih =>
    cases n with
    | text s => rw [nodeAt_text (by simp)] at h; cases h
    | tag n a ks =>
      rw [nodeAt_cons, Node.kids] at h
      cases hi : ks[i]? with
      | none => rw [hi] at h; cases h
      | some y =>
        rw [hi] at h
        exact ih (hc.kid (List.mem_of_getElem? hi)) h

/-! ## Heads -/

theorem opened_isLayer {F : Fl} {n : Node} (hx : n.XmlOk F) (hc : Clean n) (ty : String) :
    IsLayer ty (n.opened F) ↔ IsLayer ty n := by
  rw [IsLayer, IsLayer, opened_name, opened_get_clean hx hc (by decide)]

theorem opened_isParam {F : Fl} {n : Node} (hx : n.XmlOk F) (hc : Clean n) (f : Str) :
    isParam f (n.opened F) = isParam f n := by
  rw [isParam, isParam, opened_name, opened_get_clean hx hc (by decide)]

theorem opened_getDesc {F : Fl} {n : Node} (hx : n.XmlOk F) (hc : Clean n) : getDesc F (n.opened F) = getDesc F n := by
  rw [getDesc, getDesc, opened_get_clean hx hc (by decide)]

theorem opened_bywordsGroup {F : Fl} {n : Node} (hx : n.XmlOk F) (hc : Clean n) :
    BywordsGroup F (n.opened F) ↔ BywordsGroup F n := by
  rw [BywordsGroup, BywordsGroup, opened_isLayer hx hc, opened_getDesc hx hc]

theorem opened_layerOf {F : Fl} {n : Node} (hx : n.XmlOk F) (hc : Clean n) : layerOf (n.opened F) = layerOf n := by
  rw [layerOf, layerOf, opened_get_clean hx hc (by decide)]

theorem opened_isTextHead {F : Fl} {n : String} {a : Attrs} {ks : List Node} (hx : (Node.tag n a ks).XmlOk F)
    (hc : Clean (.tag n a ks)) : isTextHead n (readAttrs F (sortAttrs a)) = isTextHead n a := by
  have h := opened_get_clean hx hc (k := "type") (by decide)
  rw [opened_tag, Node.attrs, Node.attrs] at h
  rw [isTextHead, isTextHead, h]

mutual
theorem opened_calm {F : Fl} : ∀ {n : Node} {b : Bool}, n.XmlOk F → Clean n → Calm b n → Calm b (n.opened F)
  | .text _, _, _, _, _ => trivial
  | .tag n a ks, b, hx, hc, h => by
    have hk := opened_kids (F := F) (n := n) (a := a) hc.2.1
    have hn := opened_get_clean hx hc (k := "name") (by decide)
    have ht := opened_isTextHead hx hc
    rw [opened_tag] at hk hn ⊢
    rw [Node.attrs, Node.attrs] at hn
    refine ⟨by rw [hn]; exact h.1, h.2.1, ?_⟩
    rw [ht]
    simp only [Node.kids] at hk
    rcases hk with hk | ⟨-, hk | ⟨t, hk⟩⟩
    · rw [hk]; exact opened_calmKids hx.2.2 hc.2.2 h.2.2
    · rw [hk]; trivial
    · rw [hk]; exact ⟨trivial, trivial⟩
theorem opened_calmKids {F : Fl} : ∀ {ks : List Node} {b : Bool}, Node.XmlOkKids F ks → CleanAll ks → CalmKids b ks →
    CalmKids b (ks.map (Node.opened F))
  | [], _, _, _, _ => trivial
  | _ :: _, _, hx, hc, h => ⟨opened_calm hx.1 hc.1 h.1, opened_calmKids hx.2 hc.2 h.2⟩
end

/-! ## Finding layers -/

theorem no_places_text {p : Place} {i : ℕ} (t : Str) : placesIn p i [.text t] = [] := by
  rw [placesIn, placesOf, placesIn]; rfl

mutual
theorem opened_places {F : Fl} : ∀ {n : Node} {p : Place}, Clean n →
    placesOf p (n.opened F) = (placesOf p n).map (Prod.map id (Node.opened F))
  | .text _, _, _ => rfl
  | .tag n a ks, p, h => by
    have hk := opened_kids (F := F) (n := n) (a := a) h.2.1
    rw [placesOf, opened_tag] at *
    simp only [Node.kids] at hk
    rw [placesOf, List.map_cons, Prod.map_apply, opened_tag]
    congr 1
    rcases hk with hk | ⟨⟨s, rfl⟩, hk | ⟨t, hk⟩⟩
    · rw [hk]; exact opened_placesIn h.2.2
    · rw [hk, no_places_text]; rfl
    · rw [hk, no_places_text, no_places_text]; rfl
theorem opened_placesIn {F : Fl} : ∀ {ks : List Node} {p : Place} {i : ℕ}, CleanAll ks →
    placesIn p i (ks.map (Node.opened F)) = (placesIn p i ks).map (Prod.map id (Node.opened F))
  | [], _, _, _ => rfl
  | x :: r, p, i, h => by
    rw [List.map_cons, placesIn, placesIn, List.map_append, opened_places h.1, opened_placesIn h.2]
end

theorem opened_layersAt {F : Fl} {n : Node} {p : Place} (h : Clean n) :
    layersAt p (n.opened F) = (layersAt p n).map (Prod.map id (Node.opened F)) := by
  have hl : ∀ l : List (Place × Node), (l.map (Prod.map id (Node.opened F))).filter layerAt =
      (l.filter layerAt).map (Prod.map id (Node.opened F)) := by
    intro l
    rw [List.filter_map]
    congr 1
    apply List.filter_congr
    intro x _
    simp only [Function.comp_apply, layerAt, Prod.map_snd, opened_name]
  cases n with
  | text s => rfl
  | tag n a ks =>
    rw [layersAt, layersAt, ← hl]
    congr 1
    rcases opened_kids (F := F) (n := n) (a := a) h.2.1 with hk | ⟨⟨s, rfl⟩, hk | ⟨t, hk⟩⟩
    · rw [hk, Node.kids]; exact opened_placesIn h.2.2
    · rw [hk, Node.kids, no_places_text]; rfl
    · rw [hk, Node.kids, no_places_text, no_places_text]; rfl

end Sang
