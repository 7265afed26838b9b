import Verif.Spec.SaveOpen
import Verif.Lemmas.SaveOpen
import Verif.Props.Resaved
import Verif.Props.XmlText
import Verif.Group

/-!
# C120: what an animation holds is the same after saving and opening
-/

namespace Sang
open Spec

theorem elementAt_opened (F : Fl) (p : List ℕ) (d : Node) :
    elementAt p (d.opened F) = (elementAt p d).map (Node.opened F) := by
  induction p generalizing d with
  | nil => rfl
  | cons i p ih =>
    rw [elementAt, elementAt, opened_tagKids, List.getElem?_map]
    cases d.tagKids[i]? with
    | none => rfl
    | some x => exact ih x

theorem elementAt_ok {F : Fl} {p : List ℕ} {d x : Node} (hd : d.XmlOk F) (ht : d.isTag = true)
    (h : elementAt p d = some x) : x.XmlOk F ∧ x.isTag = true := by
  induction p generalizing d with
  | nil => rw [elementAt] at h; injection h with h; exact h ▸ ⟨hd, ht⟩
  | cons i p ih =>
    rw [elementAt] at h
    split at h
    · cases h
    · next y hy =>
      have hm := List.mem_of_getElem? hy
      exact ih (xmlOk_tagKids hd y hm) (List.mem_filter.1 hm).2 h

theorem savedAs_opened {F : Fl} {d e : Node} (hd : d.XmlOk F) (ht : d.isTag = true) (h : SavedAs F d e) :
    e = d.opened F := by
  obtain ⟨s, hs⟩ := h
  rw [parse_docText hd ht] at hs
  injection hs with hs
  exact hs.symm

theorem samePlace_opened {F : Fl} {d e x y : Node} (hd : d.XmlOk F) (ht : d.isTag = true) (h : SavedAs F d e)
    (hp : SamePlace d e x y) : y = x.opened F ∧ x.XmlOk F ∧ x.isTag = true := by
  obtain ⟨p, h1, h2⟩ := hp
  rw [savedAs_opened hd ht h, elementAt_opened, h1] at h2
  injection h2 with h2
  exact ⟨h2.symm, elementAt_ok hd ht h1⟩

theorem elementAt_append {p q : List ℕ} {d x : Node} (h : elementAt p d = some x) :
    elementAt (p ++ q) d = elementAt q x := by
  induction p generalizing d with
  | nil => rw [elementAt] at h; injection h with h; rw [h]; rfl
  | cons i p ih =>
    rw [elementAt] at h
    rw [List.cons_append, elementAt]
    split at h
    · cases h
    · exact ih h

theorem samePlace_kid {F : Fl} {d e x y k : Node} (hd : d.XmlOk F) (ht : d.isTag = true) (h : SavedAs F d e)
    (hp : SamePlace d e x y) (hk : k ∈ x.tagKids) : SamePlace d e k (k.opened F) := by
  obtain ⟨p, h1, h2⟩ := hp
  obtain ⟨i, hi⟩ := List.getElem?_of_mem hk
  have e1 : elementAt (p ++ [i]) d = some k := by
    rw [elementAt_append h1, elementAt, hi]; rfl
  refine ⟨p ++ [i], e1, ?_⟩
  rw [savedAs_opened hd ht h, elementAt_opened, e1]; rfl

mutual
theorem place_subtree : ∀ (n x : Node), x ∈ n.subtree → x.isTag = true → ∃ p, elementAt p n = some x
  | .text s, x, hx, ht => by
    rw [Node.subtree, List.mem_singleton] at hx; subst hx; simp [Node.isTag] at ht
  | .tag m a ks, x, hx, ht => by
    rw [Node.subtree] at hx
    rcases List.mem_cons.mp hx with rfl | hx
    · exact ⟨[], rfl⟩
    · obtain ⟨y, hy, p, hp⟩ := place_nodesIn ks x hx ht
      obtain ⟨i, hi⟩ := List.getElem?_of_mem (show y ∈ (Node.tag m a ks).tagKids from hy)
      exact ⟨i :: p, by rw [elementAt, hi]; exact hp⟩
theorem place_nodesIn : ∀ (ks : List Node) (x : Node), x ∈ Node.nodesIn ks → x.isTag = true →
    ∃ y ∈ ks.filter Node.isTag, ∃ p, elementAt p y = some x
  | [], x, hx, _ => by simp [Node.nodesIn] at hx
  | y :: r, x, hx, ht => by
    rw [Node.nodesIn] at hx
    rcases List.mem_append.mp hx with hx | hx
    · obtain ⟨p, hp⟩ := place_subtree y x hx ht
      have hy : y.isTag = true := by
        cases y with
        | text s => rw [Node.subtree, List.mem_singleton] at hx; subst hx; exact ht
        | tag => rfl
      exact ⟨y, by rw [List.filter_cons_of_pos hy]; exact List.mem_cons_self, p, hp⟩
    · obtain ⟨z, hz, hp⟩ := place_nodesIn r x hx ht
      refine ⟨z, ?_, hp⟩
      rw [List.filter_cons]
      split
      · exact List.mem_cons_of_mem _ hz
      · exact hz
end

theorem samePlace_desc {F : Fl} {d e x y k : Node} (hd : d.XmlOk F) (ht : d.isTag = true) (h : SavedAs F d e)
    (hp : SamePlace d e x y) (hk : k ∈ x.descTags) : SamePlace d e k (k.opened F) := by
  obtain ⟨p, h1, h2⟩ := hp
  obtain ⟨hk1, hk2⟩ := List.mem_filter.1 hk
  obtain ⟨q, hq⟩ := place_subtree x k (by
    cases x with
    | text s => simp [Node.kids, Node.nodesIn] at hk1
    | tag m a ks => rw [Node.subtree]; exact List.mem_cons_of_mem _ hk1) hk2
  have e1 : elementAt (p ++ q) d = some k := by rw [elementAt_append h1, hq]
  refine ⟨p ++ q, e1, ?_⟩
  rw [savedAs_opened hd ht h, elementAt_opened, e1]; rfl

/-- C120. A document that can be written can be read again, and every element of it is there in the same place,
with the same name; and there are no others. -/
theorem c120_places {F : Fl} {d : Node} (hd : d.XmlOk F) (ht : d.isTag = true) (short : Node → Bool) :
    ∃ e, parseXml (docText F short d) = .ok e ∧
      ∀ p, (elementAt p d).map Node.name = (elementAt p e).map Node.name := by
  refine ⟨_, parse_docText hd ht, fun p => ?_⟩
  rw [← Node.opened, elementAt_opened, Option.map_map]
  congr 1
  funext x
  exact (opened_name F x).symm

theorem numberAttr_opened {F : Fl} (hF : F.Lawful) {x : Node} (hx : x.XmlOk F) {k : String} (hk : NumberAttr F x k)
    {a : AttrV} (ha : x.attrs.get k = some a) {q : ℚ} (hq : a.toFloat F = .ok q) :
    (x.opened F).attrs.get k = some (.str (attrSpaces (a.str' F))) ∧
      (AttrV.str (attrSpaces (a.str' F))).toFloat F = .ok q := by
  refine ⟨by rw [opened_get hx, ha]; rfl, pyFloat_attrSpaces ?_⟩
  rcases hk a ha with ⟨s, rfl⟩ | ⟨r, rfl, hr⟩ | ⟨i, rfl⟩
  · exact hq
  · rw [AttrV.str', pyFloat_reprF hF hr, ← hq, AttrV.toFloat, show F.rnd r = r from hr]
  · rw [AttrV.str', pyFloat_intStr, ← hq, AttrV.toFloat]

theorem field_opened {F : Fl} {x : Node} (hx : x.XmlOk F) {k : String} {c : VCls} {v : Node}
    (hv : compositeField x = .ok (k, c, v)) :
    compositeField (x.opened F) = .ok (k, c, v.opened F) ∧ v ∈ x.tagKids := by
  rw [compositeField] at hv
  split at hv
  · cases hv
  · next hnl =>
    split at hv
    · next w hw =>
      split at hv
      · cases hv
      · next c' hc' =>
        injection hv with hv
        simp only [Prod.mk.injEq] at hv
        obtain ⟨rfl, rfl, rfl⟩ := hv
        have hvm : w ∈ x.tagKids := by rw [hw]; exact List.mem_cons_self
        refine ⟨?_, hvm⟩
        rw [compositeField, opened_name, if_neg hnl, opened_tagKids, hw, List.map_cons, List.map_nil]
        dsimp only
        rw [opened_fromTag (xmlOk_tagKids hx w hvm) hc']
    · cases hv

theorem fromTag_waypoint_opened {F : Fl} (hF : F.Lawful) {root root' : Option Attrs} {f : Option ℚ}
    (hf : readFps F root = .ok f) (hf' : readFps F root' = .ok f) {ty : Str} {n : Node} {w : Waypoint}
    (hn : n.XmlOk F) (h : Waypoint.fromTag F root ty n = .ok w)
    (hs : ∀ a, n.attrs.get "time" = some a → SavableTime f a) :
    Waypoint.fromTag F root' (attrSpaces ty) (n.opened F) = .ok {w with val := w.val.opened F} ∧
      w.val ∈ n.tagKids := by
  simp only [Waypoint.fromTag] at h
  split at h
  · simp at h
  next hname =>
  split at h
  · simp at h
  next a hget =>
  split at h
  · simp at h
  next t ht =>
  split at h
  · next v hv =>
    split at h
    · simp at h
    next hna =>
    split at h
    · simp at h
    next hty =>
    split at h
    · simp at h
    next c hc =>
    split at h
    · simp at h
    next b hb =>
    split at h
    · simp at h
    next e he =>
    split at h
    · simp at h
    next b' hb' =>
    split at h
    · simp at h
    next e' he' =>
    injection h with h; subst h
    have hvm : v ∈ n.tagKids := by rw [hv]; exact List.mem_cons_self
    refine ⟨?_, hvm⟩
    have hfv := opened_fromTag (xmlOk_tagKids hn v hvm) hc
    have hpl := (fromTag_reload (F := F) hna hc).2
    have hty' : v.name.toList = ty := by simpa using hty
    have hpt : Plain ty := hty' ▸ hpl
    have h1 : (n.opened F).attrs.get "time" = some (.str (attrSpaces (a.str' F))) := by
      rw [opened_get hn, hget]; rfl
    have h2 : (n.opened F).tagKids = [v.opened F] := by rw [opened_tagKids, hv]; rfl
    have h3 : strAttr (n.opened F) "before" = .ok b := by
      rw [opened_strAttr hn hb, attrSpaces_id (checkInterp_plain hb')]
    have h4 : strAttr (n.opened F) "after" = .ok e := by
      rw [opened_strAttr hn he, attrSpaces_id (checkInterp_plain he')]
    have h5 : T.new F root' (.str (attrSpaces (a.str' F))) = .ok t := by
      rw [savable_reads hF hf hf' (hs a hget)]; exact ht
    simp only [Waypoint.fromTag, opened_name, if_neg hname, h1, AttrV.toTArg, h5, h2, if_neg hna, hfv,
      h3, h4, hb', he', attrSpaces_id hpt, hty', ne_eq, not_true_eq_false, if_false]
  · simp at h

theorem putWp_map (g : Node → Node) (w : Waypoint) (ws : List Waypoint) :
    putWp {w with val := g w.val} (ws.map fun w => {w with val := g w.val}) =
      (putWp w ws).map fun w => {w with val := g w.val} := by
  induction ws with
  | nil => rfl
  | cons x r ih =>
    simp only [List.map_cons, putWp, ih]
    split <;> rfl

theorem foldl_putWp_map (g : Node → Node) (ws acc : List Waypoint) :
    (ws.map fun w : Waypoint => {w with val := g w.val}).foldl (fun d w => putWp w d)
        (acc.map fun w => {w with val := g w.val}) =
      (ws.foldl (fun d w => putWp w d) acc).map fun w => {w with val := g w.val} := by
  induction ws generalizing acc with
  | nil => rfl
  | cons w r ih => rw [List.map_cons, List.foldl_cons, List.foldl_cons, putWp_map, ih]

theorem mem_putWp_or {x w : Waypoint} {ws : List Waypoint} (h : x ∈ putWp w ws) : x = w ∨ x ∈ ws := by
  induction ws with
  | nil => rw [putWp, List.mem_singleton] at h; exact .inl h
  | cons y r ih =>
    rw [putWp] at h
    split at h
    · rcases List.mem_cons.mp h with h | h
      · exact .inl h
      · exact .inr (List.mem_cons_of_mem _ h)
    · rcases List.mem_cons.mp h with rfl | h
      · exact .inr List.mem_cons_self
      · rcases ih h with h | h
        · exact .inl h
        · exact .inr (List.mem_cons_of_mem _ h)

theorem layerRegistry_plain : ∀ p ∈ layerRegistry, Plain p.1 := by decide +kernel

theorem plain_of_layer {s : Str} {c : LClass} (h : layerRegistry.fromName s = .ok c) : Plain s := by
  simp only [Registry.fromName] at h
  split at h
  · simp at h
  · next d hd =>
    obtain ⟨l1, l2, hl, _⟩ := List.lookup_eq_some_iff.1 hd
    exact plain_of_normalise (layerRegistry_plain (normaliseName s, d) (by rw [hl]; simp))

theorem tagKids_descTags {x n : Node} (hx : x ∈ n.tagKids) : x ∈ n.descTags := by
  obtain ⟨h1, h2⟩ := List.mem_filter.1 hx
  refine List.mem_filter.2 ⟨?_, h2⟩
  generalize n.kids = ks at h1
  induction ks with
  | nil => simp at h1
  | cons y r ih =>
    rw [Node.nodesIn, List.mem_append]
    rcases List.mem_cons.mp h1 with rfl | h1
    · left
      cases x with
      | text s => simp [Node.isTag] at h2
      | tag m a ks => rw [Node.subtree]; exact List.mem_cons_self
    · exact .inr (ih h1)

theorem isParam_opened {F : Fl} {x : Node} (hx : x.XmlOk F)
    (hname : x.name = "param" → ∀ a, x.attrs.get "name" = some a → ∃ s, a = .str s ∧ OneLine s) (f : Str) :
    isParam f (x.opened F) = isParam f x := by
  rw [isParam, isParam, opened_name, opened_get hx]
  by_cases hn : x.name = "param"
  · congr 1
    cases ha : x.attrs.get "name" with
    | none => rfl
    | some a =>
      obtain ⟨s, rfl, hs⟩ := hname hn a ha
      rw [Option.map_some, AttrV.str', attrSpaces_id hs]
  · simp [hn]

theorem findParam_opened {F : Fl} {n : Node} (hn : n.XmlOk F) (hnames : ParamNames n) (f : Str) :
    findParam f (n.opened F) = (findParam f n).map (Node.opened F) := by
  rw [findParam, findParam, opened_descTags, List.filter_map, List.head?_map]
  congr 2
  apply List.filter_congr
  intro x hx
  exact isParam_opened (xmlOk_descTags hn x hx) (hnames x hx) f

theorem nameAndValue_opened {F : Fl} {p : Node} (hp : p.XmlOk F)
    (hname : p.name = "param" → ∀ a, p.attrs.get "name" = some a → ∃ s, a = .str s ∧ OneLine s)
    {s : Str} {c : VCls} {v : Node} (h : nameAndValue p = .ok (s, c, v)) :
    nameAndValue (p.opened F) = .ok (s, c, v.opened F) ∧ v ∈ p.tagKids := by
  rw [nameAndValue] at h
  split at h
  · cases h
  next hpn =>
  have hpn' : p.name = "param" := by simpa using hpn
  split at h
  · cases h
  · next t ht =>
    split at h
    · next w hw =>
      split at h
      · cases h
      · next c' hc' =>
        injection h with h
        simp only [Prod.mk.injEq] at h
        obtain ⟨rfl, rfl, rfl⟩ := h
        have hwm : w ∈ p.tagKids := by rw [hw]; exact List.mem_cons_self
        refine ⟨?_, hwm⟩
        obtain ⟨s', hs', hone⟩ := hname hpn' _ ht
        injection hs' with hs'; subst hs'
        rw [nameAndValue, opened_name, if_neg hpn, opened_get hp, ht, Option.map_some, AttrV.str',
          attrSpaces_id hone]
        dsimp only
        rw [opened_tagKids, hw, List.map_cons, List.map_nil]
        dsimp only
        rw [opened_fromTag (xmlOk_tagKids hp w hwm) hc']
    · cases h
  · cases h

theorem layerOf_opened {F : Fl} {x : Node} (hx : x.XmlOk F) {c : LClass} (hc : layerOf x = .ok c) :
    layerOf (x.opened F) = .ok c := by
  rw [layerOf] at hc
  split at hc
  · cases hc
  · next s hs =>
    rw [layerOf, opened_get hx, hs]
    show layerRegistry.fromName (attrSpaces s) = .ok c
    rw [attrSpaces_id (plain_of_layer hc)]
    exact hc
  · cases hc

theorem asLayer_opened {F : Fl} {x : Node} (hx : x.XmlOk F) {c : LObj} (hc : asLayer x = .ok c) :
    asLayer (x.opened F) = .ok (c.1, c.2.opened F) ∧ c.2 = x := by
  rw [asLayer] at hc
  split at hc
  · cases hc
  · next c' hc' =>
    injection hc with hc; subst hc
    rw [asLayer, layerOf_opened hx hc']
    exact ⟨rfl, rfl⟩

theorem mapRes_mem_of {α β : Type} {f : α → Res β} {l : List α} {r : List β} (h : mapRes f l = .ok r) {y : β}
    (hy : y ∈ r) : ∃ x ∈ l, f x = .ok y := by
  induction l generalizing r with
  | nil => injection h with h; subst h; simp at hy
  | cons x l ih =>
    rw [mapRes] at h
    split at h
    · cases h
    · next z hz =>
      split at h
      · cases h
      · next zs hzs =>
        injection h with h; subst h
        rcases List.mem_cons.mp hy with rfl | hy
        · exact ⟨x, List.mem_cons_self, hz⟩
        · obtain ⟨w, hw, hw2⟩ := ih hzs hy
          exact ⟨w, List.mem_cons_of_mem _ hw, hw2⟩

mutual
theorem subtree_trans : ∀ (n : Node) {x y : Node}, x ∈ n.subtree → y ∈ x.subtree → y ∈ n.subtree
  | .text s, x, y, hx, hy => by
    rw [Node.subtree, List.mem_singleton] at hx; subst hx; exact hy
  | .tag m a ks, x, y, hx, hy => by
    rw [Node.subtree] at hx
    rcases List.mem_cons.mp hx with rfl | hx
    · exact hy
    · rw [Node.subtree]; exact List.mem_cons_of_mem _ (nodesIn_trans ks hx hy)
theorem nodesIn_trans : ∀ (ks : List Node) {x y : Node}, x ∈ Node.nodesIn ks → y ∈ x.subtree → y ∈ Node.nodesIn ks
  | [], x, y, hx, _ => by simp [Node.nodesIn] at hx
  | z :: r, x, y, hx, hy => by
    rw [Node.nodesIn] at hx ⊢
    rcases List.mem_append.mp hx with hx | hx
    · exact List.mem_append_left _ (subtree_trans z hx hy)
    · exact List.mem_append_right _ (nodesIn_trans r hx hy)
end

theorem descTags_trans {n x y : Node} (hx : x ∈ n.descTags) (hy : y ∈ x.descTags) : y ∈ n.descTags := by
  obtain ⟨hx1, hx2⟩ := List.mem_filter.1 hx
  obtain ⟨hy1, hy2⟩ := List.mem_filter.1 hy
  refine List.mem_filter.2 ⟨nodesIn_trans _ hx1 ?_, hy2⟩
  cases x with
  | text s => simp [Node.isTag] at hx2
  | tag m a ks => rw [Node.subtree]; exact List.mem_cons_of_mem _ hy1

section
variable {F : Fl} {d e n m : Node} (hd : d.XmlOk F) (ht : d.isTag = true) (h : SavedAs F d e)
  (hp : SamePlace d e n m)
include hd ht h hp

theorem simpleText_opened {s : Str} (hs : simpleText n = .ok s) : simpleText m = .ok (attrSpaces s) := by
  obtain ⟨rfl, hn, -⟩ := samePlace_opened hd ht h hp
  rw [simpleText] at hs
  rw [simpleText, opened_get hn]
  split at hs
  · cases hs
  · next s' e => injection hs with hs; rw [e, ← hs]; rfl
  · cases hs

/-- C120. Real numbers, angles and integers are the same. -/
theorem c120_numbers :
    (∀ q, getFloat F n = .ok q → getFloat F m = .ok q) ∧ (∀ i, getInt n = .ok i → getInt m = .ok i) := by
  constructor
  · intro q hq
    rw [getFloat] at hq
    split at hq
    · cases hq
    · next s hs => rw [getFloat, simpleText_opened hd ht h hp hs]; exact pyFloat_attrSpaces hq
  · intro q hq
    rw [getInt] at hq
    split at hq
    · cases hq
    · next s hs => rw [getInt, simpleText_opened hd ht h hp hs]; exact pyInt_attrSpaces hq

/-- C120. Booleans are the same. -/
theorem c120_bool {b : Bool} (hb : getBool n = .ok b) : getBool m = .ok b := by
  rw [getBool] at hb
  split at hb
  · cases hb
  · next s hs =>
    rw [getBool, simpleText_opened hd ht h hp hs]
    injection hb with hb
    rw [← hb]
    dsimp only
    congr 1
    exact decide_eq_decide.2 (lower_attrSpaces s (by decide))

/-- C120. Text is the same, unless it is blank or has carriage returns. -/
theorem c120_string {s : Str} (hs : n.string? = some s) (hb : ∃ c ∈ s, ¬ c ∈ [' ', '\t', '\n', '\r', '\x0c'])
    (hr : '\r' ∉ s) : getString n = s ∧ getString m = s := by
  obtain ⟨rfl, hn, htn⟩ := samePlace_opened hd ht h hp
  refine ⟨by rw [getString, hs], ?_⟩
  have hsol : ¬ s.all asciiSpace = true := by
    intro e
    obtain ⟨c, hc, hc2⟩ := hb
    apply hc2
    have := List.all_eq_true.1 e c hc
    simp only [asciiSpace, Bool.or_eq_true, beq_iff_eq] at this
    rcases this with (((rfl | rfl) | rfl) | rfl) | rfl <;> decide
  rw [getString, opened_string htn hsol hs]
  exact newlines_id hr

/-- C120. Colours are the same. -/
theorem c120_color {cs : List ℚ} (hc : colorTuple F n = .ok cs) :
    colorTuple F m = .ok cs ∧ colorHex F m = colorHex F n := by
  obtain ⟨rfl, hn, htn⟩ := samePlace_opened hd ht h hp
  have key : colorTuple F (n.opened F) = .ok cs := by
    rw [colorTuple] at hc ⊢
    have := mapRes_reload (g := colorComponent F (n.opened F)) (p := id) (q := id) hc fun x hx y hy => ?_
    · rwa [List.map_id, List.map_id] at this
    · rw [colorComponent] at hy
      split at hy
      · cases hy
      · next k hk =>
        rw [id, colorComponent, opened_find, hk]
        have hkt : k.isTag = true := by
          have := List.mem_of_head? hk
          exact (List.mem_filter.1 (List.mem_filter.1 this).1).2
        exact opened_floatOpt hkt hy
  exact ⟨key, by rw [colorHex, colorHex, hc, key]⟩

/-- C120. Vectors are the same: as tuples, by subscript and by attribute. -/
theorem c120_vector :
    (∀ l, vectorTuple F n = .ok l → vectorTuple F m = .ok l) ∧
    (∀ k q, vectorGet F n k = .ok q → vectorGet F m k = .ok q) ∧
    ∀ k q, vectorAttr F n k = .ok q → (∀ x, n.find k = some x → x.string? ≠ none) →
      vectorAttr F m k = .ok q := by
  obtain ⟨rfl, hn, htn⟩ := samePlace_opened hd ht h hp
  refine ⟨fun l hl => ?_, fun k q hq => ?_, fun k q hq hx => ?_⟩
  · -- the two dictionaries
    let R : String × Option Str → String × Option Str → Prop := fun a b =>
      a.1 = b.1 ∧ ∀ q, floatOpt F a.2 = .ok q → floatOpt F b.2 = .ok q
    have hset : ∀ (k : String) (o o' : Option Str), (∀ q, floatOpt F o = .ok q → floatOpt F o' = .ok q) →
        ∀ a b, List.Forall₂ R a b → List.Forall₂ R (dictSet k o a) (dictSet k o' b) := by
      intro k o o' ho a b hab
      induction hab with
      | nil => exact .cons ⟨rfl, ho⟩ .nil
      | @cons x y a b hxy hab ih =>
        obtain ⟨x1, x2⟩ := x
        obtain ⟨y1, y2⟩ := y
        obtain ⟨rfl, hxy⟩ := hxy
        rw [dictSet, dictSet]
        split
        · exact .cons ⟨rfl, ho⟩ hab
        · exact .cons ⟨rfl, hxy⟩ ih
    have hdict : ∀ (ks : List Node), (∀ x ∈ ks, x.isTag = true) → ∀ a b, List.Forall₂ R a b →
        List.Forall₂ R (ks.foldl (fun d x => dictSet x.name x.string? d) a)
          ((ks.map (Node.opened F)).foldl (fun d x => dictSet x.name x.string? d) b) := by
      intro ks
      induction ks with
      | nil => intro _ a b hab; exact hab
      | cons x r ih =>
        intro hk a b hab
        rw [List.map_cons, List.foldl_cons, List.foldl_cons, opened_name]
        exact ih (fun y hy => hk y (List.mem_cons_of_mem _ hy)) _ _
          (hset _ _ _ (fun q hq => opened_floatOpt (hk x List.mem_cons_self) hq) a b hab)
    have hR : List.Forall₂ R (vectorDict n) (vectorDict (n.opened F)) := by
      rw [vectorDict, vectorDict, opened_tagKids]
      exact hdict _ (fun x hx => (List.mem_filter.1 hx).2) _ _ .nil
    rw [vectorTuple] at hl ⊢
    generalize vectorDict n = a at hl hR
    generalize vectorDict (n.opened F) = b at hR ⊢
    have hkeys : b.map Prod.fst = a.map Prod.fst := by
      clear hl
      induction hR with
      | nil => rfl
      | cons hx _ ih => rw [List.map_cons, List.map_cons, ih, hx.1]
    have hlook : ∀ k q, floatOpt F ((a.lookup k).getD none) = .ok q →
        floatOpt F ((b.lookup k).getD none) = .ok q := by
      intro k q
      clear hl hkeys
      induction hR with
      | nil => exact id
      | @cons x y a b hxy _ ih =>
        obtain ⟨x1, x2⟩ := x
        obtain ⟨y1, y2⟩ := y
        obtain ⟨rfl, hxy⟩ := hxy
        rw [List.lookup_cons, List.lookup_cons]
        cases k == x1
        · exact ih
        · exact hxy q
    rw [hkeys]
    have := mapRes_reload (g := fun k => floatOpt F ((b.lookup k).getD none)) (p := id) (q := id) hl
      fun x _ y hy => hlook x y hy
    rwa [List.map_id, List.map_id] at this
  · rw [vectorGet] at hq
    have hf : (n.opened F).tagKids.filter (fun x => x.name = k) =
        (n.tagKids.filter fun x => x.name = k).map (Node.opened F) := by
      rw [opened_tagKids, List.filter_map]
      congr 1
      apply List.filter_congr
      intro x _
      simp [opened_name]
    rw [vectorGet, hf]
    split at hq
    · cases hq
    · next x r hx =>
      rw [hx]
      have : x ∈ n.tagKids.filter fun x => x.name = k := by rw [hx]; exact List.mem_cons_self
      exact opened_floatOpt (List.mem_filter.1 (List.mem_filter.1 this).1).2 hq
  · rw [vectorAttr] at hq
    rw [vectorAttr]
    split at hq
    · cases hq
    · next hk =>
      rw [if_neg hk, opened_find]
      split at hq
      · cases hq
      · next x hx1 =>
        rw [hx1]
        have hkt : x.isTag = true := by
          have := List.mem_of_head? hx1
          exact (List.mem_filter.1 (List.mem_filter.1 this).1).2
        cases hs : x.string? with
        | none => exact absurd hs (hx x hx1)
        | some s =>
          rw [allText_string hs] at hq
          have := opened_string (F := F) hkt (number_solid (pyFloat_chars hq).1) hs
          dsimp only [Option.map_some]
          rw [allText_string this]
          exact pyFloat_newlines hq

/-- C120. Which kind of value an element holds is the same, animated or not. -/
theorem c120_class {c : VCls} (hc : fromTag n = .ok c) : fromTag m = .ok c := by
  obtain ⟨rfl, hn, -⟩ := samePlace_opened hd ht h hp
  exact opened_fromTag hn hc

/-- C120. The stops of a gradient are the same: the same positions, in the same order, with the colours that are
in the same places. -/
theorem c120_gradient (hF : F.Lawful) (hpos : ∀ x ∈ n.findAll "color", NumberAttr F x "pos")
    {l : List (ℚ × Node)} (hl : gradientStops F n = .ok l) :
    ∃ l', gradientStops F m = .ok l' ∧
      List.Forall₂ (fun a b => a.1 = b.1 ∧ SamePlace d e a.2 b.2) l l' := by
  obtain ⟨rfl, hn, htn⟩ := samePlace_opened hd ht h hp
  rw [gradientStops] at hl
  split at hl
  · cases hl
  · next hlen =>
    split at hl
    · cases hl
    · next r hr =>
      injection hl with hl
      have hr' : mapRes (stopOf F) ((n.findAll "color").map (Node.opened F)) =
          .ok (r.map fun p => (p.1, p.2.opened F)) := by
        refine mapRes_reload hr fun x hx y hy => ?_
        rw [stopOf] at hy
        split at hy
        · cases hy
        · next a ha =>
          split at hy
          · cases hy
          · next q hq =>
            injection hy with hy
            have hxo : x.XmlOk F := xmlOk_descTags hn x (List.mem_filter.1 hx).1
            obtain ⟨h1, h2⟩ := numberAttr_opened hF hxo (hpos x hx) ha hq
            rw [stopOf, h1]
            dsimp only
            rw [h2, ← hy]
      refine ⟨l.map fun p => (p.1, p.2.opened F), ?_, ?_⟩
      · rw [gradientStops, opened_findAll, List.length_map, if_neg hlen, hr', ← hl]
        exact congrArg Except.ok (foldl_dictSet_map (Node.opened F) r [])
      · rw [List.forall₂_map_right_iff, List.forall₂_same]
        intro p hpl
        refine ⟨rfl, samePlace_desc hd ht h hp ?_⟩
        have hpr : p ∈ r := by
          rw [← hl] at hpl
          have key : ∀ (r a : List (ℚ × Node)), p ∈ r.foldl (fun d p => dictSet p.1 p.2 d) a → p ∈ a ∨ p ∈ r := by
            intro r
            induction r with
            | nil => intro a hp; exact .inl hp
            | cons x r ih =>
              intro a hp
              rcases ih _ hp with hp | hp
              · rcases mem_dictSet hp with rfl | hp
                · exact .inr List.mem_cons_self
                · exact .inl hp
              · exact .inr (List.mem_cons_of_mem _ hp)
          rcases key r [] hpl with hp | hp
          · simp at hp
          · exact hp
        have key : ∀ (cs : List Node) (r : List (ℚ × Node)), mapRes (stopOf F) cs = .ok r →
            ∀ p ∈ r, p.2 ∈ cs := by
          intro cs
          induction cs with
          | nil => intro r hr p hp; injection hr with hr; subst hr; simp at hp
          | cons x cs ih =>
            intro r hr p hp
            rw [mapRes] at hr
            split at hr
            · cases hr
            · next y hy =>
              split at hr
              · cases hr
              · next ys hys =>
                injection hr with hr; subst hr
                rcases List.mem_cons.mp hp with rfl | hp
                · rw [stopOf] at hy
                  split at hy
                  · cases hy
                  · split at hy
                    · cases hy
                    · injection hy with hy; rw [← hy]; exact List.mem_cons_self
                · exact List.mem_cons_of_mem _ (ih ys hys p hp)
        exact (List.mem_filter.1 (key _ _ hr p hpr)).1

/-- C120. The parts of a transformation are the same: the same names, the same kinds of values, in the same
places. -/
theorem c120_transformation :
    (∀ l, compositeDict n = .ok l → ∃ l', compositeDict m = .ok l' ∧
      List.Forall₂ (fun a b => a.1 = b.1 ∧ a.2.1 = b.2.1 ∧ SamePlace d e a.2.2 b.2.2) l l') ∧
    ∀ k c v, compositeGet n k = .ok (c, v) → ∃ v', compositeGet m k = .ok (c, v') ∧ SamePlace d e v v' := by
  obtain ⟨rfl, hn, htn⟩ := samePlace_opened hd ht h hp
  refine ⟨fun l hl => ?_, fun k c v hv => ?_⟩
  · rw [compositeDict] at hl
    split at hl
    · cases hl
    · next r hr =>
      dsimp only at hl
      split at hl
      · next hk =>
        injection hl with hl
        have hr' : mapRes compositeField (n.tagKids.map (Node.opened F)) =
            .ok (r.map fun p => (p.1, (fun y : VCls × Node => (y.1, y.2.opened F)) p.2)) :=
          mapRes_reload hr fun x hx y hy => (field_opened (xmlOk_tagKids hn x hx) (v := y.2.2) hy).1
        refine ⟨l.map fun p => (p.1, (fun y : VCls × Node => (y.1, y.2.opened F)) p.2), ?_, ?_⟩
        · rw [compositeDict, opened_tagKids, hr']
          dsimp only
          have := foldl_dictSet_map (κ := String) (fun y : VCls × Node => (y.1, y.2.opened F)) r []
          rw [List.map_nil] at this
          rw [this, hl]
          have hkeys : (l.map fun p => (p.1, (p.2.1, p.2.2.opened F))).map Prod.fst = l.map Prod.fst := by
            rw [List.map_map]; rfl
          rw [hkeys, ← hl, if_pos hk]
        · rw [List.forall₂_map_right_iff, List.forall₂_same]
          intro p hpl
          refine ⟨rfl, rfl, ?_⟩
          have hpr : p ∈ r := by
            rw [← hl] at hpl
            have key : ∀ (r a : List (String × VCls × Node)),
                p ∈ r.foldl (fun d p => dictSet p.1 p.2 d) a → p ∈ a ∨ p ∈ r := by
              intro r
              induction r with
              | nil => intro a hp; exact .inl hp
              | cons x r ih =>
                intro a hp
                rcases ih _ hp with hp | hp
                · rcases mem_dictSet hp with rfl | hp
                  · exact .inr List.mem_cons_self
                  · exact .inl hp
                · exact .inr (List.mem_cons_of_mem _ hp)
            rcases key r [] hpl with hp | hp
            · simp at hp
            · exact hp
          have key : ∀ (cs : List Node) (r : List (String × VCls × Node)), (∀ x ∈ cs, x ∈ n.tagKids) →
              mapRes compositeField cs = .ok r → ∀ p ∈ r, ∃ x ∈ cs, p.2.2 ∈ x.tagKids := by
            intro cs
            induction cs with
            | nil => intro r _ hr p hp; injection hr with hr; subst hr; simp at hp
            | cons x cs ih =>
              intro r hcs hr p hp
              rw [mapRes] at hr
              split at hr
              · cases hr
              · next y hy =>
                split at hr
                · cases hr
                · next ys hys =>
                  injection hr with hr; subst hr
                  rcases List.mem_cons.mp hp with rfl | hp
                  · exact ⟨x, List.mem_cons_self, (field_opened
                      (xmlOk_tagKids hn x (hcs x List.mem_cons_self)) hy).2⟩
                  · obtain ⟨z, hz, hz2⟩ := ih ys (fun y hy => hcs y (List.mem_cons_of_mem _ hy)) hys p hp
                    exact ⟨z, List.mem_cons_of_mem _ hz, hz2⟩
          obtain ⟨x, hx, hx2⟩ := key _ _ (fun _ h => h) hr p hpr
          exact samePlace_kid hd ht h (samePlace_kid hd ht h hp hx) hx2
      · cases hl
  · have hf : (n.opened F).tagKids.filter (fun x => x.name = k) =
        (n.tagKids.filter fun x => x.name = k).map (Node.opened F) := by
      rw [opened_tagKids, List.filter_map]
      congr 1
      apply List.filter_congr
      intro x _
      simp [opened_name]
    rw [compositeGet] at hv
    split at hv
    · cases hv
    · next f hf1 =>
      have hfm : f ∈ n.tagKids := by
        have : f ∈ n.tagKids.filter fun x => x.name = k := by rw [hf1]; exact List.mem_cons_self
        exact (List.mem_filter.1 this).1
      split at hv
      · cases hv
      · next w hw =>
        split at hv
        · cases hv
        · next c' hc' =>
          injection hv with hv
          simp only [Prod.mk.injEq] at hv
          obtain ⟨rfl, rfl⟩ := hv
          have hvm : w ∈ f.tagKids := by rw [hw]; exact List.mem_cons_self
          refine ⟨w.opened F, ?_, samePlace_kid hd ht h (samePlace_kid hd ht h hp hfm) hvm⟩
          rw [compositeGet, hf, hf1, List.map_cons, List.map_nil]
          dsimp only
          rw [opened_tagKids, hw, List.map_cons, List.map_nil]
          dsimp only
          rw [opened_fromTag (xmlOk_tagKids (xmlOk_tagKids hn f hfm) w hvm) hc']
      · cases hv
    · cases hv

omit hp in
/-- C120. The frame rate is the same. -/
theorem c120_fps (hF : F.Lawful) (hfps : NumberAttr F d "fps") {r : Option ℚ}
    (hr : readFps F (some d.attrs) = .ok r) : readFps F (some e.attrs) = .ok r := by
  obtain rfl := savedAs_opened hd ht h
  rw [readFps] at hr
  split at hr
  · cases hr
  · next a ha =>
    split at hr
    · cases hr
    · next q hq =>
      obtain ⟨h1, h2⟩ := numberAttr_opened hF hd hfps ha hq
      rw [readFps, h1]
      dsimp only
      rw [h2]
      exact hr

/-- C120. Times are the same. -/
theorem c120_time (hF : F.Lawful) (hfps : NumberAttr F d "fps") {t : T}
    (hone : ∀ s, n.attrs.get "value" = some (.str s) → OneLine s)
    (hv : getTime F (some d.attrs) n = .ok t) : getTime F (some e.attrs) m = .ok t := by
  rw [getTime] at hv
  split at hv
  · cases hv
  · next s hs =>
    rw [getTime, simpleText_opened hd ht h hp hs]
    have hp1 : Plain s := by
      rw [simpleText] at hs
      split at hs
      · cases hs
      · next s' hs' => injection hs with hs; subst hs; exact hone _ hs'
      · cases hs
    dsimp only
    rw [attrSpaces_id hp1]
    rw [T.new] at hv
    split at hv
    · cases hv
    · next f hf =>
      rw [T.new, c120_fps hd ht h hF hfps hf]
      exact hv

/-- C120. The waypoints of a timeline are the same: at the same times, with the same interpolations, and with the
values that are in the same places. -/
theorem c120_waypoints (hF : F.Lawful) (hfps : NumberAttr F d "fps") {f : Option ℚ}
    (hf : readFps F (some d.attrs) = .ok f) {par : Bool} {ws : List Waypoint}
    (hw : waypoints F ⟨some d.attrs, par⟩ n = .ok ws)
    (hs : ∀ x ∈ waypointTags n, ∀ a, x.attrs.get "time" = some a → SavableTime f a) :
    ∃ ws', waypoints F ⟨some e.attrs, par⟩ m = .ok ws' ∧
      List.Forall₂ (fun a b => a.time = b.time ∧ a.before = b.before ∧ a.after = b.after ∧
        SamePlace d e a.val b.val) ws ws' := by
  have hf' := c120_fps hd ht h hF hfps hf
  obtain ⟨rfl, hn, htn⟩ := samePlace_opened hd ht h hp
  have htags : waypointTags (n.opened F) = (waypointTags n).map (Node.opened F) := by
    rw [waypointTags, waypointTags, opened_name, opened_tagKids]
    split <;> rfl
  have hsub : ∀ x ∈ waypointTags n, x ∈ n.tagKids := by
    intro x hx
    rw [waypointTags] at hx
    split at hx
    · simp at hx
    · exact hx
  rw [waypoints] at hw
  split at hw
  · next he =>
    injection hw with hw; subst hw
    exact ⟨[], by rw [waypoints, htags, he]; rfl, .nil⟩
  · next hne =>
    split at hw
    · cases hw
    next ty hty =>
    split at hw
    · cases hw
    next l hl =>
    injection hw with hw
    have hne' : ¬ waypointTags (n.opened F) = [] := by simpa [htags] using hne
    have hm : mapRes (Waypoint.fromTag F (some e.attrs) (attrSpaces ty)) ((waypointTags n).map (Node.opened F)) =
        .ok (l.map fun w => {w with val := w.val.opened F}) :=
      mapRes_reload hl fun x hx w hw =>
        (fromTag_waypoint_opened hF hf hf' (xmlOk_tagKids hn x (hsub x hx)) hw (hs x hx)).1
    refine ⟨ws.map fun w => {w with val := w.val.opened F}, ?_, ?_⟩
    · rw [waypoints, if_neg hne']
      simp only [opened_strAttr hn hty, htags, hm]
      rw [← hw]
      exact congrArg Except.ok (foldl_putWp_map (Node.opened F) l [])
    · rw [List.forall₂_map_right_iff, List.forall₂_same]
      intro w hws
      refine ⟨rfl, rfl, rfl, ?_⟩
      have hwl : w ∈ l := by
        rw [← hw] at hws
        have key : ∀ (r a : List Waypoint), w ∈ r.foldl (fun d w => putWp w d) a → w ∈ a ∨ w ∈ r := by
          intro r
          induction r with
          | nil => intro a hp; exact .inl hp
          | cons x r ih =>
            intro a hp
            rcases ih _ hp with hp | hp
            · rcases mem_putWp_or hp with rfl | hp
              · exact .inr List.mem_cons_self
              · exact .inl hp
            · exact .inr (List.mem_cons_of_mem _ hp)
        rcases key l [] hws with hp | hp
        · simp at hp
        · exact hp
      have key : ∀ (cs : List Node) (r : List Waypoint), (∀ x ∈ cs, x ∈ waypointTags n) →
          mapRes (Waypoint.fromTag F (some d.attrs) ty) cs = .ok r → ∀ p ∈ r, ∃ x ∈ cs, p.val ∈ x.tagKids := by
        intro cs
        induction cs with
        | nil => intro r _ hr p hp; injection hr with hr; subst hr; simp at hp
        | cons x cs ih =>
          intro r hcs hr p hp
          rw [mapRes] at hr
          split at hr
          · cases hr
          · next y hy =>
            split at hr
            · cases hr
            · next ys hys =>
              injection hr with hr; subst hr
              rcases List.mem_cons.mp hp with rfl | hp
              · have hxm := hcs x List.mem_cons_self
                exact ⟨x, List.mem_cons_self, (fromTag_waypoint_opened hF hf hf'
                  (xmlOk_tagKids hn x (hsub x hxm)) hy (hs x hxm)).2⟩
              · obtain ⟨z, hz, hz2⟩ := ih ys (fun y hy => hcs y (List.mem_cons_of_mem _ hy)) hys p hp
                exact ⟨z, List.mem_cons_of_mem _ hz, hz2⟩
      obtain ⟨x, hx, hx2⟩ := key _ _ (fun _ h => h) hl w hwl
      exact samePlace_kid hd ht h (samePlace_kid hd ht h hp (hsub x hx)) hx2

/-- C120. The type of a layer, and whether it is active or excluded from rendering, are the same; so are its
description and its version. -/
theorem c120_layer (hF : F.Lawful) :
    (∀ c, layerOf n = .ok c → layerOf m = .ok c) ∧ getActive F m = getActive F n ∧
    getExclude F m = getExclude F n ∧
    (∀ t, getDesc F n = some t → OneLine t → getDesc F m = some t) ∧
    (getDesc F n = none → getDesc F m = none) ∧
    ∀ s v, NumberAttr F n "version" → getVersion F s n = .ok v → getVersion F s m = .ok v := by
  obtain ⟨rfl, hn, htn⟩ := samePlace_opened hd ht h hp
  have hbool : ∀ k b, getBoolAttr F k b (n.opened F) = getBoolAttr F k b n := by
    intro k b
    rw [getBoolAttr, getBoolAttr, opened_get hn]
    cases n.attrs.get k with
    | none => rfl
    | some a => exact decide_eq_decide.2 (lower_attrSpaces _ (by decide))
  refine ⟨fun c hc => ?_, hbool _ _, hbool _ _, fun t hd1 hone => ?_, fun hd1 => ?_, fun s v hv hg => ?_⟩
  · exact layerOf_opened hn hc
  · rw [getDesc] at hd1
    split at hd1
    · cases hd1
    · next a ha =>
      injection hd1 with hd1
      rw [getDesc, opened_get hn, ha]
      show some (attrSpaces (a.str' F)) = some t
      rw [hd1, attrSpaces_id hone]
  · rw [getDesc] at hd1
    split at hd1
    · next ha => rw [getDesc, opened_get hn, ha]; rfl
    · cases hd1
  · rw [getVersion] at hg
    split at hg
    · next ha => rw [getVersion, opened_get hn, ha]; exact hg
    · next a ha =>
      split at hg
      · cases hg
      · next q hq =>
        obtain ⟨h1, h2⟩ := numberAttr_opened hF hn hv ha hq
        rw [getVersion, h1]
        dsimp only
        rw [h2]
        exact hg

/-- C120 does not hold for descriptions with tabs or line ends: they come back different. -/
theorem c120_desc_changes {t : Str} (hdesc : getDesc F n = some t) (hone : ¬ OneLine t) : getDesc F m ≠ some t := by
  obtain ⟨rfl, hn, -⟩ := samePlace_opened hd ht h hp
  rw [getDesc] at hdesc
  split at hdesc
  · cases hdesc
  · next a ha =>
    injection hdesc with hdesc
    rw [getDesc, opened_get hn, ha]
    show some (attrSpaces (a.str' F)) ≠ some t
    intro e
    injection e with e
    rw [hdesc] at e
    apply hone
    intro c hc
    rw [← e, attrSpaces] at hc
    obtain ⟨b, hb, rfl⟩ := List.mem_map.1 hc
    split
    · decide
    · next hnb =>
      push Not at hnb
      refine ⟨?_, hnb⟩
      rintro rfl
      exact newlines_no_cr t hb

/-- C120. The parameters of a layer are the same: by subscript, as items and as fields, with the values that are
in the same places. -/
theorem c120_params (hnames : ParamNames n) :
    (∀ f, containsParam f m = containsParam f n) ∧
    (∀ f c v, getParam f n = .ok (c, v) → ∃ v', getParam f m = .ok (c, v') ∧ SamePlace d e v v') ∧
    (∀ k f c v, getField k f n = .ok (c, v) → ∃ v', getField k f m = .ok (c, v') ∧ SamePlace d e v v') ∧
    ∀ l, layerItems n = .ok l → ∃ l', layerItems m = .ok l' ∧
      List.Forall₂ (fun a b => a.1 = b.1 ∧ a.2.1 = b.2.1 ∧ SamePlace d e a.2.2 b.2.2) l l' := by
  obtain ⟨rfl, hn, htn⟩ := samePlace_opened hd ht h hp
  have hfind := findParam_opened hn hnames
  have hmem : ∀ f p, findParam f n = some p → p ∈ n.descTags := fun f p hp =>
    (List.mem_filter.1 (List.mem_of_head? hp)).1
  refine ⟨fun f => ?_, fun f c v hv => ?_, fun k f c v hv => ?_, fun l hl => ?_⟩
  · rw [containsParam, hfind, containsParam, Option.isSome_map]
  · rw [getParam] at hv
    split at hv
    · cases hv
    · next p hpar =>
      have hpm := hmem f p hpar
      split at hv
      · cases hv
      · next s c' v' hnv =>
        injection hv with hv
        simp only [Prod.mk.injEq] at hv
        obtain ⟨rfl, rfl⟩ := hv
        obtain ⟨h1, h2⟩ := nameAndValue_opened (xmlOk_descTags hn p hpm) (hnames p hpm) hnv
        refine ⟨v'.opened F, ?_, samePlace_kid hd ht h (samePlace_desc hd ht h hp hpm) h2⟩
        rw [getParam, hfind, hpar, Option.map_some]
        dsimp only
        rw [h1]
  · have key : ∀ c v, fieldValue k n = .ok (c, v) → ∃ v', fieldValue k (n.opened F) = .ok (c, v') ∧
        SamePlace d e v v' := by
      intro c v hv
      rw [fieldValue] at hv
      split at hv
      · cases hv
      · next p hpar =>
        have hpm := hmem _ p hpar
        split at hv
        · next w hw =>
          split at hv
          · cases hv
          · next c' hc' =>
            injection hv with hv
            simp only [Prod.mk.injEq] at hv
            obtain ⟨rfl, rfl⟩ := hv
            have hwm : w ∈ p.tagKids := by rw [hw]; exact List.mem_cons_self
            refine ⟨w.opened F, ?_, samePlace_kid hd ht h (samePlace_desc hd ht h hp hpm) hwm⟩
            rw [fieldValue, hfind, hpar, Option.map_some]
            dsimp only
            rw [opened_tagKids, hw, List.map_cons, List.map_nil]
            dsimp only
            rw [opened_fromTag (xmlOk_tagKids (xmlOk_descTags hn p hpm) w hwm) hc']
        · cases hv
    cases f with
    | notImpl => cases hv
    | blend i =>
      rw [getField] at hv
      split at hv <;> cases hv
    | param c' q =>
      rw [getField] at hv
      split at hv
      · cases hv
      · next c1 v1 hf1 =>
        split at hv
        · next hcc =>
          injection hv with hv
          simp only [Prod.mk.injEq] at hv
          obtain ⟨rfl, rfl⟩ := hv
          obtain ⟨v', h1, h2⟩ := key _ _ hf1
          refine ⟨v', ?_, h2⟩
          rw [getField, h1]
          dsimp only
          rw [if_pos hcc]
        · cases hv
  · rw [layerItems] at hl
    split at hl
    · cases hl
    · next r hr =>
      injection hl with hl
      have hff : (n.opened F).tagKids.filter (fun x => x.name = "param") =
          (n.tagKids.filter fun x => x.name = "param").map (Node.opened F) := by
        rw [opened_tagKids, List.filter_map]
        congr 1
        apply List.filter_congr
        intro x _
        simp [opened_name]
      have hr' : mapRes nameAndValue ((n.tagKids.filter fun x => x.name = "param").map (Node.opened F)) =
          .ok (r.map fun p => (p.1, (fun y : VCls × Node => (y.1, y.2.opened F)) p.2)) :=
        mapRes_reload hr fun x hx y hy => by
          have hx1 := (List.mem_filter.1 hx).1
          exact (nameAndValue_opened (xmlOk_tagKids hn x hx1) (hnames x (tagKids_descTags hx1)) (v := y.2.2) hy).1
      refine ⟨l.map fun p => (p.1, (fun y : VCls × Node => (y.1, y.2.opened F)) p.2), ?_, ?_⟩
      · rw [layerItems, hff, hr']
        have := foldl_dictSet_map (κ := Str) (fun y : VCls × Node => (y.1, y.2.opened F)) r []
        rw [List.map_nil] at this
        dsimp only
        rw [this, hl]
      · rw [List.forall₂_map_right_iff, List.forall₂_same]
        intro p hpl
        refine ⟨rfl, rfl, ?_⟩
        have hpr : p ∈ r := by
          rw [← hl] at hpl
          have key : ∀ (r a : List (Str × VCls × Node)),
              p ∈ r.foldl (fun d p => dictSet p.1 p.2 d) a → p ∈ a ∨ p ∈ r := by
            intro r
            induction r with
            | nil => intro a hp; exact .inl hp
            | cons x r ih =>
              intro a hp
              rcases ih _ hp with hp | hp
              · rcases mem_dictSet hp with rfl | hp
                · exact .inr List.mem_cons_self
                · exact .inl hp
              · exact .inr (List.mem_cons_of_mem _ hp)
          rcases key r [] hpl with hp | hp
          · simp at hp
          · exact hp
        have key : ∀ (cs : List Node) (r : List (Str × VCls × Node)), (∀ x ∈ cs, x ∈ n.tagKids) →
            mapRes nameAndValue cs = .ok r → ∀ p ∈ r, ∃ x ∈ cs, p.2.2 ∈ x.tagKids := by
          intro cs
          induction cs with
          | nil => intro r _ hr p hp; injection hr with hr; subst hr; simp at hp
          | cons x cs ih =>
            intro r hcs hr p hp
            rw [mapRes] at hr
            split at hr
            · cases hr
            · next y hy =>
              split at hr
              · cases hr
              · next ys hys =>
                injection hr with hr; subst hr
                rcases List.mem_cons.mp hp with rfl | hp
                · have hx1 := hcs x List.mem_cons_self
                  exact ⟨x, List.mem_cons_self, (nameAndValue_opened (xmlOk_tagKids hn x hx1)
                    (hnames x (tagKids_descTags hx1)) hy).2⟩
                · obtain ⟨z, hz, hz2⟩ := ih ys (fun y hy => hcs y (List.mem_cons_of_mem _ hy)) hys p hp
                  exact ⟨z, List.mem_cons_of_mem _ hz, hz2⟩
        obtain ⟨x, hx, hx2⟩ := key _ _ (fun x hx => (List.mem_filter.1 hx).1) hr p hpr
        exact samePlace_kid hd ht h (samePlace_kid hd ht h hp (List.mem_filter.1 hx).1) hx2

theorem canvasKids_opened (k : GKind) (hnames : ParamNames n) {ks : List Node} (hk : canvasKids k n = .ok ks) :
    ∃ ks', canvasKids k m = .ok ks' ∧ ks'.filter isLayer = (ks.filter isLayer).map (Node.opened F) ∧
      ∀ x ∈ ks.filter isLayer, x ∈ n.descTags ∧ SamePlace d e x (x.opened F) := by
  obtain ⟨rfl, hn, htn⟩ := samePlace_opened hd ht h hp
  -- what the layers in the contents of an element are
  have key : ∀ c : Node, (c.opened F).kids.filter isLayer = (c.kids.filter isLayer).map (Node.opened F) := by
    intro c
    have e1 : ∀ l : List Node, l.filter isLayer = (l.filter Node.isTag).filter fun x => x.name = "layer" := by
      intro l
      rw [List.filter_filter]
      apply List.filter_congr
      intro x _
      rw [isLayer, Bool.and_comm]
    rw [e1, e1]
    show ((c.opened F).tagKids).filter _ = (c.tagKids.filter _).map _
    rw [opened_tagKids, List.filter_map]
    congr 1
    apply List.filter_congr
    intro x _
    simp [opened_name]
  have key2 : ∀ (c x : Node), x ∈ c.kids.filter isLayer → x ∈ c.tagKids := by
    intro c x hx
    obtain ⟨h1, h2⟩ := List.mem_filter.1 hx
    refine List.mem_filter.2 ⟨h1, ?_⟩
    rw [isLayer, Bool.and_eq_true] at h2
    exact h2.1
  cases k with
  | animation =>
    simp only [canvasKids, canvasTag] at hk ⊢
    injection hk with hk; subst hk
    exact ⟨_, rfl, key n, fun x hx => ⟨tagKids_descTags (key2 n x hx), samePlace_kid hd ht h hp (key2 n x hx)⟩⟩
  | group =>
    simp only [canvasKids, canvasTag] at hk ⊢
    rw [findParam_opened hn hnames]
    cases hpar : findParam "canvas".toList n with
    | none => rw [hpar] at hk; cases hk
    | some p =>
      rw [hpar] at hk
      simp only [Option.map_some] at hk ⊢
      rw [opened_find]
      cases hc : p.find "canvas" with
      | none => rw [hc] at hk; cases hk
      | some c =>
        rw [hc] at hk
        simp only [Option.map_some] at hk ⊢
        injection hk with hk; subst hk
        have hpm : p ∈ n.descTags := (List.mem_filter.1 (List.mem_of_head? hpar)).1
        have hcm : c ∈ p.descTags := (List.mem_filter.1 (List.mem_of_head? hc)).1
        refine ⟨_, rfl, key c, fun x hx => ⟨?_, ?_⟩⟩
        · exact descTags_trans hpm (descTags_trans hcm (tagKids_descTags (key2 c x hx)))
        · exact samePlace_kid hd ht h (samePlace_desc hd ht h (samePlace_desc hd ht h hp hpm) hcm) (key2 c x hx)

/-- C120. The layers in a group, or in the animation, are the same: in the same order, of the same classes, in the
same places. So are all those below. -/
theorem c120_layers (k : GKind) (hnames : ParamNames n) :
    (∀ l, children k n = .ok l → ∃ l', children k m = .ok l' ∧
      List.Forall₂ (fun a b => a.1 = b.1 ∧ SamePlace d e a.2 b.2) l l') ∧
    ∀ l, descendants k n = .ok l → ∃ l', descendants k m = .ok l' ∧
      List.Forall₂ (fun a b => a.1 = b.1 ∧ SamePlace d e a.2 b.2) l l' := by
  obtain ⟨-, hn, -⟩ := samePlace_opened hd ht h hp
  have hkids : ∀ (k : GKind) (n m : Node), SamePlace d e n m → ParamNames n → ∀ l, children k n = .ok l →
      children k m = .ok (l.map fun y => (y.1, y.2.opened F)) ∧
      List.Forall₂ (fun a b => a.1 = b.1 ∧ SamePlace d e a.2 b.2) l (l.map fun y => (y.1, y.2.opened F)) := by
    intro k n m hp hnames l hl
    obtain ⟨-, hn, -⟩ := samePlace_opened hd ht h hp
    rw [children] at hl
    split at hl
    · cases hl
    next ks hks =>
    obtain ⟨ks', h1, h2, h3⟩ := canvasKids_opened hd ht h hp k hnames hks
    have h2' : ks'.reverse.filter isLayer = (ks.reverse.filter isLayer).map (Node.opened F) := by
      rw [List.filter_reverse, h2, List.filter_reverse, List.map_reverse]
    have h3' : ∀ x ∈ ks.reverse.filter isLayer, x ∈ n.descTags ∧ SamePlace d e x (x.opened F) := by
      intro x hx
      rw [List.filter_reverse, List.mem_reverse] at hx
      exact h3 x hx
    refine ⟨?_, ?_⟩
    · rw [children, h1]
      dsimp only
      rw [h2']
      exact mapRes_reload hl fun x hx y hy => (asLayer_opened (xmlOk_descTags hn x (h3' x hx).1) hy).1
    · rw [List.forall₂_map_right_iff, List.forall₂_same]
      intro y hy
      refine ⟨rfl, ?_⟩
      obtain ⟨x, hx, hxy⟩ := mapRes_mem_of hl hy
      rw [(asLayer_opened (xmlOk_descTags hn x (h3' x hx).1) hxy).2]
      exact (h3' x hx).2
  refine ⟨fun l hl => ⟨_, hkids k n m hp hnames l hl⟩, fun l hl => ?_⟩
  rw [descendants] at hl
  split at hl
  · cases hl
  next ks hks =>
  split at hl
  · cases hl
  next r hr =>
  injection hl with hl; subst hl
  obtain ⟨ks', h1, h2, h3⟩ := canvasKids_opened hd ht h hp k hnames hks
  have h2' : ks'.reverse.filter isLayer = (ks.reverse.filter isLayer).map (Node.opened F) := by
    rw [List.filter_reverse, h2, List.filter_reverse, List.map_reverse]
  have h3' : ∀ x ∈ ks.reverse.filter isLayer, x ∈ n.descTags ∧ SamePlace d e x (x.opened F) := by
    intro x hx
    rw [List.filter_reverse, List.mem_reverse] at hx
    exact h3 x hx
  have hw : ∀ x ∈ ks.reverse.filter isLayer, ∀ y, withChildren x = .ok y →
      withChildren (x.opened F) = .ok (y.map fun z => (z.1, z.2.opened F)) ∧
      ∀ z ∈ y, SamePlace d e z.2 (z.2.opened F) := by
    intro x hx y hy
    obtain ⟨hxd, hxp⟩ := h3' x hx
    rw [withChildren] at hy
    split at hy
    · cases hy
    next z hz =>
    obtain ⟨hz1, hz2⟩ := asLayer_opened (xmlOk_descTags hn x hxd) hz
    split at hy
    · cases hy
    next c hc =>
    injection hy with hy; subst hy
    have hc' : layerChildren (z.1, z.2.opened F) = .ok (c.map fun z => (z.1, z.2.opened F)) ∧
        ∀ y ∈ c, SamePlace d e y.2 (y.2.opened F) := by
      rw [layerChildren] at hc
      rw [layerChildren]
      split at hc
      · next hg =>
        rw [if_pos hg]
        rw [hz2] at hc ⊢
        obtain ⟨h4, h5⟩ := hkids .group x (x.opened F) hxp
          (fun y hy => hnames y (descTags_trans hxd hy)) c hc
        refine ⟨h4, fun y hy => ?_⟩
        rw [List.forall₂_map_right_iff, List.forall₂_same] at h5
        exact (h5 y hy).2
      · next hg =>
        rw [if_neg hg]
        injection hc with hc; subst hc
        exact ⟨rfl, by simp⟩
    refine ⟨?_, ?_⟩
    · rw [withChildren, hz1]
      dsimp only
      rw [hc'.1]
      rfl
    · intro y hy
      rcases List.mem_cons.mp hy with rfl | hy
      · rw [hz2]; exact hxp
      · exact hc'.2 y hy
  refine ⟨(r.flatten).map fun z => (z.1, z.2.opened F), ?_, ?_⟩
  · rw [descendants, h1]
    dsimp only
    rw [h2', mapRes_reload hr fun x hx y hy => (hw x hx y hy).1]
    dsimp only
    rw [List.map_flatten]
  · rw [List.forall₂_map_right_iff, List.forall₂_same]
    intro z hz
    obtain ⟨y, hy, hzy⟩ := List.mem_flatten.1 hz
    obtain ⟨x, hx, hxy⟩ := mapRes_mem_of hr hy
    exact ⟨rfl, (hw x hx y hxy).2 z hzy⟩

end

/-! ## An example -/

/-- A circle whose place moves, made by the program. -/
def exMoving : Node := .tag "canvas" [("fps", .num 24), ("version", .str "1.2".toList)] [.text ['\n'],
  .tag "layer" [("type", .str "circle".toList), ("desc", .str "a & b".toList)] [.text ['\r'],
    .tag "param" [("name", .str "radius".toList)] [.tag "real" [("value", .str " 2.5\t".toList)] []],
    .tag "param" [("name", .str "origin".toList)] [.tag "animated" [("type", .str "vector".toList)]
      [.tag "waypoint" [("time", .t ⟨30, some 24⟩), ("before", .str "clamped".toList),
        ("after", .str "auto".toList)]
        [.tag "vector" [] [.tag "x" [] [.text "1.5\r\n".toList], .tag "y" [] [.text "2".toList]]]]]]]

theorem exMoving_ok : exMoving.XmlOk double := xmlOkB_ok (by decide +kernel)

theorem exMoving_saved : SavedAs double exMoving (.tag "canvas" [("fps", .str "24.0".toList),
    ("version", .str "1.2".toList)] [.text ['\n'],
  .tag "layer" [("desc", .str "a & b".toList), ("type", .str "circle".toList)] [.text ['\n'],
    .tag "param" [("name", .str "radius".toList)] [.tag "real" [("value", .str " 2.5 ".toList)] []],
    .tag "param" [("name", .str "origin".toList)] [.tag "animated" [("type", .str "vector".toList)]
      [.tag "waypoint" [("after", .str "auto".toList), ("before", .str "clamped".toList),
        ("time", .str "1s 6f".toList)]
        [.tag "vector" [] [.tag "x" [] [.text "1.5\n".toList], .tag "y" [] [.text "2".toList]]]]]]]) :=
  ⟨fun _ => true, by decide +kernel⟩

example : NumberAttr double exMoving "fps" := by
  intro a ha
  injection ha with ha
  exact .inr (.inl ⟨24, ha.symm, by show double.rnd 24 = 24; decide +kernel⟩)

example : ParamNames exMoving := by
  intro x hx hn a ha
  have hx' : x ∈ (Node.nodesIn exMoving.kids).filter Node.isTag := hx
  simp [exMoving, Node.kids, Node.nodesIn, Node.subtree, Node.isTag] at hx'
  rcases hx'.1 with rfl | rfl | rfl | rfl | rfl | rfl | rfl | rfl | rfl | rfl | rfl | rfl | rfl
  all_goals first
    | (simp [Node.name] at hn; done)
    | (injection ha with ha; subst ha; exact ⟨_, rfl, by unfold OneLine; decide⟩)

/-- The circle, its radius and the timeline of its origin. -/
example : (elementAt [0, 0, 0] exMoving).map (getFloat double) = some (.ok (5/2)) ∧
    (elementAt [0, 1, 0] exMoving).map (fun n => (waypoints double ⟨some exMoving.attrs, true⟩ n).toOption.map
      (List.map fun w => (w.time, vectorTuple double w.val |>.toOption))) =
        some (some [(⟨30, some 24⟩, some [3/2, 2])]) ∧
    (children .animation exMoving).toOption.map (List.map fun y => y.1.name) = some ["Circle"] := by
  decide +kernel

end Sang
