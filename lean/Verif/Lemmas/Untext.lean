import Verif.Props.BywordsProgram

/-!
# Documents without what their texts say

`untext n` is `n` with nothing in its params called "text". What `bywords` looks for in a document, and where
it finds it, can be told from that.
-/

namespace Sang
open Spec

mutual
/-- No layers and no params in it, and it is neither. -/
def Bare : Node → Prop
  | .text _ => True
  | .tag n _ ks => n ≠ "layer" ∧ n ≠ "param" ∧ BareAll ks

/-- The same for several. -/
def BareAll : List Node → Prop
  | [] => True
  | x :: r => Bare x ∧ BareAll r
end

theorem bareAll_iff : ∀ {ks : List Node}, BareAll ks ↔ ∀ x ∈ ks, Bare x
  | [] => by simp [BareAll]
  | x :: r => by simp [BareAll, bareAll_iff (ks := r)]

theorem Bare.kids {n : Node} (h : Bare n) : BareAll n.kids := by
  cases n with
  | text s => trivial
  | tag a b ks => exact h.2.2

theorem Bare.tagKids {n x : Node} (h : Bare n) (hx : x ∈ n.tagKids) : Bare x :=
  bareAll_iff.1 h.kids x (List.mem_filter.1 hx).1

theorem Bare.setKids {n : Node} (h : Bare n) {ks : List Node} (hk : BareAll ks) : Bare (n.setKids ks) := by
  cases n with
  | text s => trivial
  | tag a b ks' => exact ⟨h.1, h.2.1, hk⟩

/-- A param called "text". -/
abbrev textParam (n : Node) : Bool := isParam "text".toList n

/-- A param called "type_". -/
abbrev typeParam (n : Node) : Bool := isParam "type_".toList n

mutual
/-- Params called "text" or "type_" have no layers or params in them. -/
def Simple : Node → Prop
  | .text _ => True
  | .tag n a ks => if textParam (.tag n a ks) ∨ typeParam (.tag n a ks) then BareAll ks else SimpleAll ks

/-- The same for several. -/
def SimpleAll : List Node → Prop
  | [] => True
  | x :: r => Simple x ∧ SimpleAll r
end

theorem simpleAll_iff : ∀ {ks : List Node}, SimpleAll ks ↔ ∀ x ∈ ks, Simple x
  | [] => by simp [SimpleAll]
  | x :: r => by simp [SimpleAll, simpleAll_iff (ks := r)]

theorem isParam_head (f : Str) (n : String) (a : Attrs) (ks ks' : List Node) :
    isParam f (.tag n a ks) = isParam f (.tag n a ks') := rfl

mutual
theorem Bare.simple : ∀ {n : Node}, Bare n → Simple n
  | .text _, _ => trivial
  | .tag n a ks, h => by
    rw [Simple]
    split
    · exact h.2.2
    · exact BareAll.simple h.2.2

theorem BareAll.simple : ∀ {ks : List Node}, BareAll ks → SimpleAll ks
  | [], _ => trivial
  | _ :: _, h => ⟨h.1.simple, h.2.simple⟩
end

theorem Simple.kids : ∀ {n : Node}, Simple n → SimpleAll n.kids
  | .text _, _ => trivial
  | .tag n a ks, h => by
    rw [Simple] at h
    split at h
    · exact h.simple
    · exact h

mutual
/-- The same, with nothing in the params called "text". -/
def untext : Node → Node
  | .text s => .text s
  | .tag n a ks => if textParam (.tag n a ks) then .tag n a [] else .tag n a (untextAll ks)

/-- The same for several. -/
def untextAll : List Node → List Node
  | [] => []
  | x :: r => untext x :: untextAll r
end

theorem untextAll_eq : ∀ ks, untextAll ks = ks.map untext
  | [] => rfl
  | x :: r => by rw [untextAll, List.map_cons, untextAll_eq r]

theorem untext_name (n : Node) : (untext n).name = n.name := by
  cases n with
  | text s => rfl
  | tag a b ks => rw [untext]; split <;> rfl

theorem untext_attrs (n : Node) : (untext n).attrs = n.attrs := by
  cases n with
  | text s => rfl
  | tag a b ks => rw [untext]; split <;> rfl

theorem untext_isTag (n : Node) : (untext n).isTag = n.isTag := by
  cases n with
  | text s => rfl
  | tag a b ks => rw [untext]; split <;> rfl

theorem untext_isParam (f : Str) (n : Node) : isParam f (untext n) = isParam f n := by
  rw [isParam, isParam, untext_name, untext_attrs]

theorem untext_kids {n : Node} (h : textParam n = false) : (untext n).kids = n.kids.map untext := by
  cases n with
  | text s => rfl
  | tag a b ks => rw [untext, if_neg (by simp [h]), Node.kids, untextAll_eq, Node.kids]

mutual
theorem Bare.untext : ∀ {n : Node}, Bare n → Sang.untext n = n
  | .text _, _ => rfl
  | .tag n a ks, h => by
    rw [Sang.untext, if_neg (by simp [isParam, Node.name, h.2.1]), BareAll.untext h.2.2]

theorem BareAll.untext : ∀ {ks : List Node}, BareAll ks → untextAll ks = ks
  | [], _ => rfl
  | _ :: _, h => by rw [untextAll, h.1.untext, h.2.untext]
end

/-! ## What is found in it -/

/-- Something about an element that depends only on its name and attributes, and isn't so but for layers and
params. -/
structure Visible (P : Node → Bool) : Prop where
  head : ∀ n, P (untext n) = P n
  only : ∀ n, P n = true → n.name = "layer" ∨ n.name = "param"

theorem visible_layer : Visible fun n => decide (n.name = "layer") :=
  ⟨fun n => by rw [untext_name], fun n h => .inl (by simpa using h)⟩

theorem visible_param (f : Str) : Visible (isParam f) :=
  ⟨untext_isParam f, fun n h => .inr (by rw [isParam] at h; simp at h; exact h.1)⟩

mutual
theorem bare_none {P : Node → Bool} (hP : Visible P) : ∀ {n : Node}, Bare n →
    (Node.subtree n).filter P = []
  | .text s, _ => by
    rw [Node.subtree, List.filter_singleton]
    cases h : P (.text s) with
    | true => rcases hP.only _ h with h | h <;> simp [Node.name] at h
    | false => rfl
  | .tag n a ks, h => by
    rw [Node.subtree, List.filter_cons_of_neg, bareAll_none hP h.2.2]
    intro hp
    rcases hP.only _ hp with e | e
    · exact h.1 e
    · exact h.2.1 e

theorem bareAll_none {P : Node → Bool} (hP : Visible P) : ∀ {ks : List Node}, BareAll ks →
    (Node.nodesIn ks).filter P = []
  | [], _ => rfl
  | x :: r, h => by rw [Node.nodesIn, List.filter_append, bare_none hP h.1, bareAll_none hP h.2]; rfl
end

mutual
theorem untext_subtree {P : Node → Bool} (hP : Visible P) : ∀ {n : Node}, Simple n →
    (Node.subtree (untext n)).filter P = ((Node.subtree n).filter P).map untext
  | .text s, _ => by
    have := bare_none hP (n := .text s) trivial
    rw [untext, this]; rfl
  | .tag n a ks, h => by
    have hp := hP.head (.tag n a ks)
    by_cases ht : textParam (.tag n a ks) = true
    · rw [Simple, if_pos (.inl ht)] at h
      have e : untext (.tag n a ks) = .tag n a [] := by rw [untext, if_pos ht]
      rw [e] at hp
      rw [e, Node.subtree, Node.subtree, List.filter_cons, List.filter_cons, bareAll_none hP h, hp]
      split
      · rw [List.map_cons, e]; rfl
      · rfl
    · have e : untext (.tag n a ks) = .tag n a (untextAll ks) := by rw [untext, if_neg ht]
      rw [e] at hp
      have hs : SimpleAll ks := Simple.kids h
      rw [e, Node.subtree, Node.subtree, List.filter_cons, List.filter_cons, untext_nodesIn hP hs, hp]
      split
      · rw [List.map_cons, e]
      · rfl

theorem untext_nodesIn {P : Node → Bool} (hP : Visible P) : ∀ {ks : List Node}, SimpleAll ks →
    (Node.nodesIn (untextAll ks)).filter P = ((Node.nodesIn ks).filter P).map untext
  | [], _ => rfl
  | x :: r, h => by
    rw [untextAll, Node.nodesIn, Node.nodesIn, List.filter_append, List.filter_append, List.map_append,
      untext_subtree hP h.1, untext_nodesIn hP h.2]
end

theorem untext_descTags {P : Node → Bool} (hP : Visible P) {n : Node} (h : Simple n) (ht : textParam n = false) :
    (untext n).descTags.filter P = (n.descTags.filter P).map untext := by
  have hk : (untext n).kids = untextAll n.kids := by rw [untext_kids ht, untextAll_eq]
  have hc : ∀ l : List Node, (l.filter Node.isTag).filter P = l.filter P := by
    intro l
    rw [List.filter_filter]
    apply List.filter_congr
    intro x _
    cases x with
    | text s =>
      cases hx : P (.text s) with
      | false => rfl
      | true => rcases hP.only _ hx with e | e <;> simp [Node.name] at e
    | tag => simp [Node.isTag]
  rw [Node.descTags, Node.descTags, hc, hc, hk, untext_nodesIn hP h.kids]

theorem untext_findParam {f : Str} {n : Node} (h : Simple n) (ht : textParam n = false) :
    findParam f (untext n) = (findParam f n).map untext := by
  rw [findParam, findParam, untext_descTags (visible_param f) h ht, List.head?_map]

mutual
theorem simple_subtree : ∀ {n x : Node}, Simple n → x ∈ Node.subtree n → Simple x
  | .text s, x, h, hx => by rw [Node.subtree, List.mem_singleton] at hx; subst hx; exact h
  | .tag n a ks, x, h, hx => by
    rw [Node.subtree] at hx
    rcases List.mem_cons.1 hx with rfl | hx
    · exact h
    · exact simple_nodesIn h.kids hx

theorem simple_nodesIn : ∀ {ks : List Node} {x : Node}, SimpleAll ks → x ∈ Node.nodesIn ks → Simple x
  | [], _, _, hx => by simp [Node.nodesIn] at hx
  | y :: r, x, h, hx => by
    rw [Node.nodesIn] at hx
    rcases List.mem_append.1 hx with hx | hx
    · exact simple_subtree h.1 hx
    · exact simple_nodesIn h.2 hx
end

theorem simple_descTags {n x : Node} (h : Simple n) (hx : x ∈ n.descTags) : Simple x :=
  simple_nodesIn h.kids (List.mem_filter.1 hx).1

/-- What a layer's `type_` is, if it has one of its own, can be told. -/
theorem untext_type {n : Node} (h : Simple n) (ht : textParam n = false) :
    fieldValue "type_" (untext n) = fieldValue "type_" n := by
  rw [fieldValue, fieldValue, untext_findParam h ht]
  cases hf : findParam "type_".toList n with
  | none => rfl
  | some p =>
    have hm : p ∈ n.descTags.filter (isParam "type_".toList) := List.mem_of_head? hf
    obtain ⟨hd, hp⟩ := List.mem_filter.1 hm
    have hs := simple_descTags h hd
    have hnt : textParam p = false := by
      simp only [textParam, isParam, Bool.and_eq_true, decide_eq_true_eq] at hp ⊢
      rw [hp.2]; simp
    have hb : BareAll p.kids := by
      cases p with
      | text s => trivial
      | tag a b ks => rw [Simple, if_pos (.inr hp)] at hs; exact hs
    have : untext p = p := by
      cases p with
      | text s => rfl
      | tag a b ks => rw [untext, if_neg (by simp [hnt]), BareAll.untext (ks := ks) hb]
    simp only [Option.map_some, this]

theorem type_lookup : ∀ p ∈ layerRegistry, p.2.fields.lookup "type_" = none ∨
    ∃ d, p.2.fields.lookup "type_" = some (.param .integer d) := by
  intro p hp
  have := type_field p hp
  split at this
  · next e => exact .inl e
  · next d e => exact .inr ⟨d, e⟩
  · cases this

/-- Whether a layer is of some type can be told. -/
theorem untext_matcher {F : Fl} {d : Defaults} {ty : Str} {n : Node} (h : Simple n) :
    matcher F d .none [("type_", .str ty)] (untext n) = matcher F d .none [("type_", .str ty)] n := by
  rw [matcher, matcher, untext_name]
  by_cases hn : n.name = "layer"
  · rw [if_neg (by simpa using hn), if_neg (by simpa using hn)]
    have hnt : textParam n = false := by simp [isParam, hn]
    have hl : layerOf (untext n) = layerOf n := by rw [layerOf, layerOf, untext_attrs]
    rw [asLayer, asLayer, hl]
    cases hc : layerOf n with
    | error e => rfl
    | ok c =>
      simp only
      have ha : layerAttr F d "type_" (c, untext n) = layerAttr F d "type_" (c, n) := by
        obtain ⟨s, hs⟩ := layerOf_mem hc
        rcases type_lookup _ hs with e | ⟨d', e⟩
        · simp only at e
          simp only [layerAttr, e, getType, untext_attrs, if_true]
        · simp only at e
          simp only [layerAttr, e, getField, untext_type h hnt]
      simp only [meetsAny, tryAttr, ha]
  · rw [if_pos hn, if_pos hn]

theorem untext_filterRes {F : Fl} {d : Defaults} {ty : Str} {l : List Node} (h : ∀ x ∈ l, Simple x) :
    filterRes (matcher F d .none [("type_", .str ty)]) (l.map untext) =
      (filterRes (matcher F d .none [("type_", .str ty)]) l).map (List.map untext) := by
  induction l with
  | nil => rfl
  | cons x r ih =>
    rw [List.map_cons, filterRes, filterRes, untext_matcher (h x (by simp)), ih fun y hy => h y (by simp [hy])]
    cases matcher F d .none [("type_", .str ty)] x with
    | error e => rfl
    | ok b =>
      cases filterRes (matcher F d .none [("type_", .str ty)]) r with
      | error e => rfl
      | ok l => cases b <;> rfl

/-- Only layers match. -/
theorem filterRes_layers {F : Fl} {d : Defaults} {sp : Special} {ts : List (String × PV)} (l : List Node) :
    filterRes (matcher F d sp ts) (l.filter fun x => decide (x.name = "layer")) = filterRes (matcher F d sp ts) l := by
  induction l with
  | nil => rfl
  | cons x r ih =>
    by_cases hx : x.name = "layer"
    · rw [List.filter_cons_of_pos (by simpa using hx), filterRes, filterRes, ih]
    · rw [List.filter_cons_of_neg (by simpa using hx), filterRes, ih]
      have : matcher F d sp ts x = .ok false := by rw [matcher, if_pos hx]
      rw [this]
      cases filterRes (matcher F d sp ts) r <;> rfl

theorem untext_asLayers (l : List Node) :
    mapRes asLayer (l.map untext) = (mapRes asLayer l).map (List.map fun x => (x.1, untext x.2)) := by
  induction l with
  | nil => rfl
  | cons x r ih =>
    rw [List.map_cons, mapRes, mapRes, ih, asLayer, asLayer]
    have hl : layerOf (untext x) = layerOf x := by rw [layerOf, layerOf, untext_attrs]
    rw [hl]
    cases layerOf x with
    | error e => rfl
    | ok c => cases mapRes asLayer r <;> rfl

/-- What a search by type finds. -/
theorem untext_find {F : Fl} {d : Defaults} {a : FindArgs} {kw : List (String × Want)} {ty : Str}
    (ha : posArg a = .ok (.none, kw)) (hk : criteria a kw = .ok [("type_", .str ty)]) {n : Node} (h : Simple n)
    (ht : textParam n = false) :
    findAllLayers F d a true (untext n) =
      (findAllLayers F d a true n).map (List.map fun x => (x.1, untext x.2)) := by
  have e : filterRes (matcher F d .none [("type_", .str ty)]) (untext n).descTags =
      (filterRes (matcher F d .none [("type_", .str ty)]) n.descTags).map (List.map untext) := by
    rw [← filterRes_layers, untext_descTags visible_layer h ht, untext_filterRes, filterRes_layers]
    intro x hx
    exact simple_descTags h (List.mem_filter.1 hx).1
  simp only [findAllLayers, ha, hk, if_true, e]
  cases hf : filterRes (matcher F d .none [("type_", .str ty)]) n.descTags with
  | error e => rfl
  | ok l => exact untext_asLayers l

/-! ## Texts stay plain -/

theorem Bare.setAttrs {n : Node} (h : Bare n) (a : Attrs) : Bare (n.setAttrs a) := by
  cases n with
  | text s => trivial
  | tag m b ks => exact h

theorem Bare.animated {n : Node} (h : Bare n) : Bare (n.setName "animated") := by
  cases n with
  | text s => trivial
  | tag m b ks => exact ⟨by simp, by simp, h.2.2⟩

theorem startAnimation_bare {n : Node} (h : Bare n) : Bare (startAnimation n) := by
  rw [startAnimation]
  split
  · exact h
  · exact (h.setAttrs _).animated

theorem fromTag_bare {F : Fl} {root : Option Attrs} {ty : Str} {n : Node} (h : Bare n) {w : Waypoint}
    (hw : Waypoint.fromTag F root ty n = .ok w) : Bare w.val := by
  rw [Waypoint.fromTag] at hw
  split at hw
  · cases hw
  split at hw
  · cases hw
  split at hw
  · cases hw
  split at hw
  · next v hv =>
    split at hw
    · cases hw
    split at hw
    · cases hw
    split at hw
    · cases hw
    split at hw
    · cases hw
    split at hw
    · cases hw
    split at hw
    · cases hw
    split at hw
    · cases hw
    injection hw with hw
    subst hw
    exact h.tagKids (by rw [hv]; simp)
  · cases hw

theorem waypoints_bare {F : Fl} {ctx : Ctx} {n : Node} (h : Bare n) {ws : List Waypoint}
    (hw : waypoints F ctx n = .ok ws) : ∀ w ∈ ws, Bare w.val := by
  rw [waypoints] at hw
  split at hw
  · cases hw; simp
  split at hw
  · cases hw
  split at hw
  · cases hw
  next l hl =>
  cases hw
  intro w hw
  rcases mem_foldl_putWp hw with hw | hw
  · obtain ⟨x, hx, e⟩ := mapRes_mem hl hw
    refine fromTag_bare (h.tagKids (x := x) ?_) e
    rw [waypointTags] at hx
    split at hx
    · cases hx
    · exact hx
  · cases hw

theorem tag_bare {w : Waypoint} (h : Bare w.val) : Bare w.tag := ⟨by simp, by simp, h, trivial⟩

theorem sorted_bare {ws : List Waypoint} (h : ∀ w ∈ ws, Bare w.val) : BareAll ((sortWps ws).map Waypoint.tag) := by
  rw [bareAll_iff]
  intro k hk
  obtain ⟨w, hw, rfl⟩ := List.mem_map.1 hk
  exact tag_bare (h w ((List.perm_insertionSort _ ws).mem_iff.1 hw))

theorem withNewlines_bare : ∀ {l : List Node}, BareAll l → BareAll (withNewlines l)
  | [], _ => trivial
  | [_], h => h
  | _ :: _ :: _, h => ⟨h.1, trivial, withNewlines_bare h.2⟩

theorem unAnimate_bare {F : Fl} {ctx : Ctx} {n : Node} (h : Bare n) : Bare (unAnimate F ctx n).1 := by
  rw [unAnimate]
  split
  · exact h
  split
  · exact h
  · exact h
  · next w ws hw =>
    split
    · exact waypoints_bare h hw w (by simp)
    · exact h.setKids trivial

theorem setWaypoints_bare {F : Fl} {ctx : Ctx} {ws : List Waypoint} (hw : ∀ w ∈ ws, Bare w.val) {n : Node}
    (h : Bare n) : Bare (setWaypoints F ctx ws n).1 := by
  rw [setWaypoints]
  split
  · exact unAnimate_bare h
  split
  · exact (startAnimation_bare h).setKids trivial
  · exact (startAnimation_bare h).setKids (withNewlines_bare (sorted_bare hw))

theorem newString_bare {F : Fl} {v : PV} {m : Node} (h : newValue F .string v = .ok m) : Bare m := by
  rw [newValue, construct] at h
  split at h
  · cases h
  · injection h with h
    subst h
    simp only [setValue]
    split
    · exact ⟨by simp, by simp, trivial⟩
    · exact ⟨by simp, by simp, trivial, trivial⟩

theorem animate_bare {F : Fl} {ctx : Ctx} {n : Node} (h : Bare n) : Bare (animate F ctx .string n).1 := by
  rw [animate]
  split
  · exact h
  simp only [getValue]
  rw [setItem]
  have h0 := (startAnimation_bare h).setKids (ks := []) trivial
  split
  · exact h0
  split
  · exact h0
  next w hw =>
  have hn : Bare (if ((startAnimation n).setKids []).name = "animated" then (startAnimation n).setKids []
      else startAnimation (((startAnimation n).setKids []).setKids [])) := by
    split
    · exact h0
    · exact startAnimation_bare (h0.setKids trivial)
  simp only
  split
  · exact hn
  next ws hws =>
  split
  · exact hn
  refine setWaypoints_bare (fun x hx => ?_) hn
  rcases mem_of_putWp hx with rfl | hx
  · simp only [makeWp] at hw
    split at hw
    · cases hw
    next value hval =>
    split at hval
    · cases hval
    next m hm =>
    injection hval with hval
    subst hval
    simp only [Waypoint.new] at hw
    split at hw
    · cases hw
    split at hw
    · cases hw
    split at hw
    · cases hw
    injection hw with hw
    subst hw
    exact newString_bare hm
  · exact waypoints_bare hn hws x hx

theorem addWaypoints_bare {F : Fl} {ctx : Ctx} {new : List Waypoint} (hw : ∀ w ∈ new, Bare w.val) {o : Bool} {n : Node}
    (h : Bare n) : Bare (addWaypoints F ctx .string new o n).1 := by
  rw [addWaypoints]
  split
  · exact h
  next existing hex =>
  split
  · exact h
  simp only
  split
  · exact h
  next kept hk =>
  have ha := animate_bare (F := F) (ctx := ctx) h
  split
  · next e => rw [e] at ha; exact ha
  next m e =>
  rw [e] at ha
  split
  · exact ha
  split
  · exact Bare.setKids ha trivial
  · refine Bare.setKids ha (sorted_bare ?_)
    intro w hm
    rcases mem_foldl_putWp hm with hm | hm
    · rcases mem_foldl_putWp hm with hm | hm
      · exact hw w hm
      · cases hm
    · refine waypoints_bare h hex w ?_
      split at hk
      · exact mem_delClashes hk hm
      · split at hk
        · cases hk; exact hm
        · cases hk

theorem setConstant_bare {F : Fl} {ctx : Ctx} {time value : Str} {n : Node} (h : Bare n) :
    Bare (setConstant F ctx time value n).1 := by
  rw [setConstant]
  split
  · exact h
  next v hv =>
  split
  · exact h
  split
  · exact h
  next w hw =>
  refine addWaypoints_bare (fun w' hw' => ?_) h
  rw [List.mem_singleton.1 hw']
  simp only [Waypoint.new] at hw
  split at hw
  · cases hw
  split at hw
  · cases hw
  split at hw
  · cases hw
  injection hw with hw
  subst hw
  exact newString_bare hv

theorem setWords_bare {F : Fl} {ctx : Ctx} {words : List WordTiming} {n : Node} (h : Bare n) :
    Bare (setWords F ctx words n).1 := by
  induction words generalizing n with
  | nil => exact h
  | cons w ws ih =>
    have h := setConstant_bare (F := F) (ctx := ctx) (time := reprF F w.time) (value := w.text) h
    rw [setWords]
    split
    · next e => rw [e] at h; exact h
    · next e => rw [e] at h; exact ih h

theorem adjustText_bare {F : Fl} {ctx : Ctx} {x : ℕ × ℕ} {words : List WordTiming} {n : Node} (h : Bare n) :
    Bare (adjustText F ctx x words n).1 := by
  have h := setConstant_bare (F := F) (ctx := ctx) (time := ['0']) (value := []) h
  rw [adjustText]
  split
  · next e => rw [e] at h; exact h
  · next e => rw [e] at h; exact setWords_bare h

/-! ## Only texts change -/

/-- `e` is `n` but for its texts, which are plain. -/
def Retexted (n e : Node) : Prop := untext e = untext n ∧ Simple e

theorem Retexted.refl {n : Node} (h : Simple n) : Retexted n n := ⟨rfl, h⟩

theorem Retexted.trans {n e f : Node} (h : Retexted n e) (h' : Retexted e f) : Retexted n f :=
  ⟨h'.1.trans h.1, h'.2⟩

theorem Simple.textKids {p : Node} (h : Simple p) (ht : textParam p = true) : BareAll p.kids := by
  cases p with
  | text s => trivial
  | tag a b ks => rw [Simple, if_pos (.inl ht)] at h; exact h

theorem replaceValue_retexted {p v : Node} (hp : Simple p) (ht : textParam p = true) (hv : Bare v) :
    Retexted p (replaceValue v p) := by
  have hk := hp.textKids ht
  cases p with
  | text s => exact ⟨rfl, hp⟩
  | tag a b ks =>
    have hr : replaceValue v (.tag a b ks) = .tag a b (ks.map fun x => if x.isTag then v else x) := rfl
    have ht' : textParam (.tag a b (ks.map fun x => if x.isTag then v else x)) = true := ht
    constructor
    · rw [hr, untext, untext, if_pos ht, if_pos ht']
    · rw [hr, Simple, if_pos (.inl ht'), bareAll_iff]
      intro x hx
      obtain ⟨y, hy, rfl⟩ := List.mem_map.1 hx
      split
      · exact hv
      · exact bareAll_iff.1 hk y hy

theorem retexted_tag {n : String} {a : Attrs} {ks ks' : List Node} (h : Simple (.tag n a ks))
    (ht : textParam (.tag n a ks) = false) (hk : untextAll ks' = untextAll ks) (hs : SimpleAll ks')
    (hb : BareAll ks → BareAll ks') : Retexted (.tag n a ks) (.tag n a ks') := by
  have ht' : textParam (.tag n a ks') = false := ht
  constructor
  · rw [untext, untext, if_neg (by rw [ht']; simp), if_neg (by rw [ht]; simp), hk]
  · rw [Simple] at h ⊢
    by_cases hy : typeParam (.tag n a ks) = true
    · have hy' : typeParam (.tag n a ks') = true := hy
      rw [if_pos (.inr hy)] at h
      rw [if_pos (.inr hy')]
      exact hb h
    · have hy' : ¬ typeParam (.tag n a ks') = true := hy
      rw [if_neg (by rintro (e | e); · rw [ht'] at e; cases e
                     · exact hy' e)]
      exact hs

mutual
theorem updNode_retexted {v : Node} (hv : Bare v) : ∀ {n m : Node}, Simple n →
    updNode (isParam "text".toList) (replaceValue v) n = some m → Retexted n m ∧ ¬ Bare n
  | .text s, m, _, h => by cases h
  | .tag n a ks, m, hn, h => by
    rw [updNode] at h
    split at h
    · next ht =>
      injection h with h
      subst h
      refine ⟨replaceValue_retexted hn ht hv, fun hb => hb.2.1 ?_⟩
      simp only [isParam, Bool.and_eq_true, decide_eq_true_eq] at ht
      exact ht.1
    · next ht =>
      obtain ⟨ks', hk, rfl⟩ := Option.map_eq_some_iff.1 h
      obtain ⟨k1, k2, k3⟩ := updKids_retexted hv hn.kids hk
      exact ⟨retexted_tag hn (Bool.eq_false_iff.2 ht) k1 k2 fun hb => absurd hb k3, fun hb => k3 hb.2.2⟩

theorem updKids_retexted {v : Node} (hv : Bare v) : ∀ {ks ks' : List Node}, SimpleAll ks →
    updKids (isParam "text".toList) (replaceValue v) ks = some ks' →
    untextAll ks' = untextAll ks ∧ SimpleAll ks' ∧ ¬ BareAll ks
  | [], _, _, h => by cases h
  | x :: r, ks', hk, h => by
    rw [updKids] at h
    split at h
    · next y hy =>
      injection h with h
      subst h
      obtain ⟨h1, h2⟩ := updNode_retexted hv hk.1 hy
      exact ⟨by rw [untextAll, untextAll, h1.1], ⟨h1.2, hk.2⟩, fun hb => h2 hb.1⟩
    · obtain ⟨r', hr, rfl⟩ := Option.map_eq_some_iff.1 h
      obtain ⟨k1, k2, k3⟩ := updKids_retexted hv hk.2 hr
      exact ⟨by rw [untextAll, untextAll, k1], ⟨hk.1, k2⟩, fun hb => k3 hb.2⟩
end

theorem updFirst_retexted {v n : Node} (hv : Bare v) (hn : Simple n) (ht : textParam n = false) :
    Retexted n (updFirst (isParam "text".toList) (replaceValue v) n) := by
  cases n with
  | text s => exact ⟨rfl, hn⟩
  | tag m a ks =>
    rw [updFirst]
    cases e : updKids (isParam "text".toList) (replaceValue v) ks with
    | none => exact ⟨rfl, hn⟩
    | some ks' =>
      obtain ⟨k1, k2, k3⟩ := updKids_retexted hv hn.kids e
      exact retexted_tag hn ht k1 k2 fun hb => absurd hb k3

/-- Doing something to the text of a layer. -/
theorem onParam_retexted {g : Node → Node × Res Unit} (hg : ∀ v, Bare v → Bare (g v).1) {n : Node} (hn : Simple n)
    (ht : textParam n = false) : Retexted n (onParam "text".toList (fun _ => g) n).1 := by
  rw [onParam]
  split
  · exact .refl hn
  next p hp =>
  split
  · exact .refl hn
  next s c v hv =>
  obtain ⟨hm, hpt⟩ := List.mem_filter.1 (List.mem_of_head? hp)
  have hb : Bare v := by
    have hk := (simple_descTags hn hm).textKids hpt
    simp only [nameAndValue] at hv
    split at hv
    · cases hv
    split at hv
    · cases hv
    · split at hv
      · next u hu =>
        split at hv
        · cases hv
        · injection hv with hv; injection hv with _ hv; injection hv with _ hv
          subst hv
          have : u ∈ p.tagKids := by rw [hu]; simp
          exact bareAll_iff.1 hk u (List.mem_filter.1 this).1
      · cases hv
    · cases hv
  exact updFirst_retexted (hg v hb) hn ht

theorem untextAll_set {ks : List Node} {i : ℕ} {x y : Node} (hx : ks[i]? = some x) (h : untext y = untext x) :
    untextAll (ks.set i y) = untextAll ks := by
  rw [untextAll_eq, untextAll_eq]
  apply List.ext_getElem?
  intro j
  rw [List.getElem?_map, List.getElem?_map, List.getElem?_set]
  split
  · next e =>
    subst e
    rw [hx]
    split
    · rw [Option.map_some, Option.map_some, h]
    · next hl =>
      have := (List.getElem?_eq_some_iff.1 hx).1
      exact absurd this hl
  · rfl

/-- The same somewhere in the document, where there is a layer. -/
theorem actAt_retexted {g : Node → Node × Res Unit}
    (hg : ∀ x, Simple x → x.name = "layer" → Retexted x (g x).1) : ∀ {p : Place} {n x : Node}, Simple n →
    nodeAt p n = some x → x.name = "layer" →
    Retexted n (actAt g p n).1 ∧ (textParam n = false) ∧ ¬ Bare n
  | [], n, x, hn, hx, hl => by
    injection hx with hx
    subst hx
    refine ⟨hg n hn hl, by simp [isParam, hl], fun hb => ?_⟩
    cases n with
    | text s => simp [Node.name] at hl
    | tag a b ks => exact hb.1 hl
  | i :: p, .text s, x, hn, hx, hl => by simp [nodeAt, Node.kids] at hx
  | i :: p, .tag n a ks, x, hn, hx, hl => by
    rw [nodeAt, Node.kids] at hx
    cases hy : ks[i]? with
    | none => rw [hy] at hx; cases hx
    | some y =>
      rw [hy] at hx
      have hk := hn.kids
      have hys : Simple y := simpleAll_iff.1 hk y (List.mem_of_getElem? hy)
      obtain ⟨h1, h2, h3⟩ := actAt_retexted hg hys hx hl
      have hnb : ¬ BareAll ks := fun hb => h3 (bareAll_iff.1 hb y (List.mem_of_getElem? hy))
      have ht : textParam (.tag n a ks) = false := by
        by_contra h
        exact hnb (hn.textKids (by simpa using h))
      refine ⟨?_, ht, fun hb => hnb hb.2.2⟩
      simp only [actAt, hy]
      refine retexted_tag hn ht (untextAll_set hy h1.1) ?_ fun hb => absurd hb hnb
      rw [simpleAll_iff] at hk ⊢
      intro z hz
      rcases List.mem_or_eq_of_mem_set hz with hz | rfl
      · exact hk z hz
      · exact h1.2

/-! ## What is where -/

theorem nodeAt_untext : ∀ {p : Place} {n x : Node}, Simple n → nodeAt p n = some x →
    x.name = "layer" ∨ x.name = "param" → nodeAt p (untext n) = some (untext x) ∧ ¬ Bare n
  | [], n, x, hn, hx, hl => by
    injection hx with hx
    subst hx
    refine ⟨rfl, fun hb => ?_⟩
    cases n with
    | text s => simp [Node.name] at hl
    | tag a b ks => exact hl.elim hb.1 hb.2.1
  | i :: p, n, x, hn, hx, hl => by
    rw [nodeAt] at hx
    cases hy : n.kids[i]? with
    | none => rw [hy] at hx; cases hx
    | some y =>
      rw [hy] at hx
      have hm := List.mem_of_getElem? hy
      obtain ⟨h1, h3⟩ := nodeAt_untext (simpleAll_iff.1 hn.kids y hm) hx hl
      have hnb : ¬ BareAll n.kids := fun hb => h3 (bareAll_iff.1 hb y hm)
      have ht : textParam n = false := by
        by_contra h
        exact hnb (hn.textKids (by simpa using h))
      refine ⟨?_, fun hb => hnb hb.kids⟩
      rw [nodeAt, untext_kids ht, List.getElem?_map, hy]
      exact h1

theorem of_nodeAt_untext : ∀ {p : Place} {n z : Node}, nodeAt p (untext n) = some z →
    ∃ x, nodeAt p n = some x ∧ untext x = z
  | [], n, z, h => ⟨n, rfl, by injection h⟩
  | i :: p, n, z, h => by
    rw [nodeAt] at h
    by_cases ht : textParam n = true
    · have : (untext n).kids = [] := by
        cases n with
        | text s => rfl
        | tag a b ks => rw [untext, if_pos ht]; rfl
      rw [this] at h
      simp at h
    · rw [untext_kids (Bool.eq_false_iff.2 ht), List.getElem?_map] at h
      cases hy : n.kids[i]? with
      | none => rw [hy] at h; simp at h
      | some y =>
        rw [hy] at h
        obtain ⟨x, hx, e⟩ := of_nodeAt_untext (n := y) h
        exact ⟨x, by rw [nodeAt, hy]; exact hx, e⟩

/-- The layers and params are where they were. -/
theorem Retexted.at {n e : Node} (hn : Simple n) (h : Retexted n e) {p : Place} {x : Node}
    (hx : nodeAt p n = some x) (hl : x.name = "layer" ∨ x.name = "param") :
    ∃ y, nodeAt p e = some y ∧ untext y = untext x := by
  obtain ⟨h1, -⟩ := nodeAt_untext hn hx hl
  rw [← h.1] at h1
  exact of_nodeAt_untext h1

theorem Retexted.symm {n e : Node} (hn : Simple n) (h : Retexted n e) : Retexted e n := ⟨h.1.symm, hn⟩

theorem eq_of_untext {α : Type} {f : Node → α} (hf : ∀ n, f (untext n) = f n) {x y : Node} (h : untext y = untext x) :
    f y = f x := by rw [← hf y, ← hf x, h]

theorem same_name {x y : Node} (h : untext y = untext x) : y.name = x.name := eq_of_untext untext_name h

theorem same_attrs {x y : Node} (h : untext y = untext x) : y.attrs = x.attrs := eq_of_untext untext_attrs h

theorem same_isLayer {ty : String} {x y : Node} (h : untext y = untext x) : IsLayer ty y ↔ IsLayer ty x := by
  rw [IsLayer, IsLayer, same_name h, same_attrs h]

theorem same_desc {F : Fl} {x y : Node} (h : untext y = untext x) : getDesc F y = getDesc F x := by
  rw [getDesc, getDesc, same_attrs h]

theorem same_bywordsGroup {F : Fl} {x y : Node} (h : untext y = untext x) : BywordsGroup F y ↔ BywordsGroup F x := by
  rw [BywordsGroup, BywordsGroup, same_isLayer h, same_desc h]

theorem same_animRoot {x y : Node} (h : untext y = untext x) : animRoot y = animRoot x := by
  rw [animRoot, animRoot, same_name h, same_attrs h]

theorem same_textCtx {x y : Node} (h : untext y = untext x) : textCtx y = textCtx x := by
  rw [textCtx, textCtx, same_animRoot h]

theorem layersBelow_filter (n : Node) : n.descTags.filter (fun x => decide (x.name = "layer")) = layersBelow n :=
  findAll_layer n

theorem untext_textLayers {n : Node} (h : Simple n) (ht : textParam n = false) :
    textLayers (untext n) = (textLayers n).map untext := by
  rw [textLayers, textLayers, ← layersBelow_filter, ← layersBelow_filter, untext_descTags visible_layer h ht,
    List.filter_map]
  congr 1
  apply List.filter_congr
  intro x _
  simp only [Function.comp, untext_attrs]

theorem same_groupWords {F : Fl} {x y : Node} (hx : Simple x) (hy : Simple y) (ht : textParam x = false)
    (h : untext y = untext x) : groupWords F y = groupWords F x := by
  have ht' : textParam y = false := by
    rw [← ht]; exact eq_of_untext (fun n => untext_isParam _ n) h
  have key : ∀ z, groupWords F z = [' '].intercalate
      (((textLayers z).map untext).reverse.map fun x => normal ((getDesc F x).getD [])) := by
    intro z
    rw [groupWords, ← List.map_reverse, List.map_map]
    congr 1
    apply List.map_congr_left
    intro u _
    simp only [Function.comp]
    rw [show getDesc F (untext u) = getDesc F u from by rw [getDesc, getDesc, untext_attrs]]
  rw [key, key, ← untext_textLayers hx ht, ← untext_textLayers hy ht', h]

/-! ## The groups -/

theorem mapRes_map_same {α β : Type} {f : α → Res β} {g : α → α} {l : List α} (h : ∀ x ∈ l, f (g x) = f x) :
    mapRes f (l.map g) = mapRes f l := by
  induction l with
  | nil => rfl
  | cons x l ih => rw [List.map_cons, mapRes, mapRes, h x (by simp), ih fun y hy => h y (by simp [hy])]

theorem untext_bwGroup {F : Fl} {d : Defaults} {i : ℕ} {desc : Str} {n : Node} (h : Simple n)
    (ht : textParam n = false) : bwGroup F d i desc (untext n) = bwGroup F d i desc n := by
  rw [bwGroup, bwGroup, untext_find text_targets.1 text_targets.2 h ht]
  cases findAllLayers F d {pos := [.str "text".toList]} true n with
  | error e => rfl
  | ok xs =>
    simp only [Except.map]
    rw [← List.map_reverse, List.zipIdx_map, mapRes_map_same]
    intro p _
    simp only [Prod.map, id, getDesc, untext_attrs]

theorem untext_bwGroups {F : Fl} {d : Defaults} {n : Node} (h : Simple n) (ht : textParam n = false) :
    bwGroups F d (untext n) = bwGroups F d n := by
  rw [bwGroups, bwGroups, untext_find group_targets.1 group_targets.2 h ht]
  cases hf : findAllLayers F d {pos := [.cls "Group".toList]} true n with
  | error e => rfl
  | ok xs =>
    simp only [Except.map]
    have hxs : ∀ x ∈ xs, Simple x.2 ∧ textParam x.2 = false := by
      intro x hx
      obtain ⟨-, h3, -⟩ := (search_ok group_targets.1 group_targets.2).1 hf
      have hm : x.2 ∈ layersBelow n := by
        have : x.2 ∈ xs.map Prod.snd := List.mem_map.2 ⟨x, hx, rfl⟩
        rw [h3] at this
        exact (List.mem_filter.1 this).1
      have hl := name_of_isLayerElt (layersBelow_isLayer hm)
      refine ⟨?_, by simp [isParam, hl]⟩
      rw [← layersBelow_filter] at hm
      exact simple_descTags h (List.mem_filter.1 hm).1
    have hw : bwWanted F (xs.map fun x => (x.1, untext x.2)) = (bwWanted F xs).map fun p => (p.1, untext p.2) := by
      rw [bwWanted, bwWanted, List.filterMap_map, List.map_filterMap]
      apply List.filterMap_congr
      intro x _
      simp only [Function.comp, getDesc, untext_attrs]
      cases x.2.attrs.get "desc" with
      | none => rfl
      | some a =>
        simp only
        split <;> rfl
    have hws : ∀ p ∈ bwWanted F xs, Simple p.2 ∧ textParam p.2 = false := by
      intro p hp
      rw [bwWanted, List.mem_filterMap] at hp
      obtain ⟨x, hx, e⟩ := hp
      split at e
      · split at e
        · injection e with e
          subst e
          exact hxs x hx
        · cases e
      · cases e
    rw [hw, List.zipIdx_map, mapRes_map_same]
    intro p hp
    obtain ⟨z1, z2⟩ := hws _ (List.mem_of_getElem? (List.mem_zipIdx_iff_getElem?.1 hp))
    simp only [Prod.map, id, untext_bwGroup z1 z2]

/-! ## The places -/

mutual
theorem bare_places : ∀ {n : Node} {p : Place}, Bare n →
    (placesOf p n).filter (fun x => decide (x.2.name = "layer")) = []
  | .text s, p, _ => rfl
  | .tag n a ks, p, h => by
    rw [placesOf, List.filter_cons_of_neg (by simp [Node.name, h.1]), bareAll_places h.2.2]

theorem bareAll_places : ∀ {ks : List Node} {p : Place} {i : ℕ}, BareAll ks →
    (placesIn p i ks).filter (fun x => decide (x.2.name = "layer")) = []
  | [], _, _, _ => rfl
  | x :: r, p, i, h => by rw [placesIn, List.filter_append, bare_places h.1, bareAll_places h.2]; rfl
end

mutual
theorem untext_placesOf : ∀ {n : Node} {p : Place}, Simple n →
    (placesOf p (untext n)).filter (fun x => decide (x.2.name = "layer")) =
      ((placesOf p n).filter fun x => decide (x.2.name = "layer")).map fun x => (x.1, untext x.2)
  | .text s, p, _ => rfl
  | .tag n a ks, p, h => by
    by_cases ht : textParam (.tag n a ks) = true
    · have hb : BareAll ks := h.textKids ht
      have hn : n ≠ "layer" := by
        have ht := ht
        simp only [isParam, Bool.and_eq_true, decide_eq_true_eq, Node.name] at ht
        rw [of_decide_eq_true ht.1]; simp
      have e : untext (.tag n a ks) = .tag n a [] := by rw [untext, if_pos ht]
      rw [e, placesOf, placesOf, List.filter_cons_of_neg (by simp [Node.name, hn]),
        List.filter_cons_of_neg (by simp [Node.name, hn]), bareAll_places hb]
      rfl
    · have e : untext (.tag n a ks) = .tag n a (untextAll ks) := by rw [untext, if_neg ht]
      rw [e, placesOf, placesOf, List.filter_cons, List.filter_cons, untext_placesIn (ks := ks) h.kids]
      by_cases hn : n = "layer"
      · rw [if_pos (by simp [Node.name, hn]), if_pos (by simp [Node.name, hn]), List.map_cons, e]
      · rw [if_neg (by simp [Node.name, hn]), if_neg (by simp [Node.name, hn])]

theorem untext_placesIn : ∀ {ks : List Node} {p : Place} {i : ℕ}, SimpleAll ks →
    (placesIn p i (untextAll ks)).filter (fun x => decide (x.2.name = "layer")) =
      ((placesIn p i ks).filter fun x => decide (x.2.name = "layer")).map fun x => (x.1, untext x.2)
  | [], _, _, _ => rfl
  | x :: r, p, i, h => by
    rw [untextAll, placesIn, placesIn, List.filter_append, List.filter_append, List.map_append,
      untext_placesOf h.1, untext_placesIn h.2]
end

theorem filterRes_layersAt {F : Fl} {d : Defaults} {sp : Special} {ts : List (String × PV)} (l : List (Place × Node)) :
    filterRes (fun x => matcher F d sp ts x.2) (l.filter fun x => decide (x.2.name = "layer")) =
      filterRes (fun x => matcher F d sp ts x.2) l := by
  induction l with
  | nil => rfl
  | cons x r ih =>
    by_cases hx : x.2.name = "layer"
    · rw [List.filter_cons_of_pos (by simpa using hx), filterRes, filterRes, ih]
    · rw [List.filter_cons_of_neg (by simpa using hx), filterRes, ih]
      have : matcher F d sp ts x.2 = .ok false := by rw [matcher, if_pos hx]
      rw [this]
      cases filterRes (fun x => matcher F d sp ts x.2) r <;> rfl

theorem untext_filterResAt {F : Fl} {d : Defaults} {ty : Str} {l : List (Place × Node)} (h : ∀ x ∈ l, Simple x.2) :
    filterRes (fun x => matcher F d .none [("type_", .str ty)] x.2) (l.map fun x => (x.1, untext x.2)) =
      (filterRes (fun x => matcher F d .none [("type_", .str ty)] x.2) l).map
        (List.map fun x => (x.1, untext x.2)) := by
  induction l with
  | nil => rfl
  | cons x r ih =>
    rw [List.map_cons, filterRes, filterRes, ih fun y hy => h y (by simp [hy])]
    simp only [untext_matcher (h x (by simp))]
    cases matcher F d .none [("type_", .str ty)] x.2 with
    | error e => rfl
    | ok b =>
      cases filterRes (fun x => matcher F d .none [("type_", .str ty)] x.2) r with
      | error e => rfl
      | ok l => cases b <;> rfl

theorem untext_asLayersAt (l : List (Place × Node)) :
    mapRes asLayerAt (l.map fun x => (x.1, untext x.2)) =
      (mapRes asLayerAt l).map (List.map fun x => (x.1, x.2.1, untext x.2.2)) := by
  induction l with
  | nil => rfl
  | cons x r ih =>
    rw [List.map_cons, mapRes, mapRes, ih, asLayerAt, asLayerAt, asLayer, asLayer]
    have hl : layerOf (untext x.2) = layerOf x.2 := by rw [layerOf, layerOf, untext_attrs]
    simp only [hl]
    cases layerOf x.2 with
    | error e => rfl
    | ok c => cases mapRes asLayerAt r <;> rfl

theorem simple_at {n : Node} (h : Simple n) : ∀ {p : Place} {x : Node}, nodeAt p n = some x → Simple x := by
  intro p
  induction p generalizing n with
  | nil => intro x hx; injection hx with hx; subst hx; exact h
  | cons i p ih =>
    intro x hx
    rw [nodeAt] at hx
    cases hy : n.kids[i]? with
    | none => rw [hy] at hx; cases hx
    | some y => rw [hy] at hx; exact ih (simpleAll_iff.1 h.kids y (List.mem_of_getElem? hy)) hx

theorem untext_findAt {F : Fl} {d : Defaults} {a : FindArgs} {kw : List (String × Want)} {ty : Str}
    (ha : posArg a = .ok (.none, kw)) (hk : criteria a kw = .ok [("type_", .str ty)]) {p : Place} {n : Node}
    (h : Simple n) (ht : textParam n = false) :
    findAllAt F d a p (untext n) = (findAllAt F d a p n).map (List.map fun x => (x.1, x.2.1, untext x.2.2)) := by
  have hs : ∀ x ∈ (placesIn p 0 n.kids).filter (fun x => decide (x.2.name = "layer")), Simple x.2 := by
    intro x hx
    obtain ⟨hx, hl⟩ := List.mem_filter.1 hx
    obtain ⟨q, -, -, hq, -⟩ := mem_places.1 hx
    exact simple_at h hq
  have e : filterRes (fun x => matcher F d .none [("type_", .str ty)] x.2) (placesIn p 0 (untext n).kids) =
      (filterRes (fun x => matcher F d .none [("type_", .str ty)] x.2) (placesIn p 0 n.kids)).map
        (List.map fun x => (x.1, untext x.2)) := by
    rw [← filterRes_layersAt, untext_kids ht, ← untextAll_eq, untext_placesIn h.kids, untext_filterResAt hs,
      filterRes_layersAt]
  simp only [findAllAt, ha, hk, e]
  cases hf : filterRes (fun x => matcher F d .none [("type_", .str ty)] x.2) (placesIn p 0 n.kids) with
  | error e => rfl
  | ok l => exact untext_asLayersAt l

theorem untext_bwPlaces {F : Fl} {d : Defaults} {n : Node} (h : Simple n) (ht : textParam n = false) :
    bwPlaces F d (untext n) = bwPlaces F d n := by
  rw [bwPlaces, bwPlaces, untext_findAt group_targets.1 group_targets.2 h ht]
  cases hf : findAllAt F d {pos := [.cls "Group".toList]} [] n with
  | error e => rfl
  | ok xs =>
    simp only [Except.map]
    have hw : bwWantedAt F (xs.map fun x => (x.1, x.2.1, untext x.2.2)) =
        (bwWantedAt F xs).map fun p => (p.1, untext p.2) := by
      rw [bwWantedAt, bwWantedAt, List.filterMap_map, List.map_filterMap]
      apply List.filterMap_congr
      intro x _
      simp only [Function.comp, getDesc, untext_attrs]
      cases x.2.2.attrs.get "desc" with
      | none => rfl
      | some a =>
        simp only
        split <;> rfl
    rw [hw, mapRes_map_same]
    intro p hp
    obtain ⟨c, hc, -⟩ := mem_wantedAt hp
    obtain ⟨⟨q, -, -, hq⟩, hl, -⟩ := (mem_findAllAt group_targets.1 group_targets.2 hf).1 hc
    have h1 : Simple p.2 := simple_at h hq
    have h2 : textParam p.2 = false := by simp [isParam, name_of_isLayerElt hl]
    simp only [bwTextsAt, untext_findAt text_targets.1 text_targets.2 h1 h2]
    cases findAllAt F d {pos := [.str "text".toList]} p.1 p.2 with
    | error e => rfl
    | ok zs =>
      simp only [Except.map, List.map_map]
      rfl

/-- What bywords finds in a document does not depend on what the texts say. -/
theorem same_groups {F : Fl} {d : Defaults} {n e : Node} (hn : Simple n) (ht : textParam n = false)
    (h : Retexted n e) : bwGroups F d e = bwGroups F d n ∧ bwPlaces F d e = bwPlaces F d n := by
  have ht' : textParam e = false := by
    rw [← ht]; exact eq_of_untext (fun n => untext_isParam _ n) h.1
  rw [← untext_bwGroups h.2 ht', ← untext_bwPlaces h.2 ht', h.1, untext_bwGroups hn ht, untext_bwPlaces hn ht]
  exact ⟨rfl, rfl⟩

/-! ## The whole program -/

theorem onText_retexted {F : Fl} {d : Defaults} {n e : Node} (hn : Simple n) {tbl : List (List Place)}
    (ht : bwPlaces F d n = .ok tbl) {x : ℕ × ℕ} {g : Node → Node × Res Unit} (hg : ∀ v, Bare v → Bare (g v).1)
    (he : Retexted n e) : Retexted n (onText tbl x g e).1 := by
  rw [onText]
  split
  · exact he
  next p hp =>
  obtain ⟨ys, gp, gn, zs, r, y, -, -, hat, -, -, -, rfl, hy, hyl⟩ := placeOf_info ht hp
  have hyn : nodeAt (gp ++ r) n = some y := by rw [nodeAt_append, hat]; exact hy
  obtain ⟨z, hz, hzy⟩ := he.at hn hyn (.inl hyl.1)
  exact he.trans (actAt_retexted (fun x hx hl => onParam_retexted hg hx (by simp [isParam, hl])) he.2 hz
    ((same_name hzy).trans hyl.1)).1

section
variable {F : Fl} {d : Defaults} {n : Node} (hn : Simple n) {tbl : List (List Place)}
  (ht : bwPlaces F d n = .ok tbl) {ctx : Ctx}
include hn ht

theorem clearTexts_retexted {l : List (ℕ × ℕ)} {e : Node} (he : Retexted n e) :
    Retexted n (clearTexts F ctx tbl l e).1 := by
  induction l generalizing e with
  | nil => exact he
  | cons x l ih =>
    have h := onText_retexted hn ht (x := x) (g := unAnimate F ctx) (fun v hv => unAnimate_bare hv) he
    rw [clearTexts]
    split
    · next e => rw [e] at h; exact h
    · next e => rw [e] at h; exact ih h

theorem adjustItems_retexted {words : List WordTiming} {l : List (ℕ × ℕ)} {e : Node} (he : Retexted n e) :
    Retexted n (adjustItems F ctx tbl words l e).1 := by
  induction l generalizing e with
  | nil => exact he
  | cons x l ih =>
    have h := onText_retexted hn ht (x := x) (g := adjustText F ctx x words) (fun v hv => adjustText_bare hv) he
    rw [adjustItems]
    split
    · next e => rw [e] at h; exact h
    · next e => rw [e] at h; exact ih h

theorem firstMatchDoc_retexted {letters : Bool} {l : SubLine} {gs : List BGroup} {e : Node} (he : Retexted n e) :
    Retexted n (firstMatchDoc F ctx tbl letters l gs e).1 := by
  induction gs generalizing e with
  | nil => exact he
  | cons g gs ih =>
    rw [firstMatchDoc]
    split
    · exact ih he
    have h := clearTexts_retexted hn ht (ctx := ctx) (l := g.texts.map BText.item) he
    split
    · next e => rw [e] at h; exact h
    next e =>
    rw [e] at h
    split
    · exact h
    · exact h
    · exact ih h

theorem matchLinesDoc_retexted {letters : Bool} {gs : List BGroup} {lines : List SubLine} {dict : List WordTiming}
    {e : Node} (he : Retexted n e) : Retexted n (matchLinesDoc F ctx tbl letters gs dict lines e).1 := by
  induction lines generalizing dict e with
  | nil => exact he
  | cons l lines ih =>
    have h1 := firstMatchDoc_retexted hn ht (ctx := ctx) (letters := letters) (l := l) (gs := gs) he
    rw [matchLinesDoc]
    split
    · next e => rw [e] at h1; exact h1
    · next ws e => rw [e] at h1; exact ih h1
    · next e => rw [e] at h1; exact ih h1
end

/-- `adjust` changes only texts, and leaves them plain. -/
theorem adjust_retexted (F : Fl) (d : Defaults) (perm : List (ℕ × ℕ) → List (ℕ × ℕ)) (letters : Bool)
    (lines : List SubLine) {n : Node} (hn : Simple n) : Retexted n (adjust F d perm letters lines n).1 := by
  rw [adjust]
  split
  · exact .refl hn
  · exact .refl hn
  next gs tbl h ht =>
  have h1 := matchLinesDoc_retexted hn ht (ctx := textCtx n) (letters := letters) (gs := gs) (lines := lines)
    (dict := []) (.refl hn)
  split
  · next e => rw [e] at h1; exact h1
  · next m dict e =>
    rw [e] at h1
    exact adjustItems_retexted hn ht h1

end Sang
