import Verif.Lemmas.Place
import Verif.Lemmas.Legal
import Verif.Props.Find
import Verif.Props.Colors
import Verif.Props.XmlText

/-!
# C125: the programs in the documentation
-/

namespace Sang

open Spec

/-! ## Params that have been set -/

/-- Whether an element matches doesn't depend on what is in it. -/
def ByHead (P : Node → Bool) : Prop :=
  (∀ s, P (.text s) = false) ∧ ∀ a b ks ks', P (.tag a b ks) = P (.tag a b ks')

mutual
theorem updNode_first {P : Node → Bool} {g : Node → Node} : ∀ {n x : Node},
    (n.subtree.filter P).head? = some x → ByHead P → (g x).isTag = true → P (g x) = true →
    ∃ m, updNode P g n = some m ∧ (m.subtree.filter P).head? = some (g x)
  | .text s, x, h, ht, _, _ => by
    rw [Node.subtree, List.filter_cons, if_neg (by simp [ht.1 s])] at h; cases h
  | .tag a b ks, x, h, ht, h1, h2 => by
    rw [updNode]
    by_cases hp : P (.tag a b ks) = true
    · rw [if_pos hp]
      rw [Node.subtree, List.filter_cons, if_pos hp] at h
      injection h with h
      subst h
      refine ⟨_, rfl, ?_⟩
      generalize g (.tag a b ks) = y at h1 h2
      cases y with
      | text s => cases h1
      | tag a' b' ks' => rw [Node.subtree, List.filter_cons, if_pos h2]; rfl
    · rw [if_neg hp]
      rw [Node.subtree, List.filter_cons, if_neg hp] at h
      obtain ⟨ks', e, h'⟩ := updKids_first h ht h1 h2
      rw [e]
      refine ⟨_, rfl, ?_⟩
      rw [Node.subtree, List.filter_cons, if_neg (by rwa [ht.2 a b ks' ks])]; exact h'
theorem updKids_first {P : Node → Bool} {g : Node → Node} : ∀ {ks : List Node} {x : Node},
    ((Node.nodesIn ks).filter P).head? = some x → ByHead P → (g x).isTag = true →
    P (g x) = true →
    ∃ m, updKids P g ks = some m ∧ ((Node.nodesIn m).filter P).head? = some (g x)
  | [], x, h, _, _, _ => by simp [Node.nodesIn] at h
  | z :: r, x, h, ht, h1, h2 => by
    rw [nodesIn_cons, List.filter_append] at h
    rw [updKids]
    cases e : (z.subtree.filter P).head? with
    | some y =>
      rw [List.head?_append, e] at h
      injection h with h
      subst h
      obtain ⟨m, e', h'⟩ := updNode_first e ht h1 h2
      rw [e']
      refine ⟨_, rfl, ?_⟩
      rw [nodesIn_cons, List.filter_append, List.head?_append, h']; rfl
    | none =>
      have e0 : z.subtree.filter P = [] := by simpa using e
      have hn : updNode P g z = none := updNode_none P g z fun y hy => by
        have := List.filter_eq_nil_iff.1 e0 y hy
        simpa using this
      rw [hn]
      rw [e0, List.nil_append] at h
      obtain ⟨m, e', h'⟩ := updKids_first h ht h1 h2
      rw [e']
      refine ⟨_, rfl, ?_⟩
      rw [nodesIn_cons, List.filter_append, e0, List.nil_append]; exact h'
end

theorem byHead_isParam (f : Str) : ByHead (isParam f) :=
  ⟨fun s => by simp [isParam, Node.name], fun a b ks ks' => rfl⟩

theorem findParam_eq (f : Str) (n : Node) :
    findParam f n = ((Node.nodesIn n.kids).filter (isParam f)).head? := by
  rw [findParam, Node.descTags, filter_isTag (tagOnly_isParam f)]

theorem findParam_upd {f : Str} {g : Node → Node} {n p : Node} (h : findParam f n = some p)
    (h1 : (g p).isTag = true) (h2 : isParam f (g p) = true) :
    findParam f (updFirst (isParam f) g n) = some (g p) := by
  rw [findParam_eq] at h
  cases n with
  | text s => simp [Node.kids, Node.nodesIn] at h
  | tag a b ks =>
    rw [Node.kids] at h
    obtain ⟨m, e, h'⟩ := updKids_first h (byHead_isParam f) h1 h2
    rw [updFirst, e, findParam_eq]
    exact h'

theorem tagKids_replace {p v m : Node} (hp : p.isTag = true) (h : p.tagKids = [v]) (hm : m.isTag = true) :
    (replaceValue m p).tagKids = [m] := by
  cases p with
  | text s => cases hp
  | tag a b ks =>
    show (List.map _ ks).filter Node.isTag = [m]
    have h : ks.filter Node.isTag = [v] := h
    have e : ∀ l : List Node, (l.map fun x => if x.isTag then m else x).filter Node.isTag =
        (l.filter Node.isTag).map fun _ => m := by
      intro l
      induction l with
      | nil => rfl
      | cons x l ih =>
        by_cases hx : x.isTag = true
        · simp only [List.map_cons, List.filter_cons, hx, hm, if_true, ih]
        · simp only [List.map_cons, List.filter_cons, hx, if_false, ih, Bool.false_eq_true]
    exact (e ks).trans (by rw [h]; rfl)

/-- What assigning to a param comes to. -/
theorem setParam_ok {F : Fl} {f : Str} {v : PV} {n : Node} (h : (setParam F f v n).2 = .ok ()) :
    ∃ c u m, getParam f n = .ok (c, u) ∧ newItem F c v = .ok m ∧
      (m.isTag = true → ∀ c', fromTag m = .ok c' → getParam f (setParam F f v n).1 = .ok (c', m)) := by
  simp only [setParam] at h ⊢
  cases hp : findParam f n with
  | none => simp only [hp] at h; cases h
  | some p =>
    simp only [hp] at h ⊢
    cases hv : nameAndValue p with
    | error e => simp only [hv] at h; cases h
    | ok t =>
      obtain ⟨s, c, u⟩ := t
      simp only [hv] at h ⊢
      cases hm : newItem F c v with
      | error e => simp only [hm] at h; cases h
      | ok m =>
        refine ⟨c, u, m, by simp only [getParam, hp, hv], hm, fun htag c' hc' => ?_⟩
        obtain ⟨h1, h2, -⟩ := findParam_some hp
        have hk : p.tagKids = [u] ∧ p.name = "param" ∧ p.attrs.get "name" = some (.str s) := by
          simp only [nameAndValue] at hv
          split at hv
          · cases hv
          next hn =>
          split at hv
          · cases hv
          · next s' hs' =>
            split at hv
            · next v' hv' =>
              split at hv
              · cases hv
              · injection hv with hv; injection hv with e1 hv; injection hv with e2 e3
                subst e1; subst e3
                exact ⟨hv', by simpa using hn, hs'⟩
            · cases hv
          · cases hv
        have hsame : (replaceValue m p).name = p.name ∧ (replaceValue m p).attrs = p.attrs ∧
            (replaceValue m p).isTag = true := by
          cases p with
          | text s => cases h2
          | tag a b ks => exact ⟨rfl, rfl, rfl⟩
        have hf : findParam f (updFirst (isParam f) (replaceValue m) n) = some (replaceValue m p) :=
          findParam_upd hp hsame.2.2 (by rw [isParam, hsame.1, hsame.2.1]; exact h1)
        simp only [getParam, hf, nameAndValue, hsame.1, hsame.2.1, hk.2.1, hk.2.2, ne_eq, not_true,
          if_false, tagKids_replace h2 hk.1 htag, hc']

/-! ## What is found -/

/-- Only `Text` has a field called "text". -/
theorem text_field : ∀ p ∈ layerRegistry, (match p.2.fields.lookup "text" with
    | none => true
    | some (.param .string _) => decide (p.2 = lcText)
    | _ => false) = true := by decide +kernel

theorem layerOf_mem {x : Node} {c : LClass} (h : layerOf x = .ok c) : ∃ s, (s, c) ∈ layerRegistry := by
  rw [layerOf] at h
  split at h
  · cases h
  · next s hs =>
    rw [Registry.fromName] at h
    split at h
    · cases h
    · next d hd =>
      injection h with h
      subst h
      obtain ⟨l1, l2, hl, _⟩ := List.lookup_eq_some_iff.1 hd
      exact ⟨normaliseName s, by rw [hl]; simp⟩
  · cases h

/-- A layer whose text is "blue": the layer is of class `Text`, its text is a string, and what that says
is "blue". -/
def BlueText (x : Node) : Prop :=
  isLayerElt x = true ∧ layerOf x = .ok lcText ∧
    ∃ v, fieldValue "text" x = .ok (.string, v) ∧ getString v = "blue".toList

theorem lcText_text : ∃ d, lcText.fields.lookup "text" = some (.param .string d) := 
  ⟨.str "Hello wombat!", by decide +kernel⟩

theorem matcher_blue {F : Fl} {d : Defaults} {x : Node} (hx : isLayerElt x = true) :
    matcher F d .none [("text", .str "blue".toList)] x = .ok true ↔ BlueText x := by
  rw [matcher_layer hx]
  cases hc : layerOf x with
  | error e => simp [BlueText, hc]
  | ok c =>
    show meetsAny F d (c, x) [("text", .str "blue".toList)] = .ok true ↔ _
    obtain ⟨s, hs⟩ := layerOf_mem hc
    have ht := text_field _ hs
    constructor
    · intro h
      obtain ⟨k, w, a, hkw, ha, hq, -⟩ := (meetsAny_true h).1 rfl
      simp only [List.mem_singleton, Prod.mk.injEq] at hkw
      obtain ⟨rfl, rfl⟩ := hkw
      simp only [layerAttr] at ha
      simp only at ht
      cases hl : c.fields.lookup "text" with
      | none =>
        simp only [hl] at ha
        have hr : requiredKeys.lookup "text" = none := by decide
        have hm : "text" ∉ methodNames := by decide
        simp [hr, hm] at ha
      | some f =>
        rw [hl] at ht
        simp only [hl] at ha
        split at ht
        · next e => cases e
        · next d' e =>
          injection e with e
          subst e
          have := of_decide_eq_true ht
          subst this
          rw [getField] at ha
          cases hf : fieldValue "text" x with
          | error e => simp only [hf] at ha; cases ha
          | ok cv =>
            obtain ⟨c', v⟩ := cv
            simp only [hf] at ha
            by_cases e : c' = .string
            · subst e
              simp only [if_true] at ha
              injection ha with ha
              subst ha
              rw [attrEq_string] at hq
              injection hq with hq
              exact ⟨hx, hc, v, hf, by simpa using hq⟩
            · rw [if_neg e] at ha; cases ha
        · cases ht
    · rintro ⟨-, h1, v, hv, hb⟩
      rw [hc] at h1
      injection h1 with h1
      subst h1
      obtain ⟨d', hd'⟩ := lcText_text
      simp only [meetsAny, tryAttr, layerAttr, hd', getField, hv, if_true, attrShown_string, wantShown, attrEq_string, hb,
        decide_true]

theorem blue_targets :
    posArg {kw := [("text", .pv (.str "blue".toList))]} = .ok (.none, [("text", .pv (.str "blue".toList))]) ∧
    criteria {kw := [("text", .pv (.str "blue".toList))]} [("text", .pv (.str "blue".toList))] =
      .ok [("text", .str "blue".toList)] := ⟨rfl, rfl⟩

/-- Where `find_all(text='blue')` finds something. -/
theorem mem_blue {F : Fl} {d : Defaults} {n : Node} {l : List (Place × LObj)}
    (h : findAllAt F d {kw := [("text", .pv (.str "blue".toList))]} [] n = .ok l) {p : Place} :
    p ∈ l.map Prod.fst ↔ p ≠ [] ∧ ∃ x, nodeAt p n = some x ∧ BlueText x := by
  constructor
  · intro hp
    obtain ⟨⟨q, c, x⟩, hx, rfl⟩ := List.mem_map.1 hp
    obtain ⟨⟨r, hr, h0, h1⟩, h2, h3, h4⟩ := (mem_findAllAt blue_targets.1 blue_targets.2 h).1 hx
    simp only [List.nil_append] at hr
    subst hr
    exact ⟨h0, x, h1, (matcher_blue h2).1 h4⟩
  · rintro ⟨h0, x, h1, h2⟩
    refine List.mem_map.2 ⟨(p, lcText, x), ?_, rfl⟩
    exact (mem_findAllAt blue_targets.1 blue_targets.2 h).2 ⟨⟨p, by simp, h0, h1⟩, h2.1, h2.2.1, (matcher_blue h2.1).2 h2⟩

/-- No layer such as `want` says is in another. -/
def NoneInAnother (want : Node → Prop) (n : Node) : Prop :=
  ∀ p q x y, nodeAt p n = some x → nodeAt q n = some y → want x → want y → p ≠ q → NotNested p q

theorem pairwise_notNested {want : Node → Prop} {n : Node} (h : NoneInAnother want n) {l : List Place}
    (hl : l.Nodup) (hw : ∀ p ∈ l, ∃ x, nodeAt p n = some x ∧ want x) : l.Pairwise NotNested := by
  refine List.Pairwise.imp_of_mem ?_ hl
  intro a b ha hb hab
  obtain ⟨x, h1, h2⟩ := hw a ha
  obtain ⟨y, h3, h4⟩ := hw b hb
  exact h a b x y h1 h3 h2 h4 hab

/-! ## `docs/examples/stroop.py` -/

/-- C125. Whatever is in the file, whether or not it raises, this program changes nothing but the colours of the
layers whose text is "blue". -/
theorem c125_stroop_rest (F : Fl) (d : Defaults) (n : Node) :
    SameBut (InParam "color" (Here BlueText n) n) n (stroop F d n).1 := by
  rw [stroop]
  split
  · exact sameBut_refl _ _
  · next xs hxs =>
    refine forEach_same (f := "color") (fun m r hr => setParam_other hr) ?_ (sameBut_refl _ _)
    intro p hp
    exact ((mem_blue hxs).1 hp).2

theorem newItem_magenta {F : Fl} (hF : F.Lawful) {m : Node}
    (h : newItem F .color (.str "#FF00FF".toList) = .ok m) :
    colorHex F m = .ok "#ff00ff".toList ∧ m.isTag = true ∧ fromTag m = .ok .color := by
  have h : newValue F .color (.str "#FF00FF".toList) = .ok m := h
  have hd : IsColorDigits "FF00FF".toList := ⟨by decide, by decide⟩
  obtain ⟨h1, h2, -⟩ := c23_hex_roundtrip hF (emptyTag .color) rfl _ hd true
  have e : written true "FF00FF".toList = "#FF00FF".toList := by decide
  have ec : canonical "FF00FF".toList = "#ff00ff".toList := by decide
  rw [e] at h1 h2
  rw [ec] at h2
  rw [newValue, construct, h1] at h
  injection h with h
  rw [h] at h2
  refine ⟨h2, ?_⟩
  have hs : setValue F .color (.str "#FF00FF".toList) (emptyTag .color) =
    setColor F (.str "#FF00FF".toList) (emptyTag .color) := rfl
  rw [hs, setColor] at h h1
  split at h
  · next ee hh => rw [hh] at h1; cases h1
  · next cs hh =>
    subst h
    exact ⟨rfl, fromTag_simple (show "color" ≠ "animated" by decide)
      (show valueRegistry.fromName "color".toList = .ok .color by decide +kernel) (by decide) (by decide)⟩

/-- C125. When it ends without an exception, every layer whose text is "blue" had a colour, and (where that was
a `Color`) its colour is now "#ff00ff". This is as long as none of them is in another. -/
theorem c125_stroop {F : Fl} (hF : F.Lawful) (d : Defaults) {n : Node} (hok : (stroop F d n).2 = .ok ())
    (hin : NoneInAnother BlueText n) {p : List ℕ} {x : Node} (hp : nodeAt p n = some x) (h0 : p ≠ [])
    (hx : BlueText x) :
    ∃ c v, getParam "color".toList x = .ok (c, v) ∧ (c = .color →
      ∃ y w, nodeAt p (stroop F d n).1 = some y ∧ getParam "color".toList y = .ok (.color, w) ∧
        colorHex F w = .ok "#ff00ff".toList) := by
  simp only [stroop] at hok
  split at hok
  · cases hok
  next xs hxs =>
  have hs : stroop F d n = forEach (setParam F "color".toList (.str "#FF00FF".toList)) (xs.map Prod.fst) n := by
    simp only [stroop, hxs]
  have hw := pairwise_notNested hin (findAllAt_nodup hxs) fun q hq => ((mem_blue hxs).1 hq).2
  obtain ⟨x', hx', hg, hat⟩ := (forEach_ok hw hok).1 p ((mem_blue hxs).2 ⟨h0, x, hp, hx⟩)
  rw [hp] at hx'
  injection hx' with hx'
  subst hx'
  obtain ⟨c, u, m, h1, h2, h3⟩ := setParam_ok hg
  refine ⟨c, u, h1, ?_⟩
  rintro rfl
  obtain ⟨h4, h5, h6⟩ := newItem_magenta hF h2
  rw [hs]
  exact ⟨_, m, hat, h3 h5 _ h6, h4⟩


/-- A loop over things not in one another succeeds if it does for each of them. -/
theorem forEach_succeeds {g : Node → Node × Res Unit} {ps : List Place} (hps : ps.Pairwise NotNested) {d : Node}
    (h : ∀ p ∈ ps, ∃ x, nodeAt p d = some x ∧ (g x).2 = .ok ()) : (forEach g ps d).2 = .ok () := by
  induction ps generalizing d with
  | nil => rfl
  | cons p ps ih =>
    obtain ⟨hp, hps⟩ := List.pairwise_cons.1 hps
    obtain ⟨x, hx, hg⟩ := h p (by simp)
    have h2 := (actAt_at (g := g) hx).2
    rw [hg] at h2
    rw [forEach]
    split
    · next e => rw [e] at h2; cases h2
    · next d' e =>
      refine ih hps fun q hq => ?_
      obtain ⟨y, hy, hgy⟩ := h q (List.mem_cons_of_mem _ hq)
      refine ⟨y, ?_, hgy⟩
      have := actAt_apart (g := g) (d := d) (hp q hq)
      rw [e] at this
      exact this.trans hy

/-- A search ends without an exception if every layer can be asked. -/
theorem findAllAt_exists {F : Fl} {d : Defaults} {a : FindArgs} {n : Node} {sp : Special}
    {kw : List (String × Want)} {ts : List (String × PV)} (h1 : posArg a = .ok (sp, kw))
    (h2 : criteria a kw = .ok ts)
    (h : ∀ p x, p ≠ [] → nodeAt p n = some x → isLayerElt x = true → ∃ b, matcher F d sp ts x = .ok b) :
    ∃ l, findAllAt F d a [] n = .ok l := by
  have hall : ∀ x ∈ placesIn [] 0 n.kids, ∃ b, matcher F d sp ts x.2 = .ok b := by
    rintro ⟨q, x⟩ hx
    obtain ⟨r, -, hr, hn, ht⟩ := mem_places.1 hx
    by_cases hl : x.name = "layer"
    · refine h r x hr hn ?_
      cases x with
      | text s => cases ht
      | tag nm at' ks => simpa [isLayerElt, Node.name] using hl
    · exact ⟨false, by rw [matcher, if_pos hl]⟩
  have hf := filterRes_ok.2 ⟨hall, rfl⟩
  simp only [findAllAt, h1, h2, hf]
  have key : ∀ l : List (Place × Node), (∀ x ∈ l, ∃ c, layerOf x.2 = .ok c) → ∃ r, mapRes asLayerAt l = .ok r := by
    intro l
    induction l with
    | nil => exact fun _ => ⟨[], rfl⟩
    | cons x l ih =>
      intro hl
      obtain ⟨c, hc⟩ := hl x (by simp)
      obtain ⟨r, hr⟩ := ih fun y hy => hl y (List.mem_cons_of_mem _ hy)
      exact ⟨_, by simp only [mapRes, asLayerAt, asLayer, hc, hr]; rfl⟩
  apply key
  intro x hx
  obtain ⟨-, hm⟩ := List.mem_filter.1 hx
  simp only [matcher, asLayer] at hm
  cases hc : layerOf x.2 with
  | ok c => exact ⟨c, rfl⟩
  | error e =>
    exfalso
    simp only [hc] at hm
    by_cases hl : x.2.name = "layer" <;> simp [hl] at hm

/-- C125. And it does end without an exception when every layer is of a known type, the texts of text layers are
strings, none of the layers whose text is "blue" is in another, and each of them has a colour. -/
theorem c125_stroop_works {F : Fl} (hF : F.Lawful) (d : Defaults) {n : Node}
    (hread : ∀ p x, p ≠ [] → nodeAt p n = some x → isLayerElt x = true →
      ∃ c, layerOf x = .ok c ∧ (c = lcText → ∃ v, fieldValue "text" x = .ok (.string, v)))
    (hin : NoneInAnother BlueText n)
    (hcol : ∀ p x, p ≠ [] → nodeAt p n = some x → BlueText x → ∃ v, getParam "color".toList x = .ok (.color, v)) :
    (stroop F d n).2 = .ok () := by
  obtain ⟨xs, hxs⟩ := findAllAt_exists (F := F) (d := d) (n := n) blue_targets.1 blue_targets.2 (by
    intro p x hp hx hl
    obtain ⟨c, hc, ht⟩ := hread p x hp hx hl
    rw [matcher_layer hl, hc]
    show ∃ b, meetsAny F d (c, x) [("text", .str "blue".toList)] = .ok b
    obtain ⟨s, hs⟩ := layerOf_mem hc
    have htf := text_field _ hs
    simp only [meetsAny, tryAttr, layerAttr]
    simp only at htf
    split at htf
    · next e =>
      have hr : requiredKeys.lookup "text" = none := by decide
      have hm : "text" ∉ methodNames := by decide
      simp [e, hr, hm]
    · next d' e =>
      obtain ⟨v, hv⟩ := ht (of_decide_eq_true htf)
      simp only [e, getField, hv, if_true, attrShown_string, wantShown, attrEq_string]
      cases decide (getString v = "blue".toList) <;> exact ⟨_, rfl⟩
    · cases htf)
  simp only [stroop, hxs]
  refine forEach_succeeds (pairwise_notNested hin (findAllAt_nodup hxs) fun q hq => ((mem_blue hxs).1 hq).2) ?_
  intro p hp
  obtain ⟨h0, x, hx, hb⟩ := (mem_blue hxs).1 hp
  obtain ⟨v, hv⟩ := hcol p x h0 hx hb
  refine ⟨x, hx, ?_⟩
  have hd : IsColorDigits "FF00FF".toList := ⟨by decide, by decide⟩
  obtain ⟨h1, -⟩ := c23_hex_roundtrip hF (emptyTag .color) rfl _ hd true
  rw [show written true "FF00FF".toList = "#FF00FF".toList by decide] at h1
  rw [getParam] at hv
  split at hv
  · cases hv
  next q hq =>
  split at hv
  · cases hv
  next s c u hn =>
  injection hv with hv
  injection hv with e1 e2
  subst e1
  simp only [setParam, hq, hn, newItem, newValue, construct, h1]

/-! ## `docs/examples/french.py` -/

theorem text_targets :
    posArg {pos := [.str "text".toList]} = .ok (.none, [("type", .pv (.str "text".toList))]) ∧
    criteria {pos := [.str "text".toList]} [("type", .pv (.str "text".toList))] =
      .ok [("type_", .str "text".toList)] := ⟨rfl, rfl⟩

theorem type_field : ∀ p ∈ layerRegistry, (match p.2.fields.lookup "type_" with
    | none => true
    | some (.param .integer _) => true
    | _ => false) = true := by decide +kernel

theorem text_type : layerRegistry.fromName "text".toList = .ok lcText := by decide +kernel

theorem matcher_type {F : Fl} {d : Defaults} {x : Node} {ty : String} {lc : LClass}
    (hreg : layerRegistry.fromName ty.toList = .ok lc) (hshow : hidesType lc = false)
    (hpy : pyInt ty.toList = .error .value) (hx : isLayerElt x = true) :
    matcher F d .none [("type_", .str ty.toList)] x = .ok true ↔ IsLayer ty x := by
  rw [matcher_layer hx]
  have hname := name_of_isLayerElt hx
  cases ht : x.attrs.get "type" with
  | none =>
    simp [layerOf, ht, IsLayer]
  | some a =>
    cases a with
    | int i => simp [layerOf, ht, IsLayer]
    | t v => simp [layerOf, ht, IsLayer]
    | num q => simp [layerOf, ht, IsLayer]
    | str s =>
      cases hc : layerOf x with
      | error e =>
        refine ⟨fun h => (by cases h), fun h => ?_⟩
        have := h.2
        rw [ht] at this
        injection this with this
        injection this with this
        subst this
        simp only [layerOf, ht, hreg] at hc
        cases hc
      | ok c =>
        show meetsAny F d (c, x) [("type_", .str ty.toList)] = .ok true ↔ _
        by_cases hh : hidesType c = true
        · constructor
          · intro h
            obtain ⟨k, w, a, hkw, ha, hq, -⟩ := (meetsAny_true h).1 rfl
            simp only [List.mem_singleton, Prod.mk.injEq] at hkw
            obtain ⟨rfl, rfl⟩ := hkw
            obtain ⟨s', hs'⟩ := layerOf_mem hc
            have htf := type_field _ hs'
            simp only [layerAttr] at ha
            cases hl : c.fields.lookup "type_" with
            | none => simp [hidesType, hl] at hh
            | some f =>
              simp only [hl] at ha htf
              split at htf
              · next e => cases e
              · next d' e =>
                injection e with e
                subst e
                rw [getField] at ha
                cases hf : fieldValue "type_" x with
                | error e => simp only [hf] at ha; cases ha
                | ok cv =>
                  obtain ⟨c', v⟩ := cv
                  simp only [hf] at ha
                  by_cases e : c' = .integer
                  · subst e
                    simp only [if_true] at ha
                    injection ha with ha
                    subst ha
                    rw [attrEq_integer_text hpy] at hq
                    split at hq <;> cases hq
                  · rw [if_neg e] at ha; cases ha
              · cases htf
          · intro h
            have := h.2
            rw [ht] at this
            injection this with this
            injection this with this
            subst this
            simp only [layerOf, ht, hreg] at hc
            injection hc with hc
            subst hc
            rw [hshow] at hh; cases hh
        · rw [meets_type (by simpa using hh) ht]
          simp [IsLayer, hname, ht]

theorem matcher_text {F : Fl} {d : Defaults} {x : Node} (hx : isLayerElt x = true) :
    matcher F d .none [("type_", .str "text".toList)] x = .ok true ↔ IsLayer "text" x :=
  matcher_type text_type (by decide +kernel) (by decide +kernel) hx

/-- Where `find_all('text')` finds something. -/
theorem mem_texts {F : Fl} {d : Defaults} {n : Node} {p0 : Place} {l : List (Place × LObj)}
    (h : findAllAt F d {pos := [.str "text".toList]} p0 n = .ok l) {p : Place} :
    p ∈ l.map Prod.fst ↔ ∃ r, p = p0 ++ r ∧ r ≠ [] ∧ ∃ x, nodeAt r n = some x ∧ IsLayer "text" x := by
  constructor
  · intro hp
    obtain ⟨⟨q, c, x⟩, hx, rfl⟩ := List.mem_map.1 hp
    obtain ⟨⟨r, hr, h0, h1⟩, h2, h3, h4⟩ := (mem_findAllAt text_targets.1 text_targets.2 h).1 hx
    exact ⟨r, hr, h0, x, h1, (matcher_text h2).1 h4⟩
  · rintro ⟨r, rfl, h0, x, h1, h2⟩
    have hl : isLayerElt x = true := by
      cases x with
      | text s => simp [IsLayer, Node.name] at h2
      | tag nm at' ks => simpa [isLayerElt, Node.name] using h2.1
    refine List.mem_map.2 ⟨(p0 ++ r, lcText, x), ?_, rfl⟩
    refine (mem_findAllAt text_targets.1 text_targets.2 h).2 ⟨⟨r, rfl, h0, h1⟩, hl, ?_, (matcher_text hl).2 h2⟩
    simp only [layerOf, h2.2, text_type]

theorem onlyValue_french {F : Fl} {pr : Char → Bool} {root : Option Attrs} :
    OnlyValue "text" (frenchLayer F pr root) := by
  intro n r hr
  rw [frenchLayer]
  split
  · rfl
  · split
    · rfl
    · exact setParam_other hr

/-- C125. Whatever is in the file, whether or not it raises, this program changes nothing but the texts of the
text layers. -/
theorem c125_french_rest (F : Fl) (pr : Char → Bool) (d : Defaults) (n : Node) :
    SameBut (InParam "text" (Here (IsLayer "text") n) n) n (french F pr d n).1 := by
  rw [french]
  split
  · exact sameBut_refl _ _
  · next xs hxs =>
    refine forEach_same onlyValue_french ?_ (sameBut_refl _ _)
    intro p hp
    obtain ⟨r, rfl, h0, x, h1, h2⟩ := (mem_texts hxs).1 hp
    exact ⟨x, h1, h2⟩

theorem newItem_string {F : Fl} {s : Str} {m : Node} (h : newItem F .string (.str s) = .ok m) :
    m = .tag "string" [] [.text s] := by
  have h : newValue F .string (.str s) = .ok m := h
  simp only [newValue, construct, setValue, PV.toStr] at h
  injection h with h
  exact h.symm

/-- C125. When it ends without an exception, every text layer had a text, and (where that was a `String`) it is
now French: "bleu" if it was "blue", "rouge" if it was "red", "je ne sais pas quoi" if it was anything else or
was animated; and it is not animated. This is as long as no text layer is in another. -/
theorem c125_french {F : Fl} (pr : Char → Bool) (d : Defaults) {n : Node} (hok : (french F pr d n).2 = .ok ())
    (hin : NoneInAnother (IsLayer "text") n) {p : List ℕ} {x : Node} (hp : nodeAt p n = some x) (h0 : p ≠ [])
    (hx : IsLayer "text" x) :
    ∃ c v, getParam "text".toList x = .ok (c, v) ∧ (c = .string →
      ∃ y w, nodeAt p (french F pr d n).1 = some y ∧ getParam "text".toList y = .ok (.string, w) ∧
        w.name ≠ "animated" ∧ getString w = (
          if v.name ≠ "animated" ∧ getString v = "blue".toList then "bleu".toList
          else if v.name ≠ "animated" ∧ getString v = "red".toList then "rouge".toList
          else "je ne sais pas quoi".toList)) := by
  simp only [french] at hok
  split at hok
  · cases hok
  next xs hxs =>
  have hs : french F pr d n = forEach (frenchLayer F pr (animRoot n)) (xs.map Prod.fst) n := by
    simp only [french, hxs]
  have hmem : ∀ q, q ∈ xs.map Prod.fst ↔ q ≠ [] ∧ ∃ x, nodeAt q n = some x ∧ IsLayer "text" x := by
    intro q
    rw [mem_texts hxs]
    constructor
    · rintro ⟨r, rfl, h⟩; exact h
    · intro h; exact ⟨q, rfl, h⟩
  have hw := pairwise_notNested hin (findAllAt_nodup hxs) fun q hq => ((hmem q).1 hq).2
  obtain ⟨x', hx', hg, hat⟩ := (forEach_ok hw hok).1 p ((hmem p).2 ⟨h0, x, hp, hx⟩)
  rw [hp] at hx'
  injection hx' with hx'
  subst hx'
  simp only [frenchLayer] at hg
  split at hg
  · cases hg
  next c v hv =>
  split at hg
  · cases hg
  next s hstr =>
  refine ⟨c, v, hv, ?_⟩
  rintro rfl
  obtain ⟨c, u, m, h1, h2, h3⟩ := setParam_ok hg
  rw [hv] at h1
  injection h1 with h1
  injection h1 with e1 e2
  subst e1; subst e2
  have hm := newItem_string h2
  subst hm
  have h4 := h3 rfl .string (fromTag_simple (show "string" ≠ "animated" by decide)
      (show valueRegistry.fromName "string".toList = .ok .string by decide +kernel) (by decide) (by decide))
  rw [hs]
  refine ⟨_, .tag "string" [] [.text (translation s)], hat, ?_, (by decide : "string" ≠ "animated"), ?_⟩
  · simp only [frenchLayer, hv, hstr]; exact h4
  · show translation s = _
    by_cases ha : v.name = "animated"
    · have : s = "(animated)".toList := by
        simp only [valueStr, plainStr, ha] at hstr
        simpa using hstr.symm
      subst this
      simp only [ha, ne_eq, not_true, false_and, if_false]
      decide
    · have : s = getString v := by
        simp only [valueStr, plainStr, ha] at hstr
        simpa using hstr.symm
      subst this
      simp only [ha, ne_eq, not_false_iff, true_and, translation]


/-- C125. And it does end without an exception when every layer is of a known type (and has a whole number as
its `type_`, if it is of a class with such a field), no text layer is in another, and each has a text. -/
theorem c125_french_works {F : Fl} (pr : Char → Bool) (d : Defaults) {n : Node}
    (hread : ∀ p x, p ≠ [] → nodeAt p n = some x → isLayerElt x = true →
      ∃ c, layerOf x = .ok c ∧ (hidesType c = true →
        ∃ v i, fieldValue "type_" x = .ok (.integer, v) ∧ getInt v = .ok i))
    (hin : NoneInAnother (IsLayer "text") n)
    (htext : ∀ p x, p ≠ [] → nodeAt p n = some x → IsLayer "text" x →
      ∃ v, getParam "text".toList x = .ok (.string, v)) : (french F pr d n).2 = .ok () := by
  obtain ⟨xs, hxs⟩ := findAllAt_exists (F := F) (d := d) (n := n) text_targets.1 text_targets.2 (by
    intro p x hp hx hl
    obtain ⟨c, hc, ht⟩ := hread p x hp hx hl
    rw [matcher_layer hl, hc]
    show ∃ b, meetsAny F d (c, x) [("type_", .str "text".toList)] = .ok b
    by_cases hh : hidesType c = true
    · obtain ⟨v, i, hv, hi⟩ := ht hh
      obtain ⟨s, hs⟩ := layerOf_mem hc
      have htf := type_field _ hs
      cases hlk : c.fields.lookup "type_" with
      | none => simp [hidesType, hlk] at hh
      | some f =>
        simp only [hlk] at htf
        split at htf
        · next e => cases e
        · next d' e =>
          injection e with e
          subst e
          have hpy : pyInt "text".toList = .error .value := by decide +kernel
          exact ⟨false, by simp only [meetsAny, tryAttr, layerAttr, hlk, getField, hv, if_true, attrShown_integer hi, wantShown,
            attrEq_integer_text hpy, hi]⟩
        · cases htf
    · obtain ⟨t, ht⟩ : ∃ t, x.attrs.get "type" = some (.str t) := by
        simp only [layerOf] at hc
        split at hc
        · cases hc
        · next s hs => exact ⟨s, hs⟩
        · cases hc
      exact ⟨_, meets_type (by simpa using hh) ht⟩)
  have hmem : ∀ q, q ∈ xs.map Prod.fst → q ≠ [] ∧ ∃ x, nodeAt q n = some x ∧ IsLayer "text" x := by
    intro q hq
    obtain ⟨r, rfl, h⟩ := (mem_texts hxs).1 hq
    exact h
  simp only [french, hxs]
  refine forEach_succeeds (pairwise_notNested hin (findAllAt_nodup hxs) fun q hq => (hmem q hq).2) ?_
  intro p hp
  obtain ⟨h0, x, hx, hb⟩ := hmem p hp
  obtain ⟨v, hv⟩ := htext p x h0 hx hb
  refine ⟨x, hx, ?_⟩
  have hstr : ∃ s, valueStr F pr (animRoot n) .string v = .ok s := by
    simp only [valueStr, plainStr, reduceCtorEq, false_and, if_false]
    split <;> exact ⟨_, rfl⟩
  obtain ⟨s, hs⟩ := hstr
  simp only [frenchLayer, hv, hs]
  rw [getParam] at hv
  split at hv
  · cases hv
  next q hq =>
  split at hv
  · cases hv
  next s' c u hn =>
  injection hv with hv
  injection hv with e1 e2
  subst e1
  simp only [setParam, hq, hn, newItem, newValue, construct, setValue, PV.toStr]

/-! ## From file to file -/

/-- C125. A program which opens a file, does something and saves: no other file changes; if it can't be opened or
the program raises, no file changes at all; and if it ends without an exception then opening the file it
saved gives what the program made of the document it opened. -/
theorem c125_files {D : Type} {C : Codec D} {norm : D → D} (hC : C.Lawful norm) (prog : D → D × Res Unit)
    (src dst : Str) (fs : Disk) :
    (∀ q, q ≠ dst → (runProgram C prog src dst fs).1 q = fs q) ∧
    (∀ e, Anim.load C fs src = .error e → runProgram C prog src dst fs = (fs, .error e)) ∧
    (∀ a n e, Anim.load C fs src = .ok a → prog a.doc = (n, .error e) →
      runProgram C prog src dst fs = (fs, .error e)) ∧
    ((runProgram C prog src dst fs).2 = .ok () → ∃ a f, Anim.load C fs src = .ok a ∧
      (prog a.doc).2 = .ok () ∧
      Anim.load C (runProgram C prog src dst fs).1 dst = .ok ⟨f, some dst, norm (prog a.doc).1⟩) := by
  refine ⟨?_, fun e he => by simp only [runProgram, he], fun a n e ha he => by simp only [runProgram, ha, he], ?_⟩
  · intro q hq
    rw [runProgram]
    split
    · rfl
    · split
      · rfl
      · exact (c16_other_files_untouched C fs _ (some dst) q (fun e => hq (by injection e with e; exact e.symm)) (fun e => by cases e)).1
  · intro h
    simp only [runProgram] at h ⊢
    split at h
    · cases h
    next a ha =>
    split at h
    · cases h
    next n hn =>
    obtain ⟨⟨f, hf, -⟩, -⟩ := c15_save_then_open hC fs { a with doc := n } dst h
    refine ⟨a, f, ha, by rw [hn], ?_⟩
    simp only [hn]
    exact hf

/-- A program on documents that can be written. -/
def onXml {F : Fl} (P : Node → Node × Res Unit) (hP : ∀ n, Good F n → Good F (P n).1) (x : XmlDoc F) :
    XmlDoc F × Res Unit := (⟨(P x.1).1, hP x.1 x.2⟩, (P x.1).2)

theorem actAt_ok {F : Fl} {g : Node → Node × Res Unit} (hg : ∀ x, x.XmlOk F → (g x).1.XmlOk F) :
    ∀ (p : Place) {d : Node}, d.XmlOk F → (actAt g p d).1.XmlOk F
  | [], d, h => hg d h
  | _ :: _, .text s, h => h
  | i :: p, .tag n a ks, h => by
    rw [actAt]
    split
    · exact h
    · next x hx =>
      refine ⟨h.1, h.2.1, xmlOkKids_iff.2 fun k hk => ?_⟩
      have hk' := List.mem_or_eq_of_mem_set hk
      rcases hk' with hk' | rfl
      · exact xmlOkKids_iff.1 h.2.2 k hk'
      · exact actAt_ok hg p (xmlOkKids_iff.1 h.2.2 x (List.mem_of_getElem? hx))

theorem actAt_isTag {g : Node → Node × Res Unit} (hg : ∀ x, (g x).1.isTag = x.isTag) :
    ∀ (p : Place) {d : Node}, (actAt g p d).1.isTag = d.isTag
  | [], d => hg d
  | _ :: _, .text s => rfl
  | i :: p, .tag n a ks => by
    rw [actAt]
    split <;> rfl

/-- What keeps documents writable: applied to what can be written, it gives what can be written, of the same
kind. -/
def Keeps (F : Fl) (g : Node → Node × Res Unit) : Prop :=
  (∀ x, x.XmlOk F → (g x).1.XmlOk F) ∧ ∀ x, (g x).1.isTag = x.isTag

theorem actAt_keeps {F : Fl} {g : Node → Node × Res Unit} (hg : Keeps F g) (p : Place) : Keeps F (actAt g p) :=
  ⟨fun _ hx => actAt_ok hg.1 p hx, fun _ => actAt_isTag hg.2 p⟩

theorem forEach_keeps {F : Fl} {g : Node → Node × Res Unit} (hg : Keeps F g) : ∀ ps, Keeps F (forEach g ps)
  | [] => ⟨fun _ hx => hx, fun _ => rfl⟩
  | p :: ps => by
    have h1 := actAt_keeps hg p
    have h2 := forEach_keeps hg ps
    constructor
    · intro x hx
      have h := h1.1 x hx
      rw [forEach]
      split
      · next e => rw [e] at h; exact h
      · next e => rw [e] at h; exact h2.1 _ h
    · intro x
      have h := h1.2 x
      rw [forEach]
      split
      · next e => rw [e] at h; exact h
      · next e => rw [e] at h; exact (h2.2 _).trans h

theorem setParam_keeps {F : Fl} {f : Str} {v : PV} (hv : LegalArg F v) : Keeps F (setParam F f v) := by
  have ht : ∀ s, setParam F f v (.text s) = (.text s, .error .key) := fun s => rfl
  constructor
  · intro x hx
    cases x with
    | text s => rw [ht]; exact hx
    | tag n a ks => exact (setParam_good hv (n := .tag n a ks) ⟨hx, rfl⟩).1
  · intro x
    cases x with
    | text s => rw [ht]
    | tag n a ks =>
      rw [setParam]
      split
      · rfl
      · split
        · rfl
        · split <;> rfl

theorem Keeps.good {F : Fl} {g : Node → Node × Res Unit} (h : Keeps F g) {n : Node} (hn : Good F n) :
    Good F (g n).1 := ⟨h.1 n hn.1, (h.2 n).trans hn.2⟩

theorem stroop_good {F : Fl} (d : Defaults) (n : Node) (hn : Good F n) : Good F (stroop F d n).1 := by
  rw [stroop]
  split
  · exact hn
  · exact (forEach_keeps (setParam_keeps (.str (legal_iff.2 (by decide)))) _).good hn

theorem frenchLayer_keeps {F : Fl} (pr : Char → Bool) (root : Option Attrs) : Keeps F (frenchLayer F pr root) := by
  have h (s : Str) : Keeps F (setParam F "text".toList (.str (translation s))) := setParam_keeps (.str (by
    rw [translation]
    split
    · exact legal_iff.2 (by decide)
    · split <;> exact legal_iff.2 (by decide)))
  constructor
  · intro x hx
    rw [frenchLayer]
    split
    · exact hx
    · split
      · exact hx
      · exact (h _).1 x hx
  · intro x
    rw [frenchLayer]
    split
    · rfl
    · split
      · rfl
      · exact (h _).2 x

theorem french_good {F : Fl} (pr : Char → Bool) (d : Defaults) (n : Node) (hn : Good F n) :
    Good F (french F pr d n).1 := by
  rw [french]
  split
  · exact hn
  · exact (forEach_keeps (frenchLayer_keeps pr _) _).good hn

/-- A program run on a real file. -/
theorem run_xml {F : Fl} (short : Node → Bool) {gzip : Bytes → Bytes} {gunzip : Bytes → Res Bytes}
    {canOpen : Str → Bool} (h1 : ∀ b, gunzip (gzip b) = .ok b) (h2 : ∀ b, ∃ r, gzip b = 0x1f :: 0x8b :: r)
    {P : Node → Node × Res Unit} (hP : ∀ n, Good F n → Good F (P n).1) (src dst : Str) (fs : Disk)
    (hok : (runProgram (xmlCodec F short gzip gunzip canOpen) (onXml P hP) src dst fs).2 = .ok ()) :
    ∃ a f y, Anim.load (xmlCodec F short gzip gunzip canOpen) fs src = .ok a ∧ (P a.doc.1).2 = .ok () ∧
      Anim.load (xmlCodec F short gzip gunzip canOpen)
        (runProgram (xmlCodec F short gzip gunzip canOpen) (onXml P hP) src dst fs).1 dst = .ok ⟨f, some dst, y⟩ ∧
      ReadBack F (P a.doc.1).1 y.1 := by
  obtain ⟨-, -, -, h⟩ := c125_files (xmlCodec_lawful F short canOpen h1 h2) (onXml P hP) src dst fs
  obtain ⟨a, f, ha, hr, hl⟩ := h hok
  exact ⟨a, f, _, ha, hr, hl, readBack_reload F (onXml P hP a.doc).1.1 (onXml P hP a.doc).1.2.2⟩

/-- C125, from file to file: if the first program ends without an exception, the file it saved opens as what
the loop made of the animation it opened. Of gzip it is assumed that it undoes its own work and writes
its header. -/
theorem c125_stroop_file {F : Fl} (short : Node → Bool) {gzip : Bytes → Bytes} {gunzip : Bytes → Res Bytes}
    {canOpen : Str → Bool} (h1 : ∀ b, gunzip (gzip b) = .ok b) (h2 : ∀ b, ∃ r, gzip b = 0x1f :: 0x8b :: r)
    (d : Defaults) (fs : Disk)
    (hok : (runProgram (xmlCodec F short gzip gunzip canOpen) (onXml (stroop F d) (stroop_good d))
      "colours.sif".toList "stroop.sif".toList fs).2 = .ok ()) :
    ∃ a f y, Anim.load (xmlCodec F short gzip gunzip canOpen) fs "colours.sif".toList = .ok a ∧
      (stroop F d a.doc.1).2 = .ok () ∧
      Anim.load (xmlCodec F short gzip gunzip canOpen)
        (runProgram (xmlCodec F short gzip gunzip canOpen) (onXml (stroop F d) (stroop_good d))
          "colours.sif".toList "stroop.sif".toList fs).1 "stroop.sif".toList =
        .ok ⟨f, some "stroop.sif".toList, y⟩ ∧
      ReadBack F (stroop F d a.doc.1).1 y.1 :=
  run_xml short h1 h2 (stroop_good d) _ _ fs hok

/-- C125. The same for the second. -/
theorem c125_french_file {F : Fl} (short : Node → Bool) {gzip : Bytes → Bytes} {gunzip : Bytes → Res Bytes}
    {canOpen : Str → Bool} (h1 : ∀ b, gunzip (gzip b) = .ok b) (h2 : ∀ b, ∃ r, gzip b = 0x1f :: 0x8b :: r)
    (pr : Char → Bool) (d : Defaults) (fs : Disk)
    (hok : (runProgram (xmlCodec F short gzip gunzip canOpen) (onXml (french F pr d) (french_good pr d))
      "colours.sif".toList "french.sif".toList fs).2 = .ok ()) :
    ∃ a f y, Anim.load (xmlCodec F short gzip gunzip canOpen) fs "colours.sif".toList = .ok a ∧
      (french F pr d a.doc.1).2 = .ok () ∧
      Anim.load (xmlCodec F short gzip gunzip canOpen)
        (runProgram (xmlCodec F short gzip gunzip canOpen) (onXml (french F pr d) (french_good pr d))
          "colours.sif".toList "french.sif".toList fs).1 "french.sif".toList =
        .ok ⟨f, some "french.sif".toList, y⟩ ∧
      ReadBack F (french F pr d a.doc.1).1 y.1 :=
  run_xml short h1 h2 (french_good pr d) _ _ fs hok

/-! ## A case -/

/-- A text layer with a colour. -/
def exWord (s : String) : Node :=
  .tag "layer" [("type", .str "text".toList)]
    [.tag "param" [("name", .str "text".toList)] [.tag "string" [] [.text s.toList]],
     .text ['\n'],
     .tag "param" [("name", .str "color".toList)]
      [.tag "color" [] [.tag "r" [] [.text ['1']], .tag "g" [] [.text ['0']], .tag "b" [] [.text ['0']],
        .tag "a" [] [.text ['1']]]]]

/-- Two of them. -/
def exWords : Node := .tag "canvas" [] [exWord "blue", .text ['\n'], exWord "red"]

example : (stroop double .initial exWords).2 = .ok () := by decide +kernel

example : (stroop double .initial exWords).1 ≠ exWords := by decide +kernel

example : BlueText (exWord "blue") ∧ ¬ BlueText (exWord "red") := by
  refine ⟨⟨by decide +kernel, by decide +kernel, .tag "string" [] [.text "blue".toList],
    by decide +kernel, by decide +kernel⟩, ?_⟩
  rintro ⟨-, -, v, h1, h2⟩
  have : fieldValue "text" (exWord "red") = .ok (.string, .tag "string" [] [.text "red".toList]) := by decide +kernel
  rw [this] at h1
  injection h1 with h1
  injection h1 with h1 h3
  rw [← h3] at h2
  exact absurd h2 (by decide)

example : (french double (fun _ => true) .initial exWords).2 = .ok () := by decide +kernel

example : (nodeAt [2] (french double (fun _ => true) .initial exWords).1).map (getParam "text".toList) =
    some (.ok (.string, .tag "string" [] [.text "rouge".toList])) := by decide +kernel

/-! ## What stops it -/

/-- C125. One layer of a type the library doesn't know, anywhere in the file, and `find_all` raises: then nothing
is recoloured and nothing is saved. -/
theorem c125_unknown_layer_fails (F : Fl) (d : Defaults) {n x : Node} {p : List ℕ} {e : Err} (h0 : p ≠ [])
    (hp : nodeAt p n = some x) (hx : isLayerElt x = true) (he : layerOf x = .error e) :
    ∃ e', stroop F d n = (n, .error e') := by
  rw [stroop]
  split
  · next e' _ => exact ⟨e', rfl⟩
  · next xs hxs =>
    exfalso
    simp only [findAllAt, blue_targets.1, blue_targets.2] at hxs
    split at hxs
    · cases hxs
    next l hl =>
    have ht : x.isTag = true := by cases x with
      | text s => simp [isLayerElt] at hx
      | tag a b ks => rfl
    obtain ⟨b, hb⟩ := (filterRes_ok.1 hl).1 (p, x) (mem_places.2 ⟨p, by simp, h0, hp, ht⟩)
    rw [matcher_layer hx, he] at hb
    cases hb

example : ∃ e, stroop double .initial (.tag "canvas" [] [exWord "blue", exLayer "sparkle"]) =
    (.tag "canvas" [] [exWord "blue", exLayer "sparkle"], .error e) :=
  c125_unknown_layer_fails double .initial (p := [1]) (by simp) rfl (by decide +kernel) (e := .key) (by decide +kernel)

/-- C125. A layer whose text is "blue" but which has no colour: `KeyError`, after the layers before it were
recoloured. -/
theorem c125_no_color_fails :
    (stroop double .initial (.tag "canvas" []
      [exWord "blue", .tag "layer" [("type", .str "text".toList)]
        [.tag "param" [("name", .str "text".toList)] [.tag "string" [] [.text "blue".toList]]]])).2 =
      .error .key := by decide +kernel

end Sang
