import Verif.FindTime
import Verif.Props.FindValue

/-! # C149: searching by a time -/

namespace Sang

open Spec

/-! ## The rest of the search is as it was -/

/-- The one says the same as the other, wherever the other says anything. -/
def Fills {α : Type} (r s : Res α) : Prop := r = .error .unmodelled ∨ s = r

theorem fills_shown (F : Fl) (root : Option Attrs) (a : LAttr) : Fills (attrShown F a) (attrShownIn F root a) := by
  cases a with
  | val c n => cases c <;> first | exact .inl rfl | exact .inr rfl
  | _ => exact .inr rfl

theorem fills_eq (F : Fl) (root : Option Attrs) (a : LAttr) (v : PV) : Fills (attrEq F a v) (attrEqIn F root a v) := by
  cases a with
  | val c n => cases c <;> first | exact .inl rfl | exact .inr rfl
  | _ => exact .inr rfl

theorem fills_try (F : Fl) (root : Option Attrs) (d : Defaults) (k : String) (v : PV) (x : LObj) :
    Fills (tryAttr F d k v x) (tryAttrIn F root d k v x) := by
  rw [tryAttr, tryAttrIn]
  cases layerAttr F d k x with
  | error e => exact .inr rfl
  | ok a =>
    simp only
    rcases fills_shown F root a with h | h
    · rw [h]; exact .inl rfl
    · rw [h]; exact .inr rfl

theorem fills_meets (F : Fl) (root : Option Attrs) (d : Defaults) (x : LObj) (ts : List (String × PV)) :
    Fills (meetsAny F d x ts) (meetsAnyIn F root d x ts) := by
  induction ts with
  | nil => exact .inr rfl
  | cons t ts ih =>
    obtain ⟨k, v⟩ := t
    rw [meetsAny, meetsAnyIn]
    rcases fills_try F root d k v x with h | h
    · rw [h]; exact .inl rfl
    · rw [h]
      cases ht : tryAttr F d k v x with
      | error e => cases e <;> first | exact ih | exact .inr rfl
      | ok a =>
        simp only
        rcases fills_eq F root a v with h | h
        · rw [h]; exact .inl rfl
        · rw [h]
          cases he : attrEq F a v with
          | error e => exact .inr rfl
          | ok b => cases b <;> first | exact ih | exact .inr rfl

theorem fills_matcher (F : Fl) (root : Option Attrs) (d : Defaults) (sp : Special) (ts : List (String × PV)) (n : Node) :
    Fills (matcher F d sp ts n) (matcherIn F root d sp ts n) := by
  rw [matcher, matcherIn]
  split
  · exact .inr rfl
  · cases asLayer n with
    | error e => exact .inr rfl
    | ok x => cases sp <;> first | exact fills_meets F root d x ts | exact .inr rfl

theorem fills_filter {α : Type} {f g : α → Res Bool} (h : ∀ x, Fills (f x) (g x)) (l : List α) :
    Fills (filterRes f l) (filterRes g l) := by
  induction l with
  | nil => exact .inr rfl
  | cons x l ih =>
    rw [filterRes, filterRes]
    rcases h x with h | h
    · rw [h]; exact .inl rfl
    · rw [h]
      cases f x with
      | error e => exact .inr rfl
      | ok b =>
        simp only
        rcases ih with ih | ih
        · rw [ih]; exact .inl rfl
        · rw [ih]; exact .inr rfl

/-- C149. Searches in which no layer's time is looked at do what all the other theorems say: `findAllIn` differs from
`findAllAt` only where that is not modelled. -/
theorem c149_extends (F : Fl) (root : Option Attrs) (d : Defaults) (a : FindArgs) (p : Place) (n : Node) :
    findAllAt F d a p n = .error .unmodelled ∨ findAllIn F root d a p n = findAllAt F d a p n := by
  rw [findAllAt, findAllIn]
  cases posArg a with
  | error e => exact .inr rfl
  | ok s =>
    simp only
    cases criteria a s.2 with
    | error e => exact .inr rfl
    | ok ts =>
      simp only
      rcases fills_filter (fun x : Place × Node => fills_matcher F root d s.1 ts x.2) (placesIn p 0 n.kids) with h | h
      · rw [h]; exact .inl rfl
      · rw [h]; exact .inr rfl

/-! ## What a search by a time finds -/

theorem matcherIn_layer {F : Fl} {root : Option Attrs} {d : Defaults} {ts : List (String × PV)} {x : Node}
    (h : isLayerElt x = true) {c : LClass} (hc : layerOf x = .ok c) :
    matcherIn F root d .none ts x = meetsAnyIn F root d (c, x) ts := by
  rw [matcherIn, if_neg (by simp [name_of_isLayerElt h])]
  simp only [asLayer, hc]

theorem asLayerAt_fst : ∀ (xs : List (Place × Node)) l, mapRes asLayerAt xs = .ok l → l.map Prod.fst = xs.map Prod.fst
  | [], l, h => by injection h with h; subst h; rfl
  | x :: xs, l, h => by
    rw [mapRes] at h
    split at h
    · cases h
    · next z hz =>
      split at h
      · cases h
      · next l' hl =>
        injection h with h; subst h
        rw [asLayerAt] at hz
        split at hz
        · cases hz
        · injection hz with hz; subst hz
          simp only [List.map_cons, asLayerAt_fst xs l' hl]

theorem mem_findAllIn {F : Fl} {root : Option Attrs} {d : Defaults} {n : Node} {k : String} (hk : k ≠ "type") {v : PV}
    {l : List (Place × LObj)} (h : findAllIn F root d {kw := [(k, .pv v)]} [] n = .ok l) :
    InOrder (l.map Prod.fst) ∧
    (∀ q c x, (q, c, x) ∈ l ↔ q ≠ [] ∧ nodeAt q n = some x ∧ isLayerElt x = true ∧ layerOf x = .ok c ∧
      meetsAnyIn F root d (c, x) [(k, v)] = .ok true) ∧
    ∀ q c x, q ≠ [] → nodeAt q n = some x → isLayerElt x = true → layerOf x = .ok c →
      ∃ b, meetsAnyIn F root d (c, x) [(k, v)] = .ok b := by
  simp only [findAllIn, (value_targets hk v).1, (value_targets hk v).2] at h
  split at h
  · cases h
  next m hm =>
  obtain ⟨h1, h2⟩ := filterRes_ok.1 hm
  have hmem : ∀ q c x, (q, c, x) ∈ l ↔ q ≠ [] ∧ nodeAt q n = some x ∧ isLayerElt x = true ∧ layerOf x = .ok c ∧
      meetsAnyIn F root d (c, x) [(k, v)] = .ok true := by
    intro q c x
    rw [mem_mapRes_asLayerAt h, h2]
    simp only [List.mem_filter, mem_places]
    constructor
    · rintro ⟨⟨⟨r, hq, hr, hx, ht⟩, hmx⟩, hc⟩
      simp only [List.nil_append] at hq
      subst hq
      have hmt : matcherIn F root d .none [(k, v)] x = .ok true := by
        cases hmm : matcherIn F root d .none [(k, v)] x with
        | error e => rw [hmm] at hmx; cases hmx
        | ok b => rw [hmm] at hmx; exact congrArg _ hmx
      have hl : isLayerElt x = true := by
        cases x with
        | text s => simp [Node.isTag] at ht
        | tag nm b ks =>
          rw [isLayerElt, decide_eq_true_eq]
          by_contra hn
          rw [matcherIn, if_pos (by exact hn)] at hmt; cases hmt
      exact ⟨hr, hx, hl, hc, (matcherIn_layer hl hc).symm.trans hmt⟩
    · rintro ⟨hr, hx, hl, hc, hm⟩
      have ht : x.isTag = true := by cases x with
        | text s => simp [isLayerElt] at hl
        | tag a b ks => rfl
      exact ⟨⟨⟨q, by simp, hr, hx, ht⟩, by rw [matcherIn_layer hl hc, hm]⟩, hc⟩
  refine ⟨?_, hmem, ?_⟩
  · rw [asLayerAt_fst m l h, h2]
    exact inOrder_sublist (List.filter_sublist.map _)
  · intro q c x hq hx hl hc
    have ht : x.isTag = true := by cases x with
      | text s => simp [isLayerElt] at hl
      | tag a b ks => rfl
    obtain ⟨b, hb⟩ := h1 (q, x) (mem_places.2 ⟨q, by simp, hq, hx, ht⟩)
    exact ⟨b, (matcherIn_layer hl hc).symm.trans hb⟩

theorem shownIn_of_eq {F : Fl} {root : Option Attrs} {a : LAttr} {w : PV} (h : attrEqIn F root a w = .ok true) :
    attrShownIn F root a ≠ .error .attr := by
  have key : ∀ c n, a = .val c n → c = .time → attrShownIn F root a ≠ .error .attr := by
    rintro c n rfl rfl
    rw [attrShownIn, valueStr, if_neg (by simp)]
    cases hp : plainStr F (fun _ => true) root .time n with
    | error e => rintro ⟨⟩; exact plainStr_ne_attr _ _ _ _ _ hp
    | ok s => simp
  cases a with
  | val c n =>
    by_cases hc : c = .time
    · exact key c n rfl hc
    · have e1 : attrEqIn F root (.val c n) w = attrEq F (.val c n) w := by cases c <;> first | rfl | exact absurd rfl hc
      have e2 : attrShownIn F root (.val c n) = attrShown F (.val c n) := by
        cases c <;> first | rfl | exact absurd rfl hc
      rw [e2]
      exact shown_of_eq (e1.symm.trans h)
  | _ => exact shown_of_eq h

theorem meetsIn_true {F : Fl} {root : Option Attrs} {d : Defaults} {k : String} {v : PV} {x : LObj} {b : Bool}
    (h : meetsAnyIn F root d x [(k, v)] = .ok b) :
    b = true ↔ ∃ a, layerAttr F d k x = .ok a ∧ wantShown F v = .ok () ∧ attrEqIn F root a v = .ok true := by
  rw [meetsAnyIn, tryAttrIn] at h
  cases ha : layerAttr F d k x with
  | error e =>
    simp only [ha] at h
    cases e <;> simp [meetsAnyIn] at h
    simp [← h]
  | ok a =>
    simp only [ha, Except.ok.injEq, exists_eq_left'] at h ⊢
    cases hs : attrShownIn F root a with
    | error e =>
      simp only [hs] at h
      cases e <;> simp [meetsAnyIn] at h
      subst h
      simp only [Bool.false_eq_true, false_iff]
      rintro ⟨-, h2⟩
      exact shownIn_of_eq h2 hs
    | ok u =>
      simp only [hs] at h
      cases hw : wantShown F v with
      | error e =>
        simp only [hw] at h
        cases e <;> simp [meetsAnyIn] at h
        simp [← h]
      | ok u =>
        simp only [hw] at h
        simp only [true_and]
        cases he : attrEqIn F root a v with
        | error e => simp [he] at h
        | ok b' => cases b' <;> simp_all [meetsAnyIn]

/-- What a search by a field finds, times included. -/
theorem found_in {F : Fl} {root : Option Attrs} {d : Defaults} {n : Node} {k : String} (hk : k ∉ generalNames) {v : PV}
    (hw : wantShown F v = .ok ()) {l : List (Place × LObj)} (h : findAllIn F root d {kw := [(k, .pv v)]} [] n = .ok l) :
    InOrder (l.map Prod.fst) ∧
    ∀ q c x, (q, c, x) ∈ l ↔ q ≠ [] ∧ nodeAt q n = some x ∧ isLayerElt x = true ∧ layerOf x = .ok c ∧
      ∃ cls m, ValueOf k c x cls m ∧ attrEqIn F root (.val cls m) v = .ok true := by
  have ht : k ≠ "type" := by rintro rfl; exact hk (by decide)
  obtain ⟨h1, h2, h3⟩ := mem_findAllIn ht h
  refine ⟨h1, fun q c x => ?_⟩
  rw [h2]
  constructor
  · rintro ⟨hq, hx, hl, hc, hm⟩
    obtain ⟨a, ha, -, he⟩ := (meetsIn_true hm).1 rfl
    obtain ⟨cls, m, hv, rfl⟩ := (layerAttr_field hk).1 ha
    exact ⟨hq, hx, hl, hc, cls, m, hv, he⟩
  · rintro ⟨hq, hx, hl, hc, cls, m, hv, he⟩
    obtain ⟨b, hb⟩ := h3 q c x hq hx hl hc
    refine ⟨hq, hx, hl, hc, hb.trans (congrArg _ ?_)⟩
    exact (meetsIn_true hb).2 ⟨_, (layerAttr_field hk).2 ⟨cls, m, hv, rfl⟩, hw, he⟩

theorem eqIn_other {F : Fl} {root : Option Attrs} {cls : VCls} (h : cls ≠ .time) (m : Node) (v : PV) :
    attrEqIn F root (.val cls m) v = valueEq F none cls m v := by
  cases cls <;> first | rfl | exact absurd rfl h

theorem time_equals_number {F : Fl} {root : Option Attrs} {q : ℚ} (hq : F.rep q) (m : Node) :
    attrEqIn F root (.val .time m) (.float q) = .ok true ↔ AtFrame F root m q := by
  show timeEq F root m (.float q) = .ok true ↔ _
  have hr : F.rnd q = q := hq
  by_cases h0 : q < 0
  · have hn : T.new F none (.num q) = .error .value := by simp [T.new, readFps, framesOfNumber, hr, h0]
    simp only [timeEq, PV.toTArg, PV.toFloat, hn, PV.toTOther]
    cases ht : getTime F root m <;> simp [AtFrame, ht, T.eq, T.compare]
  · have hn : T.new F none (.num q) = .ok ⟨q, none⟩ := by simp [T.new, readFps, framesOfNumber, hr, h0]
    simp only [timeEq, PV.toTArg, PV.toFloat, hn]
    cases ht : getTime F root m <;> simp [AtFrame, ht, T.eq, T.compare]

theorem time_equals_text {F : Fl} {root : Option Attrs} (s : Str) (m : Node) :
    attrEqIn F root (.val .time m) (.str s) = .ok true ↔
      ∃ t, T.new F none (.str s) = .ok t ∧ AtFrame F root m t.frames := by
  show timeEq F root m (.str s) = .ok true ↔ _
  simp only [timeEq, PV.toTArg]
  have hfps : ∀ t, T.new F none (.str s) = .ok t → t.fps = none := by
    intro t h
    simp only [T.new, readFps] at h
    split at h
    · cases h
    · injection h with h; rw [← h]
  cases hn : T.new F none (.str s) with
  | error e =>
    cases e <;> cases getTime F root m <;> simp [PV.toTOther, T.eq, T.compare]
  | ok t =>
    cases ht : getTime F root m with
    | error e => simp [AtFrame, ht]
    | ok t' => simp [AtFrame, ht, T.eq, T.compare, hfps t hn]

/-- A search that raises nothing has compared the times of all layers with what is wanted. -/
theorem compared {F : Fl} {root : Option Attrs} {d : Defaults} {n x : Node} {p : Place} {k : String}
    (hk : k ∉ generalNames) {v : PV} {l : List (Place × LObj)} (h : findAllIn F root d {kw := [(k, .pv v)]} [] n = .ok l)
    (hp : p ≠ []) (hx : nodeAt p n = some x) (hl : isLayerElt x = true) {c : LClass} (hc : layerOf x = .ok c)
    {m : Node} (hm : ValueOf k c x .time m) (hcomp : ∀ r w, v ≠ .val .composite r w) :
    ∃ b, attrEqIn F root (.val .time m) v = .ok b := by
  have ht : k ≠ "type" := by rintro rfl; exact hk (by decide)
  obtain ⟨b, hb⟩ := (mem_findAllIn ht h).2.2 p c x hp hx hl hc
  rw [meetsAnyIn, tryAttrIn, (layerAttr_field hk).2 ⟨_, _, hm, rfl⟩] at hb
  simp only at hb
  cases hs : attrShownIn F root (.val .time m) with
  | error e' =>
    have hne : e' ≠ .attr := by
      rintro rfl
      rw [attrShownIn, valueStr, if_neg (by simp)] at hs
      cases hpl : plainStr F (fun _ => true) root .time m with
      | error e => rw [hpl] at hs; cases hs; exact plainStr_ne_attr _ _ _ _ _ hpl
      | ok s => rw [hpl] at hs; cases hs
    simp only [hs] at hb
    cases e' <;> first | exact absurd rfl hne | cases hb
  | ok u =>
    simp only [hs] at hb
    cases hw : wantShown F v with
    | error e' =>
      have hne : e' ≠ .attr := by rintro rfl; exact wantShown_ne_attr hcomp hw
      simp only [hw] at hb
      cases e' <;> first | exact absurd rfl hne | cases hb
    | ok u =>
      simp only [hw] at hb
      cases he : attrEqIn F root (.val .time m) v with
      | ok b => exact ⟨b, rfl⟩
      | error e => simp [he] at hb

theorem time_equals_T {F : Fl} {root : Option Attrs} {t : T} (m : Node)
    (hok : ∃ b, attrEqIn F root (.val .time m) (.t t) = .ok b) :
    attrEqIn F root (.val .time m) (.t t) = .ok true ↔ AtFrame F root m t.frames := by
  change ∃ b, timeEq F root m (.t t) = .ok b at hok
  show timeEq F root m (.t t) = .ok true ↔ _
  by_cases h0 : 0 ≤ t.frames
  · have hn : T.new F none (.t t) = .ok ⟨t.frames, none⟩ := by
      simp [T.new, readFps, framesOfNumber, not_lt.2 h0]
    simp only [timeEq, PV.toTArg, hn]
    cases ht : getTime F root m with
    | error e => simp [AtFrame, ht]
    | ok t' => simp [AtFrame, ht, T.eq, T.compare]
  · have hn : T.new F none (.t t) = .error .value := by
      simp [T.new, readFps, framesOfNumber, not_le.1 h0]
    obtain ⟨b, hok⟩ := hok
    simp only [timeEq, PV.toTArg, hn, PV.toTOther] at hok ⊢
    cases ht : getTime F root m with
    | error e => simp [AtFrame, ht]
    | ok t' =>
      simp only [ht, T.eq, T.compare] at hok ⊢
      have e : AtFrame F root m t.frames ↔ t'.frames = t.frames := by simp [AtFrame, ht]
      rw [e]
      split at hok
      · split at hok
        · cases hok
        · next h => rw [if_neg h]; simp
      · simp

/-- C149. `find_all(k=q)` for a number finds exactly those layers below which have a time of that name at frame `q` (at the
frame rate of the animation that they are in), or something else of that name that equals the number; each
once, in the order of the document. -/
theorem c149_number {F : Fl} {root : Option Attrs} {d : Defaults} {n : Node} {k : String} (hk : k ∉ generalNames) {q : ℚ}
    (hq : F.rep q) {l : List (Place × LObj)} (h : findAllIn F root d {kw := [(k, .pv (.float q))]} [] n = .ok l) :
    InOrder (l.map Prod.fst) ∧
    ∀ p c x, (p, c, x) ∈ l ↔ p ≠ [] ∧ nodeAt p n = some x ∧ isLayerElt x = true ∧ layerOf x = .ok c ∧
      ∃ cls m, ValueOf k c x cls m ∧ if cls = .time then AtFrame F root m q else EqualsNumber F q cls m := by
  obtain ⟨h1, h2⟩ := found_in hk rfl h
  refine ⟨h1, fun p c x => (h2 p c x).trans ?_⟩
  have : ∀ cls m, attrEqIn F root (.val cls m) (.float q) = .ok true ↔
      if cls = .time then AtFrame F root m q else EqualsNumber F q cls m := by
    intro cls m
    by_cases hc : cls = .time
    · subst hc; rw [if_pos rfl]; exact time_equals_number hq m
    · rw [if_neg hc, eqIn_other hc]; exact c136_number F q cls m hc
  simp only [this]

/-- C149. `find_all(k=s)` for text finds exactly those layers below which have a time of that name at the frame which the
text is without a frame rate, or something else of that name that equals the text. -/
theorem c149_text {F : Fl} {root : Option Attrs} {d : Defaults} {n : Node} {k : String} (hk : k ∉ generalNames) {s : Str}
    {l : List (Place × LObj)} (h : findAllIn F root d {kw := [(k, .pv (.str s))]} [] n = .ok l) :
    InOrder (l.map Prod.fst) ∧
    ∀ p c x, (p, c, x) ∈ l ↔ p ≠ [] ∧ nodeAt p n = some x ∧ isLayerElt x = true ∧ layerOf x = .ok c ∧
      ∃ cls m, ValueOf k c x cls m ∧
        if cls = .time then ∃ t, T.new F none (.str s) = .ok t ∧ AtFrame F root m t.frames else EqualsText F s cls m := by
  obtain ⟨h1, h2⟩ := found_in hk rfl h
  refine ⟨h1, fun p c x => (h2 p c x).trans ?_⟩
  have : ∀ cls m, attrEqIn F root (.val cls m) (.str s) = .ok true ↔
      if cls = .time then ∃ t, T.new F none (.str s) = .ok t ∧ AtFrame F root m t.frames else EqualsText F s cls m := by
    intro cls m
    by_cases hc : cls = .time
    · subst hc; rw [if_pos rfl]; exact time_equals_text s m
    · rw [if_neg hc, eqIn_other hc]; exact c136_text F s cls m hc
  simp only [this]

/-- C149, violated: a layer is never found by a time in seconds (other than none), even by the very text that is
in the file. -/
theorem c149_seconds_never_found {F : Fl} (hF : F.Lawful) {root : Option Attrs} {d : Defaults} {n : Node} {k : String}
    (hk : k ∉ generalNames) (ps : List Part) (tr : Str) (hp : ∀ p ∈ ps, p.Valid) (htr : ∀ c ∈ tr, isSpace c = true)
    (hd : Distinct ps) (H M S G : ℤ) (hH : amount ps .h = H) (hM : amount ps .m = M) (hS : amount ps .s = S)
    (hG : amount ps .f = G) (hb : |H * 3600| + |M * 60| + |S| ≤ 2 ^ 53) (hG' : |G| ≤ 2 ^ 53) (hs : seconds ps ≠ 0)
    {l : List (Place × LObj)} (h : findAllIn F root d {kw := [(k, .pv (.str (specText ps tr)))]} [] n = .ok l) :
    ∀ p c x, (p, c, x) ∈ l → ∀ m, ¬ ValueOf k c x .time m := by
  intro p c x hx m hv
  obtain ⟨-, -, -, -, cls, m', hv', he⟩ := ((c149_text hk h).2 p c x).1 hx
  have hcls : cls = .time ∧ m' = m := by
    have e1 := (layerAttr_field (F := F) (d := d) hk).2 ⟨_, _, hv, rfl⟩
    have e2 := (layerAttr_field (F := F) (d := d) hk).2 ⟨_, _, hv', rfl⟩
    rw [e1] at e2
    injection e2 with e2; injection e2 with e3 e4
    exact ⟨e3.symm, e4.symm⟩
  obtain ⟨rfl, rfl⟩ := hcls
  rw [if_pos rfl] at he
  obtain ⟨t, ht, -⟩ := he
  have h8 := c08_seconds_need_ref hF ps tr hp htr hd H M S G hH hM hS hG hb hG'
  rw [if_pos hs, ht] at h8
  cases h8

/-- C149, violated: a search for a time object counts frames, whatever its frame rate: a time from another animation
finds what is at another time in this one. (If it is before the start, the search raises instead; see
`c149_time_object_refused`.) -/
theorem c149_time_object {F : Fl} {root : Option Attrs} {d : Defaults} {n : Node} {k : String} (hk : k ∉ generalNames)
    {t : T} {l : List (Place × LObj)}
    (h : findAllIn F root d {kw := [(k, .pv (.t t))]} [] n = .ok l) :
    ∀ p c x m, ValueOf k c x .time m →
      ((p, c, x) ∈ l ↔ p ≠ [] ∧ nodeAt p n = some x ∧ isLayerElt x = true ∧ layerOf x = .ok c ∧
        AtFrame F root m t.frames) := by
  intro p c x m hv
  rw [(found_in hk rfl h).2 p c x]
  constructor
  · rintro ⟨h1, h2, h3, h4, cls, m', hv', he⟩
    have e1 := (layerAttr_field (F := F) (d := d) hk).2 ⟨_, _, hv, rfl⟩
    have e2 := (layerAttr_field (F := F) (d := d) hk).2 ⟨_, _, hv', rfl⟩
    rw [e1] at e2
    injection e2 with e2; injection e2 with e3 e4
    subst e3 e4
    exact ⟨h1, h2, h3, h4, (time_equals_T m ⟨_, he⟩).1 he⟩
  · rintro ⟨h1, h2, h3, h4, he⟩
    exact ⟨h1, h2, h3, h4, _, m, hv, (time_equals_T m (compared hk h h1 h2 h3 h4 hv (by simp))).2 he⟩

/-- C149. A search for a time before the start, at another frame rate than that of the animation, raises as soon as there
is a layer below with a time of that name. -/
theorem c149_time_object_refused {F : Fl} {root : Option Attrs} {d : Defaults} {n x : Node} {p : Place} (hp : p ≠ [])
    (hx : nodeAt p n = some x) (hl : isLayerElt x = true) {c : LClass} (hc : layerOf x = .ok c) {k : String}
    (hk : k ∉ generalNames) {m : Node} (hm : ValueOf k c x .time m) {q r r' : ℚ} (hq : q < 0)
    (hroot : readFps F root = .ok (some r)) (hr : r' ≠ r) (l : List (Place × LObj)) :
    findAllIn F root d {kw := [(k, .pv (.t ⟨q, some r'⟩))]} [] n ≠ .ok l := by
  intro h
  obtain ⟨b, hb⟩ := compared hk h hp hx hl hc hm (by simp)
  change timeEq F root m (.t ⟨q, some r'⟩) = .ok b at hb
  have hn : T.new F none (.t ⟨q, some r'⟩) = .error .value := by simp [T.new, readFps, framesOfNumber, hq]
  simp only [timeEq, PV.toTArg, hn, PV.toTOther] at hb
  cases ht : getTime F root m with
  | error e => rw [ht] at hb; cases hb
  | ok t' =>
    have hf : t'.fps = some r := by
      simp only [getTime] at ht
      cases hs : simpleText m with
      | error e => rw [hs] at ht; cases ht
      | ok s => rw [hs] at ht; exact new_fps hroot ht
    simp only [ht, T.eq, T.compare, hf, ne_eq, hr, not_false_eq_true, if_true] at hb
    cases hb

/-- C149. If the time of one layer can't be read (it is in seconds, and the animation has no frame rate; or it is
animated), then the search raises, whatever is looked for. -/
theorem c149_unreadable_raises {F : Fl} {root : Option Attrs} {d : Defaults} {n x : Node} {p : Place} (hp : p ≠ [])
    (hx : nodeAt p n = some x) (hl : isLayerElt x = true) {c : LClass} (hc : layerOf x = .ok c) {k : String}
    (hk : k ∉ generalNames) {m : Node} (hm : ValueOf k c x .time m) {e : Err} (he : getTime F root m = .error e)
    {v : PV} (hcomp : ∀ r w, v ≠ .val .composite r w) (l : List (Place × LObj)) :
    findAllIn F root d {kw := [(k, .pv v)]} [] n ≠ .ok l := by
  intro h
  obtain ⟨b, hb⟩ := compared hk h hp hx hl hc hm hcomp
  change timeEq F root m v = .ok b at hb
  simp only [timeEq, he] at hb
  split at hb <;> cases hb

/-- Setting a field of a layer in a document, when what is set is of the field's class again. -/
theorem setField_at {F : Fl} {n x : Node} {p : Place} (hx : nodeAt p n = some x) (hl : isLayerElt x = true)
    {c : LClass} (hc : layerOf x = .ok c) {k : String} {cls : VCls} {dv : Lit} {m : Node}
    (hm : getField k (.param cls dv) x = .ok (cls, m)) {v : PV}
    (hv : m.isTag = true → fromTag m = .ok cls → (setValue F cls v m).2 = .ok () ∧
      (setValue F cls v m).1.isTag = true ∧ fromTag (setValue F cls v m).1 = .ok cls) :
    m.isTag = true ∧ (actAt (setField F k (.param cls dv) v) p n).2 = .ok () ∧
    ∃ y, nodeAt p (actAt (setField F k (.param cls dv) v) p n).1 = some y ∧ isLayerElt y = true ∧
      layerOf y = .ok c ∧ fieldValue k y = .ok (cls, (setValue F cls v m).1) := by
  obtain ⟨ha1, ha2⟩ := actAt_at (g := setField F k (.param cls dv) v) hx
  have hfv : fieldValue k x = .ok (cls, m) := by
    simp only [getField] at hm
    split at hm
    · cases hm
    · next h =>
      split at hm
      · injection hm with hm; injection hm with e1 e2; subst e1 e2; exact h
      · cases hm
  obtain ⟨w, hw, hwk, hct⟩ : ∃ w, findParam k.toList x = some w ∧ w.tagKids = [m] ∧ fromTag m = .ok cls := by
    simp only [fieldValue] at hfv
    cases hw : findParam k.toList x with
    | none => simp only [hw] at hfv; cases hfv
    | some w =>
      simp only [hw] at hfv
      split at hfv
      · next u hu =>
        cases hct : fromTag u with
        | error e => simp only [hct] at hfv; cases hfv
        | ok c' =>
          simp only [hct] at hfv
          injection hfv with hfv; injection hfv with e1 e2; subst e1 e2
          exact ⟨w, rfl, hu, hct⟩
      · cases hfv
  have hmt : m.isTag = true := by
    have : m ∈ w.tagKids := by rw [hwk]; simp
    exact (List.mem_filter.1 this).2
  obtain ⟨h1, h2, h3⟩ := hv hmt hct
  obtain ⟨hw1, hw2, -⟩ := findParam_some hw
  have hset : setField F k (.param cls dv) v x =
      (updFirst (isParam k.toList) (replaceValue (setValue F cls v m).1) x, (setValue F cls v m).2) := by
    simp only [setField, hfv]
  rw [hset] at ha1 ha2
  refine ⟨hmt, ha2.trans h1, _, ha1, ?_⟩
  have hhead := updFirst_head (P := isParam k.toList) (g := replaceValue (setValue F cls v m).1) x
  generalize hy : updFirst (isParam k.toList) (replaceValue (setValue F cls v m).1) x = y at hhead
  have hy2 : fieldValue k y = .ok (cls, (setValue F cls v m).1) := by
    have hsame : (replaceValue (setValue F cls v m).1 w).name = w.name ∧
        (replaceValue (setValue F cls v m).1 w).attrs = w.attrs ∧
        (replaceValue (setValue F cls v m).1 w).isTag = true := by
      cases w with
      | text s => cases hw2
      | tag a b ks => exact ⟨rfl, rfl, rfl⟩
    have hfp : findParam k.toList y = some (replaceValue (setValue F cls v m).1 w) := by
      rw [← hy]
      exact findParam_upd hw hsame.2.2 (by rw [isParam, hsame.1, hsame.2.1]; exact hw1)
    simp only [fieldValue, hfp, tagKids_replace hw2 hwk h2, h3]
  have hyl : isLayerElt y = true := by
    cases x with
    | text s => cases hl
    | tag a b ks =>
      cases y with
      | text s => cases hhead.1
      | tag a' b' ks' =>
        have : a' = a := hhead.2.1
        rw [this]
        exact hl
  exact ⟨hyl, (layerOf_head hhead.2.2).trans hc, hy2⟩

/-- C149. If a layer's time has just been set to a whole number of frames (below a million), then a search for
that number finds the layer, unless it raises an exception because of some other layer. -/
theorem c149_set_then_found {F : Fl} (hF : F.Lawful) (d : Defaults) {root : Attrs} {r : ℚ} (hr : 0 < r)
    (hroot : HasFps F root r) {n x : Node} {p : Place} (hp : p ≠ [])
    (hx : nodeAt p n = some x) (hl : isLayerElt x = true) {c : LClass} (hc : layerOf x = .ok c) {k : String}
    (hk : k ∉ generalNames) {dv : Lit} (hf : c.fields.lookup k = some (.param .time dv)) {m : Node}
    (hm : getField k (.param .time dv) x = .ok (.time, m)) {i : ℕ} (hi : i < 10 ^ 6) :
    (actAt (setField F k (.param .time dv) (.float i)) p n).2 = .ok () ∧
    ∀ l, findAllIn F (some root) d {kw := [(k, .pv (.float i))]} []
        (actAt (setField F k (.param .time dv) (.float i)) p n).1 = .ok l → p ∈ l.map Prod.fst := by
  have hset : ∀ m : Node, m.isTag = true →
      (setValue F .time (.float i) m).1.isTag = true ∧ fromTag (setValue F .time (.float i) m).1 = .ok .time := by
    intro m hm
    rw [setTime_ok hF hm i hi _ (.inr rfl)]
    exact ⟨rfl, fromTag_ofName (s := "time") rfl (by decide) (by decide) (by decide) (by decide)⟩
  obtain ⟨hmt, h1, y, hy, hyl, hyc, hyv⟩ := setField_at (F := F) (v := .float i) hx hl hc hm
    (fun ht _ => ⟨(c22_time_roundtrip_attached hF m ht root r hr hroot i hi _ (.inr rfl)).1, hset m ht⟩)
  refine ⟨h1, fun l h => ?_⟩
  refine List.mem_map.2 ⟨(p, c, y), ?_, rfl⟩
  have hq : F.rep i := hF.nat i (hi.le.trans (by norm_num))
  refine ((c149_number hk hq h).2 p c y).2 ⟨hp, hy, hyl, hyc, .time, _, .field hf hyv, ?_⟩
  rw [if_pos rfl]
  exact ⟨_, (c22_time_roundtrip_attached hF m hmt root r hr hroot i hi _ (.inr rfl)).2, rfl⟩

/-! ## Examples -/

/-- An animation with a layer of which the duration is two seconds, that is, 48 frames. -/
def exTimed : Node := .tag "canvas" [("fps", .str "24.000".toList)]
  [.tag "layer" [("type", .str "timeloop".toList)]
    [.tag "param" [("name", .str "duration".toList)] [.tag "time" [("value", .str "2s".toList)] []]]]

/-- C149's searches succeed: by 48 frames the layer is found, by another number not, by a number in text it is, and by
a time in another animation with twelve frames a second, where 48 frames are four seconds. -/
example :
    let found (v : PV) := match findAllIn double (animRoot exTimed) .initial {kw := [("duration", .pv v)]} [] exTimed with
      | .ok l => some (l.map Prod.fst)
      | .error _ => none
    found (.float 48) = some [[0]] ∧ found (.float 47) = some [] ∧ found (.str "48f".toList) = some [[0]] ∧
    found (.t ⟨48, some 12⟩) = some [[0]] ∧ found (.str "2s".toList) = some [] ∧
    found (.t ⟨-48, none⟩) = some [] ∧ found (.t ⟨-48, some 12⟩) = none := by decide +kernel

/-- And without a frame rate the search raises. -/
example : (match findAllIn double none .initial {kw := [("duration", .pv (.float 48))]} [] exTimed with
    | .ok _ => none
    | .error e => some e) = some .value := by decide +kernel

/-- The hypotheses of C149 about the layer are met. -/
example : "duration" ∉ generalNames ∧ ∃ c, layerOf (exTimed.kids.headD (.text [])) = .ok c ∧
    (∃ dv, c.fields.lookup "duration" = some (.param .time dv)) ∧
    ∃ m, ValueOf "duration" c (exTimed.kids.headD (.text [])) .time m := by
  have h1 : ∃ c, layerOf (exTimed.kids.headD (.text [])) = .ok c ∧
      ∃ dv, c.fields.lookup "duration" = some (.param .time dv) := ⟨_, rfl, _, rfl⟩
  obtain ⟨c, hc, dv, hd⟩ := h1
  exact ⟨by decide, c, hc, ⟨dv, hd⟩, _, .field hd rfl⟩

end Sang
