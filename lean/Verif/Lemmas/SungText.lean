import Verif.Lemmas.TPlain
import Verif.Lemmas.KeptSaved2
import Verif.Props.TimeFraction

/-!
# The texts that bywords makes, saved and opened again
-/

namespace Sang

open Spec

/-! ## Where the times come from -/

theorem waypoints_ctx {F : Fl} {r r' : Option Attrs} (h : T.new F r = T.new F r') (p p' : Bool) (n : Node) :
    waypoints F ⟨r, p⟩ n = waypoints F ⟨r', p'⟩ n := by
  have e : ∀ ty, Waypoint.fromTag F r ty = Waypoint.fromTag F r' ty := by
    intro ty; funext n; simp only [Waypoint.fromTag, h]
  simp only [waypoints, e]

theorem animate_ctx {F : Fl} {r r' : Option Attrs} (h : T.new F r = T.new F r') (p : Bool) (n : Node) :
    animate F ⟨r, p⟩ .string n = animate F ⟨r', p⟩ .string n := by
  have hw := fun n => waypoints_ctx h p p n
  have hn : ∀ t v b a, Waypoint.new F r t v b a = Waypoint.new F r' t v b a := by
    intro t v b a; simp only [Waypoint.new, h]
  simp only [animate, getValue, setItem, ensureFps, makeWp, setWaypoints, unAnimate, hw, hn, h]

theorem addWaypoints_ctx {F : Fl} {r r' : Option Attrs} (h : T.new F r = T.new F r') (p : Bool) (ws : List Waypoint)
    (o : Bool) (n : Node) : addWaypoints F ⟨r, p⟩ .string ws o n = addWaypoints F ⟨r', p⟩ .string ws o n := by
  simp only [addWaypoints, waypoints_ctx h p p, animate_ctx h p]

theorem setConstant_ctx {F : Fl} {r r' : Option Attrs} (h : T.new F r = T.new F r') (p : Bool) (t s : Str) (n : Node) :
    setConstant F ⟨r, p⟩ t s n = setConstant F ⟨r', p⟩ t s n := by
  simp only [setConstant, h, addWaypoints_ctx h p]

theorem setWords_ctx {F : Fl} {r r' : Option Attrs} (h : T.new F r = T.new F r') (p : Bool) (ws : List WordTiming) (n : Node) :
    setWords F ⟨r, p⟩ ws n = setWords F ⟨r', p⟩ ws n := by
  induction ws generalizing n with
  | nil => rfl
  | cons w ws ih => simp only [setWords, setConstant_ctx h p, ih]

theorem adjustText_ctx {F : Fl} {r r' : Option Attrs} (h : T.new F r = T.new F r') (p : Bool) (x : ℕ × ℕ)
    (ws : List WordTiming) (n : Node) : adjustText F ⟨r, p⟩ x ws n = adjustText F ⟨r', p⟩ x ws n := by
  simp only [adjustText, setConstant_ctx h p, setWords_ctx h p]

/-- Documents keep what times depend on. -/
theorem new_opened {F : Fl} {e : Node} (hx : e.XmlOk F) (hc : Clean e) :
    readFps F (animRoot (e.opened F)) = readFps F (animRoot e) ∧ T.new F (animRoot (e.opened F)) = T.new F (animRoot e) := by
  have hg := fun k hk => opened_get_clean hx hc (k := k) hk
  have h1 := hg "fps" (by decide)
  have h2 := hg "begin-time" (by decide)
  have h3 := hg "end-time" (by decide)
  simp only [animRoot, canvasRoot, opened_name]
  split
  · simp only [readFps, h1, true_and]
    funext v
    simp only [T.new, readFps, h1, framesOfNumber, parseAttr, h2, h3]
  · exact ⟨rfl, rfl⟩

/-! ## Times as text -/

/-- A time which isn't a very small part of a frame past a second. -/
def Written (q : ℚ) (k : ℕ) : Prop := 0 ≤ q ∧ q < 2 ^ 53 ∧ (pastSecond q k = 0 ∨ tiny ≤ pastSecond q k)

/-- Their text stays as it is in an attribute. -/
theorem str_plain {F : Fl} (hF : F.Lawful) {q : ℚ} {k : ℕ} (hk : 1 ≤ k) (hk6 : k < 10 ^ 6) (h : Written q k) :
    Plain (T.str F ⟨q, some (k:ℚ)⟩) := by
  obtain ⟨h0, hq, hr⟩ := h
  have hk' : (0:ℚ) < k := by exact_mod_cast hk
  obtain ⟨n, ε, he, e0, e1, herr, -⟩ := rnd_seconds hF h0 hq hk
  by_cases hε : ε = 0
  · subst hε
    rw [add_zero] at he herr
    by_cases hn : n = 0
    · subst hn
      have hz : q / k ≤ q / k / 2 ^ 53 := by
        rw [Nat.cast_zero, zero_sub, abs_neg, abs_of_nonneg (by positivity)] at herr
        exact herr
      have hq0 : q = 0 := by
        have h1 : 0 ≤ q / k := by positivity
        have : q / k = 0 := by
          rw [le_div_iff₀ (by positivity)] at hz
          nlinarith
        rcases div_eq_zero_iff.1 this with h | h
        · exact h
        · exact absurd h hk'.ne'
      subst hq0
      rw [str_zero hF]
      decide
    · rw [str_at_second h0 he hn]
      exact specText_plain _ _
  · rw [str_past_second h0 he e0 e1 hε]
    rcases hr with hr | hr
    · have e : fmtG (pastSecond q k) = (⟨false, ['0'], []⟩ : Amount).text := by rw [hr]; rfl
      rw [e, ← secParts_text]
      exact part_plain n ⟨by simp, by decide, by simp⟩
    · have hk6' : (k:ℚ) ≤ 999999 := by
        have : k ≤ 999999 := by omega
        exact_mod_cast this
      obtain ⟨a, -, a2, a3, -⟩ := fmtG_amount hr (by linarith [(pastSecond_bounds (q := q) k hk).2])
      rw [← a3, ← secParts_text]
      exact part_plain n a2

theorem rnd_ne_zero {F : Fl} (hF : F.Lawful) {x : ℚ} (h : x ≠ 0) : F.rnd x ≠ 0 := by
  intro h0
  have := hF.err x
  rw [h0, zero_sub, abs_neg, le_div_iff₀ (by positivity)] at this
  have h1 : 0 < |x| := abs_pos.2 h
  nlinarith

/-- It reads as a time, and as the start only if it was the start. -/
theorem str_reads {F : Fl} (hF : F.Lawful) {root : Option Attrs} {q : ℚ} {k : ℕ} (hk : 1 ≤ k) (hk6 : k < 10 ^ 6)
    (hf : readFps F root = .ok (some (k:ℚ))) (h : Written q k) :
    ∃ x, T.new F root (.str (attrSpaces (T.str F ⟨q, some (k:ℚ)⟩))) = .ok ⟨x, some (k:ℚ)⟩ ∧ (x = 0 ↔ q = 0) := by
  rw [attrSpaces_id (str_plain hF hk hk6 h)]
  obtain ⟨h0, hq, hr⟩ := h
  obtain ⟨a, rfl, ha⟩ := fps_root hf
  have hk' : (0:ℚ) < k := by exact_mod_cast hk
  obtain ⟨n, ⟨-, he, hn⟩ | ⟨hw, hnq, hr4, hn⟩⟩ := read_fraction hF h0 hq hk hk6 ha hr
  · refine ⟨_, hn, ?_, ?_⟩
    · intro hz
      rw [hz, zero_sub, abs_neg, abs_of_nonneg h0, le_div_iff₀ (by positivity)] at he
      nlinarith
    · rintro rfl
      rw [zero_div, sub_zero] at he
      exact abs_nonpos_iff.1 he
  · refine ⟨_, hn, ?_, ?_⟩
    · intro hz
      exfalso
      have hr0 : 0 < pastSecond q k := lt_of_lt_of_le (by norm_num [tiny]) hr4
      have hs : 0 < six (pastSecond q k) := by
        rw [six, if_neg hr0.ne', if_neg (not_lt.2 hr0.le)]; exact sixPos_pos hr0
      have hs' : 0 < F.rnd (six (pastSecond q k)) :=
        lt_of_le_of_ne (hF.nonneg hs.le) (rnd_ne_zero hF hs.ne').symm
      exact rnd_ne_zero hF (x := (n:ℚ) * k + F.rnd (six (pastSecond q k))) (by positivity) hz
    · rintro rfl
      exact absurd (by simp [hF.zero]) (hw 0)

/-! ## What a text is after bywords -/

/-- A waypoint as bywords makes them. -/
def Held (k : ℕ) (u : Waypoint) : Prop :=
  (∃ s, u.val = .tag "string" [] [.text s]) ∧ u.before = "constant".toList ∧ u.after = "constant".toList ∧
    ∃ q, u.time = ⟨q, some (k:ℚ)⟩ ∧ Written q k

/-- A text as bywords makes them: it begins at the start. -/
def Sung (k : ℕ) (v : Node) : Prop :=
  ∃ us : List Waypoint, v = .tag "animated" [("type", .str "string".toList)] (us.map Waypoint.tag) ∧
    (∀ u ∈ us, Held k u) ∧ ∃ u r, us = u :: r ∧ u.time.frames = 0

/-- What texts are before and after: as read from a file, as bywords made them, or with the first string that
bywords made. -/
def TextKind (k : ℕ) (v : Node) : Prop := v.Tidy ∨ Sung k v ∨ ∃ s, v = .tag "string" [] [.text s]

theorem fromTag_held {F : Fl} {root : Option Attrs} {k : ℕ} (hf : readFps F root = .ok (some (k:ℚ))) {u : Waypoint}
    (h : Held k u) : Waypoint.fromTag F root "string".toList u.tag = .ok u := by
  obtain ⟨⟨s, hs⟩, hb, ha, q, ht, hq, -⟩ := h
  obtain ⟨t, b, a, v⟩ := u
  simp only at hs hb ha ht
  subst hs hb ha ht
  have h1 : T.new F root (AttrV.t ⟨q, some (k:ℚ)⟩).toTArg = .ok ⟨q, some (k:ℚ)⟩ := new_t_nonneg hf rfl hq
  have hc : checkInterp "constant".toList = .ok "constant".toList := by decide +kernel
  have g1 : (Waypoint.tag ⟨⟨q, some (k:ℚ)⟩, "constant".toList, "constant".toList, .tag "string" [] [.text s]⟩).attrs.get "time" =
      some (.t ⟨q, some (k:ℚ)⟩) := rfl
  have g2 : strAttr (Waypoint.tag ⟨⟨q, some (k:ℚ)⟩, "constant".toList, "constant".toList, .tag "string" [] [.text s]⟩) "before" =
      .ok "constant".toList := rfl
  have g3 : strAttr (Waypoint.tag ⟨⟨q, some (k:ℚ)⟩, "constant".toList, "constant".toList, .tag "string" [] [.text s]⟩) "after" =
      .ok "constant".toList := rfl
  have g4 : (Waypoint.tag ⟨⟨q, some (k:ℚ)⟩, "constant".toList, "constant".toList, .tag "string" [] [.text s]⟩).tagKids =
      [.tag "string" [] [.text s]] := rfl
  have g5 : Sang.fromTag (.tag "string" [] [.text s]) = .ok .string := fromTag_string rfl
  have g6 : (Waypoint.tag ⟨⟨q, some (k:ℚ)⟩, "constant".toList, "constant".toList, .tag "string" [] [.text s]⟩).name =
      "waypoint" := rfl
  simp only [Waypoint.fromTag, g1, g2, g3, g4, g5, g6, h1, hc]
  simp [Node.name]

theorem fromTag_held_opened {F : Fl} (hF : F.Lawful) {root : Option Attrs} {k : ℕ} (hk : 1 ≤ k) (hk6 : k < 10 ^ 6)
    (hf : readFps F root = .ok (some (k:ℚ))) {u : Waypoint} (h : Held k u) (hx : u.tag.XmlOk F) :
    ∃ u', Waypoint.fromTag F root "string".toList (u.tag.opened F) = .ok u' ∧ u'.val = u.val.opened F ∧
      (u'.time.frames = 0 ↔ u.time.frames = 0) := by
  obtain ⟨⟨s, hs⟩, hb, ha, q, ht, hq⟩ := h
  obtain ⟨x, hx1, hx2⟩ := str_reads hF hk hk6 hf hq
  have hc : checkInterp "constant".toList = .ok "constant".toList := by decide +kernel
  have hp : attrSpaces "constant".toList = "constant".toList := attrSpaces_id (by decide)
  have g1 : (u.tag.opened F).attrs.get "time" = some (.str (attrSpaces (T.str F ⟨q, some (k:ℚ)⟩))) := by
    rw [opened_get hx, ← ht]; rfl
  have g2 : strAttr (u.tag.opened F) "before" = .ok "constant".toList := by
    rw [opened_strAttr (s := "constant".toList) hx (by rw [← hb]; rfl), hp]
  have g3 : strAttr (u.tag.opened F) "after" = .ok "constant".toList := by
    rw [opened_strAttr (s := "constant".toList) hx (by rw [← ha]; rfl), hp]
  have hvt : u.tag.tagKids = [u.val] := by rw [Waypoint.tag, hs]; rfl
  have g4 : (u.tag.opened F).tagKids = [u.val.opened F] := by
    rw [opened_tagKids, hvt]; rfl
  have g5 : Sang.fromTag (u.val.opened F) = .ok .string := by
    refine opened_fromTag (xmlOk_tagKids hx _ (by rw [hvt]; simp)) ?_
    rw [hs]; exact fromTag_string rfl
  have g6 : (u.val.opened F).name = "string" := by rw [opened_name, hs]; rfl
  have g7 : (u.tag.opened F).name = "waypoint" := by rw [opened_name]; rfl
  refine ⟨⟨⟨x, some (k:ℚ)⟩, "constant".toList, "constant".toList, u.val.opened F⟩, ?_, rfl, by rw [ht]; exact hx2⟩
  simp only [Waypoint.fromTag, g1, g2, g3, g4, g5, g6, g7, AttrV.toTArg, hx1, hc]
  simp

theorem tags_map (us : List Waypoint) (a : Attrs) :
    waypointTags (.tag "animated" a (us.map Waypoint.tag)) = us.map Waypoint.tag := by
  rw [waypointTags, if_neg (by simp [Node.name])]
  exact List.filter_eq_self.2 fun x hx => by
    obtain ⟨u, -, rfl⟩ := List.mem_map.1 hx
    rfl

theorem mapRes_held {F : Fl} {root : Option Attrs} {k : ℕ} (hf : readFps F root = .ok (some (k:ℚ))) {us : List Waypoint}
    (h : ∀ u ∈ us, Held k u) : mapRes (Waypoint.fromTag F root "string".toList) (us.map Waypoint.tag) = .ok us := by
  induction us with
  | nil => rfl
  | cons u us ih =>
    rw [List.map_cons, mapRes, fromTag_held hf (h u (by simp))]
    simp only [ih fun w hw => h w (by simp [hw])]

/-- What is read of such a text. -/
theorem waypoints_held {F : Fl} {ctx : Ctx} {k : ℕ} (hf : readFps F ctx.root = .ok (some (k:ℚ))) {us : List Waypoint}
    (h : ∀ u ∈ us, Held k u) :
    waypoints F ctx (.tag "animated" [("type", .str "string".toList)] (us.map Waypoint.tag)) =
      .ok (us.foldl (fun d w => putWp w d) []) := by
  rw [waypoints, tags_map]
  split
  · next he => rw [List.map_eq_nil_iff.1 he]; rfl
  · rw [show strAttr (.tag "animated" [("type", .str "string".toList)] (us.map Waypoint.tag)) "type" =
      .ok "string".toList from rfl]
    simp only [mapRes_held hf h]

theorem waypoints_held_opened {F : Fl} (hF : F.Lawful) {ctx : Ctx} {k : ℕ} (hk : 1 ≤ k) (hk6 : k < 10 ^ 6)
    (hf : readFps F ctx.root = .ok (some (k:ℚ))) {us : List Waypoint} (h : ∀ u ∈ us, Held k u)
    (hx : (Node.tag "animated" [("type", .str "string".toList)] (us.map Waypoint.tag)).XmlOk F) :
    ∃ us', waypoints F ctx ((Node.tag "animated" [("type", .str "string".toList)] (us.map Waypoint.tag)).opened F) =
        .ok (us'.foldl (fun d w => putWp w d) []) ∧
      List.Forall₂ (fun u u' : Waypoint => u'.val = u.val.opened F ∧ (u'.time.frames = 0 ↔ u.time.frames = 0)) us us' := by
  have hm : ∀ (us : List Waypoint), (∀ u ∈ us, Held k u ∧ u.tag.XmlOk F) →
      ∃ us', mapRes (Waypoint.fromTag F ctx.root "string".toList) ((us.map Waypoint.tag).map (Node.opened F)) = .ok us' ∧
      List.Forall₂ (fun u u' : Waypoint => u'.val = u.val.opened F ∧ (u'.time.frames = 0 ↔ u.time.frames = 0)) us us' := by
    intro us
    induction us with
    | nil => intro _; exact ⟨[], rfl, .nil⟩
    | cons u us ih =>
      intro h
      obtain ⟨us', h1, h2⟩ := ih fun w hw => h w (by simp [hw])
      obtain ⟨u', h3, h4⟩ := fromTag_held_opened hF hk hk6 hf (h u (by simp)).1 (h u (by simp)).2
      refine ⟨u' :: us', ?_, .cons h4 h2⟩
      rw [List.map_cons, List.map_cons, mapRes, h3]
      simp only [h1]
  obtain ⟨us', h1, h2⟩ := hm us fun u hu => ⟨h u hu, XmlOk.kid hx (List.mem_map_of_mem hu)⟩
  refine ⟨us', ?_, h2⟩
  have ht : waypointTags ((Node.tag "animated" [("type", .str "string".toList)] (us.map Waypoint.tag)).opened F) =
      (us.map Waypoint.tag).map (Node.opened F) := by
    have e := tags_map us [("type", .str "string".toList)]
    rw [waypointTags] at e ⊢
    rw [opened_name, opened_tagKids]
    rw [if_neg (by simp [Node.name])] at e ⊢
    rw [e]
  rw [waypoints, ht]
  split
  · next he =>
    have : us = [] := by simpa using he
    subst this
    cases h2
    rfl
  · rw [opened_strAttr (s := "string".toList) hx rfl, attrSpaces_id (by decide)]
    simp only [h1]

/-- The first of the waypoints that are read. -/
theorem first_related {g : Node → Node} : ∀ {us us' : List Waypoint},
    List.Forall₂ (fun u u' : Waypoint => u'.val = g u.val ∧ (u'.time.frames = 0 ↔ u.time.frames = 0)) us us' →
    ∀ {a a' : Waypoint} {r r' : List Waypoint}, a.time.frames = 0 → a'.time.frames = 0 → a'.val = g a.val →
    ∃ b s b' s', us.foldl (fun d w => putWp w d) (a :: r) = b :: s ∧
      us'.foldl (fun d w => putWp w d) (a' :: r') = b' :: s' ∧ b'.val = g b.val := by
  intro us us' h
  induction h with
  | nil => intro a a' r r' _ _ hv; exact ⟨a, r, a', r', rfl, rfl, hv⟩
  | @cons u u' us us' hu _ ih =>
    intro a a' r r' h1 h2 hv
    rw [List.foldl_cons, List.foldl_cons, putWp, putWp]
    have e : ∀ (x y : Waypoint), x.time.frames = 0 → (x.time.sameKey y.time = true ↔ y.time.frames = 0) := by
      intro x y hx
      rw [T.sameKey, decide_eq_true_iff]
      constructor
      · rintro (h | h)
        · exact h.2
        · rw [← h]; exact hx
      · exact fun h => .inl ⟨hx, h⟩
    by_cases h0 : u.time.frames = 0
    · rw [if_pos ((e a u h1).2 h0), if_pos ((e a' u' h2).2 (hu.2.2 h0))]
      exact ih h0 (hu.2.2 h0) hu.1
    · rw [if_neg fun h => h0 ((e a u h1).1 h), if_neg fun h => h0 (hu.2.1 ((e a' u' h2).1 h))]
      exact ih h1 h2 hv

theorem Sung.unAnimate {F : Fl} (hF : F.Lawful) {ctx ctx' : Ctx} {k : ℕ} (hk : 1 ≤ k) (hk6 : k < 10 ^ 6)
    (hf : readFps F ctx.root = .ok (some (k:ℚ))) (hf' : readFps F ctx'.root = .ok (some (k:ℚ)))
    (hp : ctx.hasParent = true) (hp' : ctx'.hasParent = true) {v : Node} (h : Sung k v) (hx : v.XmlOk F) :
    ∃ s, Sang.unAnimate F ctx v = (.tag "string" [] [.text s], .ok ()) ∧
      Sang.unAnimate F ctx' (v.opened F) = ((Node.tag "string" [] [.text s]).opened F, .ok ()) ∧
      (Node.tag "string" [] [.text s]).XmlOk F := by
  obtain ⟨us, rfl, hus, u, r, rfl, hu0⟩ := h
  have h1 := waypoints_held (ctx := ctx) hf hus
  obtain ⟨us', h2, h3⟩ := waypoints_held_opened hF (ctx := ctx') hk hk6 hf' hus hx
  cases h3 with
  | @cons _ u' _ r' hu hr =>
    rw [List.foldl_cons, putWp] at h1 h2
    obtain ⟨b, s, b', s', e1, e2, e3⟩ := first_related hr (r := []) (r' := []) hu0 (hu.2.2 hu0) hu.1
    rw [e1] at h1
    rw [e2] at h2
    have hb : b ∈ u :: r := by
      have : b ∈ r.foldl (fun d w => putWp w d) [u] := by rw [e1]; simp
      rcases mem_foldl_putWp this with h | h
      · simp [h]
      · simp [List.mem_singleton.1 h]
    obtain ⟨t, ht⟩ := (hus b hb).1
    refine ⟨t, ?_, ?_, ?_⟩
    · rw [Sang.unAnimate, if_neg (by simp [Node.name]), h1]
      simp only [hp, if_true, ht]
    · rw [Sang.unAnimate, if_neg (by rw [opened_name]; simp [Node.name]), h2]
      simp only [hp', if_true, e3, ht]
    · rw [← ht]
      have hbx : b.tag.XmlOk F := XmlOk.kid hx (List.mem_map_of_mem hb)
      exact XmlOk.kid (n := "waypoint") hbx (by simp)

theorem legal_opened {F : Fl} {ty : Str} {v : Node} (hx : v.XmlOk F) (h : Legal ty v) : Legal ty (v.opened F) := by
  obtain ⟨h1, h2, h3, c, h4⟩ := h
  refine ⟨?_, by rw [opened_name]; exact h2, by rw [opened_name]; exact h3, c, opened_fromTag hx h4⟩
  cases v with
  | text s => cases h1
  | tag => rw [opened_tag]; rfl

theorem tidy_tagKids {v x : Node} (hv : v.Tidy) (hx : x ∈ v.tagKids) : x.Tidy := by
  cases v with
  | text s => cases hx
  | tag n a ks =>
    obtain ⟨i, hi⟩ := List.mem_iff_getElem?.1 (List.mem_filter.1 hx).1
    exact tidy_at (p := [i]) hv (by rw [nodeAt_cons, hi]; rfl)

/-- The times in what has been read from a file. -/
theorem Node.Tidy.savable {v x : Node} (hv : v.Tidy) (hx : x ∈ waypointTags v) {f : Option ℚ} :
    ∀ a, x.attrs.get "time" = some a → SavableTime f a := by
  rw [waypointTags] at hx
  split at hx
  · cases hx
  have hxt := tidy_tagKids hv hx
  intro b hb
  cases x with
  | text s => cases hb
  | tag m c ks =>
    have hm : ("time", b) ∈ c := by
      rw [Node.attrs, Attrs.get] at hb
      obtain ⟨l1, l2, rfl, -⟩ := List.lookup_eq_some_iff.1 hb
      simp
    obtain ⟨-, v, hv, h1, h2, h3, h4⟩ := hxt.2.1.2 _ hm
    simp only at hv
    rw [hv]
    refine .text fun c hc => ⟨?_, ?_, ?_⟩ <;> rintro rfl <;> contradiction

theorem waypoints_opened {F : Fl} (hF : F.Lawful) {ctx ctx' : Ctx} {f : Option ℚ} (hf : readFps F ctx.root = .ok f)
    (hf' : readFps F ctx'.root = .ok f) {v : Node} (hn : v.XmlOk F) {ws : List Waypoint}
    (hw : waypoints F ctx v = .ok ws)
    (hs : ∀ x ∈ waypointTags v, ∀ a, x.attrs.get "time" = some a → SavableTime f a) :
    waypoints F ctx' (v.opened F) = .ok (ws.map fun w => {w with val := w.val.opened F}) := by
  have htags : waypointTags (v.opened F) = (waypointTags v).map (Node.opened F) := by
    rw [waypointTags, waypointTags, opened_name, opened_tagKids]
    split <;> rfl
  have hsub : ∀ x ∈ waypointTags v, x ∈ v.tagKids := by
    intro x hx
    rw [waypointTags] at hx
    split at hx
    · simp at hx
    · exact hx
  rw [waypoints] at hw
  split at hw
  · next he =>
    injection hw with hw; subst hw
    rw [waypoints, htags, he]; rfl
  · next hne =>
    split at hw
    · cases hw
    next ty hty =>
    split at hw
    · cases hw
    next l hl =>
    injection hw with hw
    have hne' : ¬ waypointTags (v.opened F) = [] := by simpa [htags] using hne
    have hm : mapRes (Waypoint.fromTag F ctx'.root (attrSpaces ty)) ((waypointTags v).map (Node.opened F)) =
        .ok (l.map fun w => {w with val := w.val.opened F}) :=
      mapRes_reload hl fun x hx w hw =>
        (fromTag_waypoint_opened hF hf hf' (xmlOk_tagKids hn x (hsub x hx)) hw (hs x hx)).1
    rw [waypoints, if_neg hne']
    simp only [opened_strAttr hn hty, htags, hm]
    rw [← hw]
    exact congrArg Except.ok (foldl_putWp_map (Node.opened F) l [])

/-- C151. A text can be un-animated after it is saved and opened as it could be before, and what is left is the same. -/
theorem TextKind.opened {F : Fl} (hF : F.Lawful) {ctx ctx' : Ctx} {k : ℕ} (hk : 1 ≤ k) (hk6 : k < 10 ^ 6)
    (hf : readFps F ctx.root = .ok (some (k:ℚ))) (hf' : readFps F ctx'.root = .ok (some (k:ℚ)))
    (hp : ctx.hasParent = true) (hp' : ctx'.hasParent = true) {v : Node} (h : TextKind k v) (hx : v.XmlOk F)
    (hr : Ready F ctx v) :
    Ready F ctx' (v.opened F) ∧ (Sang.unAnimate F ctx' (v.opened F)).1 = (Sang.unAnimate F ctx v).1.opened F ∧
    TextKind k (Sang.unAnimate F ctx v).1 := by
  rcases h with h | h | ⟨s, rfl⟩
  · by_cases hn : v.name = "animated"
    · obtain ⟨h1, h2⟩ := hr
      rw [Sang.unAnimate, if_neg (by simpa using hn)] at h1 h2
      split at h1
      · cases h1
      · cases h1
      next w ws hw =>
      simp only [hw, hp, if_true] at h1 h2
      have hw' := waypoints_opened hF (ctx' := ctx') hf hf' hx hw fun x hx => h.savable hx
      obtain ⟨y, hy, hyv⟩ := waypoints_val hw w (by simp)
      have hvx : w.val.XmlOk F := xmlOk_tagKids (xmlOk_tagKids hx y hy) _ hyv
      have e1 : Sang.unAnimate F ctx v = (w.val, .ok ()) := by
        rw [Sang.unAnimate, if_neg (by simpa using hn), hw]
        simp only [hp, if_true]
      have e2 : Sang.unAnimate F ctx' (v.opened F) = (w.val.opened F, .ok ()) := by
        rw [Sang.unAnimate, if_neg (by rw [opened_name]; simpa using hn), hw']
        simp only [hp', if_true, List.map_cons]
      rw [Ready, e1, e2]
      exact ⟨⟨rfl, legal_opened hvx h2⟩, rfl, .inl (tidy_tagKids (tidy_tagKids h hy) hyv)⟩
    · have e1 : Sang.unAnimate F ctx v = (v, .ok ()) := by rw [Sang.unAnimate, if_pos hn]
      have e2 : Sang.unAnimate F ctx' (v.opened F) = (v.opened F, .ok ()) := by
        rw [Sang.unAnimate, if_pos (by rw [opened_name]; exact hn)]
      rw [Ready, e1] at hr
      rw [Ready, e1, e2]
      exact ⟨⟨rfl, legal_opened hx hr.2⟩, rfl, .inl h⟩
  · obtain ⟨s, e1, e2, hsx⟩ := h.unAnimate hF hk hk6 hf hf' hp hp' hx
    rw [Ready, e1, e2]
    exact ⟨⟨rfl, legal_opened hsx (held_legal s)⟩, rfl, .inr (.inr ⟨s, rfl⟩)⟩
  · have e1 : Sang.unAnimate F ctx (.tag "string" [] [.text s]) = (.tag "string" [] [.text s], .ok ()) := by
      rw [Sang.unAnimate, if_pos (by simp [Node.name])]
    have e2 : Sang.unAnimate F ctx' ((Node.tag "string" [] [.text s]).opened F) =
        ((Node.tag "string" [] [.text s]).opened F, .ok ()) := by
      rw [Sang.unAnimate, if_pos (by rw [opened_name]; simp [Node.name])]
    rw [Ready, e1, e2]
    exact ⟨⟨rfl, legal_opened hx (held_legal s)⟩, rfl, .inr (.inr ⟨s, rfl⟩)⟩

theorem noAdj_tags {ks : List Node} (h : ∀ x ∈ ks, x.isTag = true) : NoAdj ks := by
  refine List.Pairwise.isChain ?_
  rw [List.pairwise_iff_forall_sublist]
  intro x y hxy
  exact .inl (h x (hxy.subset (by simp)))

/-- All are written and read as they are, but for times. -/
theorem TextKind.clean {k : ℕ} {v : Node} (h : TextKind k v) : Clean v := by
  have hs : ∀ s, Clean (.tag "string" [] [.text s]) := fun s => ⟨by simp [CleanAttrs], .inr ⟨s, rfl⟩, trivial, trivial⟩
  rcases h with h | h | ⟨s, rfl⟩
  · exact h.clean
  · obtain ⟨us, rfl, hus, -⟩ := h
    have htag : ∀ x ∈ us.map Waypoint.tag, x.isTag = true := by
      intro x hx
      obtain ⟨u, -, rfl⟩ := List.mem_map.1 hx
      rfl
    refine ⟨?_, .inl ⟨?_, ?_⟩, cleanAll_iff.2 ?_⟩
    · intro p hp _
      rw [List.mem_singleton.1 hp]
      exact ⟨_, rfl, by decide⟩
    · exact noAdj_tags htag
    · intro s hm
      exact absurd (htag _ hm) (by simp [Node.isTag])
    · intro x hx
      obtain ⟨u, hu, rfl⟩ := List.mem_map.1 hx
      obtain ⟨⟨s, hs'⟩, hb, ha, -⟩ := hus u hu
      refine ⟨?_, ?_, ?_⟩
      · intro p hp hne
        simp only [List.mem_cons, List.not_mem_nil, or_false] at hp
        rcases hp with rfl | rfl | rfl
        · exact absurd rfl hne
        · exact ⟨_, rfl, by rw [hb]; decide⟩
        · exact ⟨_, rfl, by rw [ha]; decide⟩
      · rw [hs']
        refine .inl ⟨?_, ?_⟩
        · exact noAdj_tags (by simp [Node.isTag])
        · intro s hm; simp at hm
      · rw [hs']
        exact ⟨hs s, trivial⟩
  · exact hs s

/-! ## What bywords makes is so -/

/-- A text made by bywords, with waypoints in order. -/
def Tracked (P : Waypoint → Prop) (v : Node) : Prop :=
  ∃ us : List Waypoint, v = .tag "animated" [("type", .str "string".toList)] (us.map Waypoint.tag) ∧
    (∀ u ∈ us, P u) ∧ us.Pairwise fun a b => a.time.frames ≤ b.time.frames

theorem sortWps_sorted (ws : List Waypoint) : (sortWps ws).Pairwise fun a b => a.time.frames ≤ b.time.frames := by
  have : Std.Total fun a b : Waypoint => a.time.frames ≤ b.time.frames := ⟨fun a b => le_total _ _⟩
  have : IsTrans Waypoint fun a b : Waypoint => a.time.frames ≤ b.time.frames := ⟨fun a b c h h' => le_trans h h'⟩
  exact List.pairwise_insertionSort _ ws

theorem tracked_setConstant {F : Fl} {ctx : Ctx} {k : ℕ} (hf : readFps F ctx.root = .ok (some (k:ℚ))) {time s : Str}
    {q : ℚ} (ht : T.new F ctx.root (.str (time ++ ['s'])) = .ok ⟨q, some (k:ℚ)⟩) (hq : Written q k) {v : Node}
    (hv : Legal "string".toList v ∨ Tracked (Held k) v) (h : (setConstant F ctx time s v).2 = .ok ()) :
    Tracked (Held k) (setConstant F ctx time s v).1 := by
  have hnew : newValue F .string (.str s) = .ok (.tag "string" [] [.text s]) := rfl
  have hc : checkInterp "constant".toList = .ok "constant".toList := by decide +kernel
  have hw : Waypoint.new F none (.t ⟨q, some (k:ℚ)⟩) (.val .string none (.tag "string" [] [.text s]))
      "constant".toList "constant".toList =
      .ok ⟨⟨q, some (k:ℚ)⟩, "constant".toList, "constant".toList, .tag "string" [] [.text s]⟩ := by
    simp only [Waypoint.new, hc]
    rfl
  simp only [setConstant, hnew, ht, hw] at h ⊢
  set w : Waypoint := ⟨⟨q, some (k:ℚ)⟩, "constant".toList, "constant".toList, .tag "string" [] [.text s]⟩ with hwd
  have hP : Held k w := ⟨⟨s, rfl⟩, rfl, rfl, q, rfl, hq⟩
  rcases hv with hv | hv
  · rw [addWaypoints_legal (m := (addWaypoints F ctx .string [w] true v).1) hv (Prod.ext rfl h)]
    exact ⟨[w], rfl, fun u hu => by rw [List.mem_singleton.1 hu]; exact hP, List.pairwise_singleton _ _⟩
  · obtain ⟨us, rfl, hus, -⟩ := hv
    rw [addWaypoints, waypoints_held hf hus] at h ⊢
    simp only at h ⊢
    split at h
    · cases h
    rename_i hd
    rw [if_neg hd]
    simp only [if_true] at h ⊢
    split at h
    · cases h
    rename_i kept hk
    have han : animate F ctx .string (.tag "animated" [("type", .str "string".toList)] (us.map Waypoint.tag)) =
        (.tag "animated" [("type", .str "string".toList)] (us.map Waypoint.tag), .ok ()) := by
      rw [animate, if_pos (by rfl)]
    simp only [han] at h ⊢
    split at h
    · cases h
    rename_i h1
    rw [if_neg h1]
    split at h
    · cases h
    rename_i h2
    rw [if_neg h2]
    refine ⟨_, rfl, ?_, sortWps_sorted _⟩
    intro u hu
    have hu := (List.perm_insertionSort _ _).mem_iff.1 hu
    rcases mem_foldl_putWp hu with hu | hu
    · rcases mem_foldl_putWp hu with hu | hu
      · rw [List.mem_singleton.1 hu]; exact hP
      · cases hu
    · rcases mem_foldl_putWp (mem_delClashes hk hu) with hu | hu
      · exact hus u hu
      · cases hu

theorem tracked_setWords {F : Fl} (hF : F.Lawful) {ctx : Ctx} {k : ℕ} (hf : readFps F ctx.root = .ok (some (k:ℚ)))
    {words : List WordTiming} (hw : ∀ w ∈ words, F.rep w.time ∧ Plain10 w.time ∧ Written (F.rnd (w.time * k)) k) {v : Node}
    (hv : Tracked (Held k) v) (h : (setWords F ctx words v).2 = .ok ()) :
    Tracked (Held k) (setWords F ctx words v).1 := by
  induction words generalizing v with
  | nil => exact hv
  | cons w ws ih =>
    obtain ⟨w1, w2, w3⟩ := hw w (by simp)
    rw [setWords] at h ⊢
    cases hc : setConstant F ctx (reprF F w.time) w.text v with
    | mk m o =>
      simp only [hc] at h ⊢
      cases o with
      | error e => cases h
      | ok u =>
        have := tracked_setConstant (F := F) (ctx := ctx) hf (time := reprF F w.time) (s := w.text)
          (new_seconds hF hf w1 w2) w3 (Or.inr hv) (by rw [hc])
        rw [hc] at this
        exact ih (fun x hx => hw x (by simp [hx])) this h

theorem written_zero (k : ℕ) : Written 0 k := ⟨le_rfl, by norm_num, .inl (by simp [pastSecond])⟩

/-- C151. What bywords makes of a text. -/
theorem sung_adjust {F : Fl} (hF : F.Lawful) {ctx : Ctx} {k : ℕ} (hf : readFps F ctx.root = .ok (some (k:ℚ)))
    (hp : ctx.hasParent = true) {x : ℕ × ℕ} {words : List WordTiming}
    (hw : ∀ w ∈ words, F.rep w.time ∧ Plain10 w.time ∧ Written (F.rnd (w.time * k)) k) {v : Node}
    (hv : Legal "string".toList v) :
    (adjustText F ctx x words v).2 = .ok () ∧ Sung k (adjustText F ctx x words v).1 := by
  obtain ⟨a1, a2⟩ := c93_adjust_partial hF hf hp hv x (words := words) fun w hwm _ => ⟨(hw w hwm).1, (hw w hwm).2.1⟩
  refine ⟨a1, ?_⟩
  have ht : Tracked (Held k) (adjustText F ctx x words v).1 := by
    have h := a1
    rw [adjustText] at h ⊢
    cases hc : setConstant F ctx ['0'] [] v with
    | mk m o =>
      simp only [hc] at h ⊢
      cases o with
      | error e => cases h
      | ok u =>
        have := tracked_setConstant (F := F) (ctx := ctx) hf (time := ['0']) (s := []) (new_zero_seconds hF hf)
          (written_zero k) (Or.inl hv) (by rw [hc])
        rw [hc] at this
        exact tracked_setWords hF hf (fun w hwm => hw w (List.mem_filter.1 hwm).1) this h
  obtain ⟨us, hus, hall, hsort⟩ := ht
  obtain ⟨ws, hws, -, hl⟩ := a2.read
  rw [hus, waypoints_held hf hall] at hws
  injection hws with hws
  obtain ⟨e, he⟩ := Option.ne_none_iff_exists'.1 (setAll_some (m := TMap.empty.set 0 (heldText [])) (q := 0)
    ((words.filter fun w => w.item = x).map fun w => (F.rnd (w.time * (k:ℚ)), heldText w.text)) (by simp [TMap.set]))
  obtain ⟨w, hwm, hw0, -⟩ := (hl 0 e).1 he
  rw [← hws] at hwm
  have hwu : w ∈ us := by
    rcases mem_foldl_putWp hwm with h | h
    · exact h
    · cases h
  cases us with
  | nil => cases hwu
  | cons u r =>
    refine ⟨u :: r, hus, hall, u, r, rfl, ?_⟩
    obtain ⟨-, -, -, q, hq, hq0, -⟩ := hall u (by simp)
    have h1 : u.time.frames ≤ w.time.frames := by
      rcases List.mem_cons.1 hwu with rfl | h
      · exact le_rfl
      · exact (List.pairwise_cons.1 hsort).1 w h
    have h2 : 0 ≤ u.time.frames := by rw [hq]; exact hq0
    have h3 : w.time.frames = 0 := hw0
    linarith

end Sang
