import Verif.Props.WaypointRules

/-! # Animating and un-animating: properties C39, C79–C82 -/

namespace Sang

open Spec

/-! ## C39 -/

/-- `value.is_animated = True` on an element `n` in `ctx`, then `False`: the first gives one
waypoint at time zero, holding `v`; the second gives `v` itself. -/
def AnimatesThrough (F : Fl) (ctx : Ctx) (c : VCls) (n v : Node) : Prop :=
  (setAnimated F ctx c true n).2 = .ok () ∧
  (∃ f, iterTimeline F ctx (setAnimated F ctx c true n).1 =
    .ok [⟨⟨0, f⟩, "clamped".toList, "clamped".toList, v⟩]) ∧
  setAnimated F ctx c false (setAnimated F ctx c true n).1 = (v, .ok ())

theorem new_zero {F : Fl} (hF : F.Lawful) {root : Option Attrs} {f : Option ℚ}
    (hf : readFps F root = .ok f) : T.new F root (.num 0) = .ok ⟨0, f⟩ := by
  simp only [T.new, hf, hF.zero, framesOfNumber, lt_irrefl, if_false]

/-- Exactly what is in a timeline with one entry. -/
theorem waypoints_single {F : Fl} {ctx : Ctx} {f : Option ℚ} {ty : Str} {n : Node} {q : ℚ} {e : Entry}
    (hf : readFps F ctx.root = .ok f) (h : TimelineIs F ctx ty n (TMap.empty.set q e)) :
    waypoints F ctx n = .ok [⟨⟨q, f⟩, e.before, e.after, e.value⟩] := by
  obtain ⟨_, htype, ws, hread, hnn, hlist⟩ := h
  obtain ⟨i1, i2, i3⟩ := waypoints_inv hf htype hread
  have hall : ∀ w ∈ ws, w = ⟨⟨q, f⟩, e.before, e.after, e.value⟩ := by
    intro w hw
    have h1 := (hlist w.time.frames w.entry).2 ⟨w, hw, rfl, rfl⟩
    simp only [TMap.set, TMap.empty] at h1
    split at h1
    · next hq =>
      injection h1 with h1
      have hwf := i1 w hw
      obtain ⟨⟨wq, wf⟩, b, a, v⟩ := w
      simp only [Waypoint.entry] at hq hwf h1
      subst hq hwf h1
      rfl
    · simp at h1
  rw [hread]
  obtain ⟨w, hw, _⟩ := (hlist q e).1 (by simp [TMap.set])
  match ws, hall, i2, hw with
  | [x], hall, _, _ => rw [hall x (by simp)]
  | x :: y :: r, hall, i2, _ =>
    have := (List.pairwise_cons.1 i2).1 y (by simp)
    rw [hall x (by simp), hall y (by simp)] at this
    exact absurd rfl this

/-- Animating stores what the class makes from the present value. -/
theorem animatesThrough {F : Fl} (hF : F.Lawful) {ctx : Ctx} {c : VCls} {f : Option ℚ} {ty : Str}
    {n v : Node} {p : PV} (hf : readFps F ctx.root = .ok f) (hp : ctx.hasParent = true)
    (hn : Legal ty n) (hval : getValue F ctx.root c n = .ok p) (hpv : ∀ c' root m, p ≠ .val c' root m)
    (hnew : newValue F c p = .ok v) (hv : Legal ty v) :
    AnimatesThrough F ctx c n v := by
  obtain ⟨htag, hna, hname, _⟩ := hn
  have htype : ourType n = .ok ty := by simp [ourType, hna, hname]
  have hst := startAnimation_tag htag
  have hsn := startAnimation_name htag
  have hsty := startAnimation_type htag htype
  have h1 : ((startAnimation n).setKids []).name = "animated" := by rw [setKids_name, hsn]
  have h2 : ((startAnimation n).setKids []).isTag = true := by rw [setKids_tag, hst]
  have h3 : ourType ((startAnimation n).setKids []) = .ok ty := by
    rw [ourType_animated h1, setKids_strAttr, hsty]
  have h4 : waypoints F ctx ((startAnimation n).setKids []) = .ok [] :=
    waypoints_empty F ctx (setKids_kids hst [])
  have ht : TimelineIs F ctx ty ((startAnimation n).setKids []) TMap.empty :=
    ⟨h2, h3, [], h4, by simp, by intro q e; simp [TMap.empty]⟩
  have hput : Puts F c ty (.py p) ⟨"clamped".toList, "clamped".toList, v⟩ := .python hpv hnew hv
  obtain ⟨w, w1, w2, w3, w4, w5⟩ := puts_spec (ctx := ctx) hput ⟨0, f⟩
  obtain ⟨s1, s2, s3⟩ := setItem_spec hf ht (t := .num 0) (new_zero hF hf) rfl le_rfl w1 w3 w4 w5
  have ha : setAnimated F ctx c true n =
      setItem F ctx c (.num 0) (.py p) ((startAnimation n).setKids []) := by
    simp only [setAnimated, if_true, animate, if_neg hna, hval]
  rw [w2] at s2
  have hw := waypoints_single hf s2
  simp only [AnimatesThrough]
  rw [ha]
  refine ⟨s1, ⟨f, ?_⟩, ?_⟩
  · simp only [iterTimeline, hw]; rfl
  · have hanim := animated_of_waypoints hw (by simp)
    simp only [setAnimated, Bool.false_eq_true, if_false, unAnimate, hanim, ne_eq, not_true_eq_false,
      hw, hp, if_true]

/-- C39. Setting `is_animated` to what it already is changes nothing. -/
theorem c39_no_op (F : Fl) (ctx : Ctx) (c : VCls) (n : Node) :
    setAnimated F ctx c (decide (n.name = "animated")) n = (n, .ok ()) := by
  by_cases h : n.name = "animated"
  · simp [setAnimated, h, animate]
  · simp [setAnimated, h, unAnimate]

/-- C39 for integers and booleans: the value is the same at each stage. -/
theorem c39_integer {F : Fl} (hF : F.Lawful) {ctx : Ctx} {f : Option ℚ} {n : Node} {i : ℤ}
    (hf : readFps F ctx.root = .ok f) (hp : ctx.hasParent = true) (hn : Legal "integer".toList n)
    (hi : getInt n = .ok i) :
    ∃ v, AnimatesThrough F ctx .integer n v ∧ getInt v = .ok i := by
  have h : setValue F .integer (.int i) (emptyTag .integer) =
      (.tag "integer" [("value", .str (intStr i))] [], .ok ()) := by
    simp only [setValue]; exact setSimple_ok rfl rfl rfl rfl
  have hnew : newValue F .integer (.int i) = .ok (.tag "integer" [("value", .str (intStr i))] []) := by
    simp only [newValue, construct, h]
  exact ⟨_, animatesThrough hF hf hp hn (by simp only [getValue, hi]) (by simp) hnew
    (newValue_legal hnew (by simp)), pyInt_intStr i⟩

/-- C39 for booleans. -/
theorem c39_bool {F : Fl} (hF : F.Lawful) {ctx : Ctx} {f : Option ℚ} {n : Node} {b : Bool}
    (hf : readFps F ctx.root = .ok f) (hp : ctx.hasParent = true) (hn : Legal "bool".toList n)
    (hb : getBool n = .ok b) :
    ∃ v, AnimatesThrough F ctx .bool n v ∧ getBool v = .ok b := by
  have h : setValue F .bool (.bool b) (emptyTag .bool) =
      (.tag "bool" [("value", .str (boolStr b))] [], .ok ()) := by
    simp only [setValue]; exact setSimple_ok rfl rfl rfl rfl
  have hnew : newValue F .bool (.bool b) = .ok (.tag "bool" [("value", .str (boolStr b))] []) := by
    simp only [newValue, construct, h]
  refine ⟨_, animatesThrough hF hf hp hn (by simp only [getValue, hb]) (by simp) hnew
    (newValue_legal hnew (by simp)), ?_⟩
  cases b <;> rfl

theorem pyFloat_rep {F : Fl} (hF : F.Lawful) {s : Str} {q : ℚ} (h : pyFloat F s = .ok q) : F.rep q := by
  simp only [pyFloat] at h
  split at h
  · simp at h
  · split at h
    · simp at h
    · split at h
      · simp at h
      · split at h
        · simp at h
        · injection h with h; rw [← h]; exact hF.idem _

theorem getFloat_rep {F : Fl} (hF : F.Lawful) {n : Node} {q : ℚ} (h : getFloat F n = .ok q) :
    F.rep q := by
  simp only [getFloat] at h
  split at h
  · simp at h
  · exact pyFloat_rep hF h

/-- C39 for angles. -/
theorem c39_angle {F : Fl} (hF : F.Lawful) {ctx : Ctx} {f : Option ℚ} {n : Node} {q : ℚ}
    (hf : readFps F ctx.root = .ok f) (hp : ctx.hasParent = true) (hn : Legal "angle".toList n)
    (hq : getFloat F n = .ok q) :
    ∃ v, AnimatesThrough F ctx .angle n v ∧ getFloat F v = .ok q := by
  have h : setValue F .angle (.float q) (emptyTag .angle) =
      (.tag "angle" [("value", .str (reprF F q))] [], .ok ()) := by
    simp only [setValue]; exact setSimple_ok rfl rfl rfl rfl
  have hnew : newValue F .angle (.float q) = .ok (.tag "angle" [("value", .str (reprF F q))] []) := by
    simp only [newValue, construct, h]
  refine ⟨_, animatesThrough hF hf hp hn (by simp only [getValue, hq]) (by simp) hnew
    (newValue_legal hnew (by simp)), ?_⟩
  simp only [getFloat, simpleText_tag]
  exact pyFloat_reprF hF (getFloat_rep hF hq)

/-- C39 for strings. -/
theorem c39_string {F : Fl} (hF : F.Lawful) {ctx : Ctx} {f : Option ℚ} {n : Node}
    (hf : readFps F ctx.root = .ok f) (hp : ctx.hasParent = true) (hn : Legal "string".toList n) :
    ∃ v, AnimatesThrough F ctx .string n v ∧ getString v = getString n := by
  have hnew : newValue F .string (.str (getString n)) =
      .ok (.tag "string" [] [.text (getString n)]) := rfl
  exact ⟨_, animatesThrough hF hf hp hn (by simp only [getValue]) (by simp) hnew
    (newValue_legal hnew (by simp)), rfl⟩

/-- C39 for reals, as far as it holds: a real in a document is kept to ten decimals, and exactly if
it is one that the library stored. -/
theorem c39_real_partial {F : Fl} (hF : F.Lawful) {ctx : Ctx} {f : Option ℚ} {n : Node} {q : ℚ}
    (hf : readFps F ctx.root = .ok f) (hp : ctx.hasParent = true) (hn : Legal "real".toList n)
    (hq : getFloat F n = .ok q) :
    ∃ v q', AnimatesThrough F ctx .real n v ∧ getFloat F v = .ok q' ∧
      |q' - q| ≤ 1 / (2 * 10 ^ 10) + (|q| + 1 / (2 * 10 ^ 10)) / 2 ^ 53 ∧
      ((∃ x m, F.rep x ∧ m.isTag = true ∧ n = (setValue F .real (.float x) m).1) → q' = q) := by
  have h := setReal_ok (F := F) (n := emptyTag .real) rfl q
  have hnew : newValue F .real (.float q) = .ok (.tag "real" [("value", .str (fixed 10 q))] []) := by
    simp only [newValue, construct, h]
  obtain ⟨_, q', h1, h2, h3⟩ := c19_real_roundtrip hF (emptyTag .real) rfl q
  rw [h] at h1
  refine ⟨_, q', animatesThrough hF hf hp hn (by simp only [getValue, hq]) (by simp) hnew
    (newValue_legal hnew (by simp)), h1, h3, ?_⟩
  rintro ⟨x, m, hx, hm, rfl⟩
  obtain ⟨h4, _⟩ := c19_real_stable hF m hm x q hx hq
  rw [setReal_ok hm, setReal_ok rfl] at h4
  rw [h1] at h4
  injection h4

/-- C39 is violated for reals with more decimals: `0.00000000001` in a file becomes zero. -/
theorem c39_fine_real_lost :
    let F := double
    let ctx : Ctx := ⟨some exRoot, true⟩
    let n := exReal "0.00000000001"
    getFloat F n ≠ .ok 0 ∧ AnimatesThrough F ctx .real n (exReal "0.0000000000") ∧
    getFloat F (exReal "0.0000000000") = .ok 0 := by
  refine ⟨by decide +kernel, ⟨by decide +kernel, ⟨some 24, by decide +kernel⟩, by decide +kernel⟩,
    by decide +kernel⟩

/-- C39 for times at whole frames. -/
theorem c39_time {F : Fl} (hF : F.Lawful) {ctx : Ctx} {f : Option ℚ} {n : Node} {k : ℕ}
    (hf : readFps F ctx.root = .ok f) (hp : ctx.hasParent = true) (hn : Legal "time".toList n)
    (hk : k < 10 ^ 6) (ht : getTime F ctx.root n = .ok ⟨k, f⟩) :
    ∃ v, AnimatesThrough F ctx .time n v ∧ getTime F ctx.root v = .ok ⟨k, f⟩ := by
  have hk' : k < 2 ^ 53 := hk.trans (by norm_num)
  have htext : timeText F (.t ⟨k, f⟩) = .ok (natStr k ++ ['f']) := by
    have h0 : ¬ ((k:ℚ) < 0) := not_lt.2 (by positivity)
    have hk0 : (0:ℚ) ≤ k := by positivity
    simp only [timeText, PV.toTArg, T.new, readFps, framesOfNumber, if_neg h0, T.str]
    rw [fmtG_nat hk]
  have h : setValue F .time (.t ⟨k, f⟩) (emptyTag .time) =
      (.tag "time" [("value", .str (natStr k ++ ['f']))] [], .ok ()) := by
    simp only [setValue]; exact setSimple_ok rfl rfl rfl htext
  have hnew : newValue F .time (.t ⟨k, f⟩) =
      .ok (.tag "time" [("value", .str (natStr k ++ ['f']))] []) := by
    simp only [newValue, construct, h]
  refine ⟨_, animatesThrough hF hf hp hn (by simp only [getValue, ht]) (by simp) hnew
    (newValue_legal hnew (by simp)), ?_⟩
  simp only [getTime, simpleText_tag, T.new, hf, parseSpec_frames hF f k hk']

theorem hex2_lower : ∀ x : Fin 256, ∀ c ∈ hex2 (x.val : ℤ), c ∈ hexDigits ∧ lowerC c = c := by
  decide +kernel

theorem hex2_two' {i : ℤ} (h0 : 0 ≤ i) (h1 : i ≤ 255) :
    ∃ c d, hex2 i = [c, d] ∧ c ∈ hexDigits ∧ d ∈ hexDigits ∧ lowerC c = c ∧ lowerC d = d := by
  obtain ⟨c, d, h⟩ := hex2_two h0 h1
  obtain ⟨k, rfl⟩ := Int.eq_ofNat_of_zero_le h0
  have hl := hex2_lower ⟨k, by omega⟩
  rw [show hex2 ((⟨k, by omega⟩ : Fin 256).val : ℤ) = [c, d] from h] at hl
  have hc := hl c (by simp)
  have hd := hl d (by simp)
  exact ⟨c, d, h, hc.1, hd.1, hc.2, hd.2⟩

/-- The hex text of a colour whose components are between 0 and 1 is canonical text. -/
theorem hexOf_canonical {F : Fl} (hF : F.Lawful) {r g b a : ℚ}
    (hin : ∀ x ∈ [r, g, b, a], 0 ≤ x ∧ x ≤ 1) :
    ∃ ds, IsColorDigits ds ∧ hexOf F [r, g, b, a] = written true ds ∧
      canonical ds = written true ds := by
  simp only [List.mem_cons, List.not_mem_nil, or_false, forall_eq_or_imp, forall_eq] at hin
  obtain ⟨i1, i2, i3, i4⟩ := hin
  have l := fun {x : ℚ} (h : 0 ≤ x ∧ x ≤ 1) => level_range hF h.1 h.2
  obtain ⟨c1, d1, e1, m1, n1, p1, q1⟩ := hex2_two' (l i1).1 (l i1).2
  obtain ⟨c2, d2, e2, m2, n2, p2, q2⟩ := hex2_two' (l i2).1 (l i2).2
  obtain ⟨c3, d3, e3, m3, n3, p3, q3⟩ := hex2_two' (l i3).1 (l i3).2
  obtain ⟨c4, d4, e4, m4, n4, p4, q4⟩ := hex2_two' (l i4).1 (l i4).2
  rw [hexOf_four, e1, e2, e3, e4]
  simp only [List.cons_append, List.nil_append]
  rw [dropFF_eight]
  split
  · refine ⟨[c1, d1, c2, d2, c3, d3], ⟨?_, Or.inl rfl⟩, rfl, ?_⟩
    · simp only [List.mem_cons, List.not_mem_nil, or_false, forall_eq_or_imp, forall_eq]
      exact ⟨m1, n1, m2, n2, m3, n3⟩
    · simp [canonical, lower, written, p1, q1, p2, q2, p3, q3]
  · next hff =>
    refine ⟨[c1, d1, c2, d2, c3, d3, c4, d4], ⟨?_, Or.inr rfl⟩, rfl, ?_⟩
    · simp only [List.mem_cons, List.not_mem_nil, or_false, forall_eq_or_imp, forall_eq]
      exact ⟨m1, n1, m2, n2, m3, n3, m4, n4⟩
    · simp only [canonical, lower, List.map, p1, q1, p2, q2, p3, q3, p4, q4, List.drop, written]
      rw [if_neg (by simpa using hff)]
      rfl

/-- C39 for colours with components between 0 and 1: the colour stays equal to what it was (though
each component moves to the nearest of 256 levels). -/
theorem c39_color {F : Fl} (hF : F.Lawful) {ctx : Ctx} {f : Option ℚ} {n : Node} {r g b a : ℚ}
    (hf : readFps F ctx.root = .ok f) (hp : ctx.hasParent = true) (hn : Legal "color".toList n)
    (hc : colorTuple F n = .ok [r, g, b, a]) (hin : ∀ x ∈ [r, g, b, a], 0 ≤ x ∧ x ≤ 1) :
    ∃ v, AnimatesThrough F ctx .color n v ∧ colorEq F v n = .ok true := by
  obtain ⟨ds, hd, h1, h2⟩ := hexOf_canonical hF hin
  have hhex : colorHex F n = .ok (written true ds) := by simp only [colorHex, hc, h1]
  obtain ⟨g1, g2, _⟩ := c23_hex_roundtrip hF (emptyTag .color) rfl ds hd true
  have hnew : newValue F .color (.str (written true ds)) =
      .ok (setValue F .color (.str (written true ds)) (emptyTag .color)).1 := by
    simp only [newValue, construct, g1]
  refine ⟨_, animatesThrough hF hf hp hn (by simp only [getValue, hhex]) (by simp) hnew
    (newValue_legal hnew (by simp)), ?_⟩
  simp only [colorEq, g2, hhex, h2, decide_true]

theorem hex2_three {k : ℕ} (h1 : 256 ≤ k) (h2 : k < 4096) : (hex2 (k : ℤ)).length = 3 := by
  obtain ⟨m, rfl⟩ : ∃ m, k = m + 2 := ⟨k - 2, by omega⟩
  have e : hexRev (m + 2 + 1) (m + 2) =
      [hexC ((m + 2) % 16), hexC ((m + 2) / 16 % 16), hexC ((m + 2) / 16 / 16)] := by
    rw [hexRev, if_neg (by omega), hexRev, if_neg (by omega), hexRev, if_pos (by omega)]
  have hneg : ¬ ((m + 2 : ℕ) : ℤ) < 0 := by omega
  simp only [hex2, Int.natAbs_natCast, e, if_neg hneg]
  rfl

theorem dropFF_hash (s : Str) : dropFF ('#' :: s) = '#' :: (if ("ff".toList).isSuffixOf s then s.dropLast.dropLast else s) ∨
    s.length < 2 := by
  match s with
  | [] => exact Or.inr (by simp)
  | [a] => exact Or.inr (by simp)
  | a :: b :: r =>
    left
    have e : ("ff".toList).isSuffixOf ('#' :: a :: b :: r) = ("ff".toList).isSuffixOf (a :: b :: r) := by
      rw [Bool.eq_iff_iff, List.isSuffixOf_iff_suffix, List.isSuffixOf_iff_suffix, List.suffix_cons_iff]
      refine ⟨fun h => h.resolve_left fun h => ?_, Or.inr⟩
      have := congrArg List.length h
      simp at this
    rw [dropFF, e]
    split
    · cases r <;> simp [List.dropLast]
    · rfl

/-- A component which is over-bright: above one, but not above sixteen. -/
def Bright (F : Fl) (x : ℚ) : Prop := 256 ≤ level F x ∧ level F x < 4096

/-- A component between nought and one. -/
def Ordinary (F : Fl) (x : ℚ) : Prop := 0 ≤ level F x ∧ level F x ≤ 255

/-- C39 is violated for every over-bright colour, with just one component above one: `is_animated = True` raises
`ValueError`, but only when the element has been emptied, so the colour is lost. -/
theorem c39_bright_color_lost {F : Fl} (hF : F.Lawful) {ctx : Ctx} {f : Option ℚ} {n : Node} {r g b a : ℚ}
    (hf : readFps F ctx.root = .ok f) (hn : n.isTag = true ∧ n.name = "color")
    (hc : colorTuple F n = .ok [r, g, b, a]) (ha : Ordinary F a)
    (hb : (Bright F r ∧ Ordinary F g ∧ Ordinary F b) ∨ (Ordinary F r ∧ Bright F g ∧ Ordinary F b) ∨
      (Ordinary F r ∧ Ordinary F g ∧ Bright F b)) :
    setAnimated F ctx .color true n = (.tag "animated" [("type", .str "color".toList)] [], .error .value) := by
  have two : ∀ {x}, Ordinary F x → (hex2 (level F x)).length = 2 := fun h => by
    obtain ⟨c, d, e⟩ := hex2_two h.1 h.2; rw [e]; rfl
  have three : ∀ {x}, Bright F x → (hex2 (level F x)).length = 3 := fun {x} h => by
    obtain ⟨k, hk⟩ := Int.eq_ofNat_of_zero_le (show 0 ≤ level F x by have := h.1; omega)
    have h1 := h.1
    have h2 := h.2
    rw [hk] at h1 h2 ⊢
    exact hex2_three (by omega) (by omega)
  have hlen : ((hex2 (level F r) ++ hex2 (level F g) ++ hex2 (level F b) ++ hex2 (level F a))).length = 9 := by
    simp only [List.length_append]
    rcases hb with ⟨h1, h2, h3⟩ | ⟨h1, h2, h3⟩ | ⟨h1, h2, h3⟩
    · rw [three h1, two h2, two h3, two ha]
    · rw [two h1, three h2, two h3, two ha]
    · rw [two h1, two h2, three h3, two ha]
  obtain ⟨t, ht, htl⟩ : ∃ t, hexOf F [r, g, b, a] = '#' :: t ∧ (t.length = 9 ∨ t.length = 7) := by
    rw [hexOf_four]
    rcases dropFF_hash (hex2 (level F r) ++ hex2 (level F g) ++ hex2 (level F b) ++ hex2 (level F a)) with h | h
    · refine ⟨_, h, ?_⟩
      split
      · right; simp only [List.length_dropLast, hlen]
      · left; exact hlen
    · omega
  have hhex : colorHex F n = .ok ('#' :: t) := by simp only [colorHex, hc, ht]
  have harg : colorArg F (.str ('#' :: t)) = .error .value := by
    have : dropHash ('#' :: t) = t := rfl
    simp only [colorArg, this]
    rw [if_neg (by omega), if_neg (by omega)]
  obtain ⟨ht', hname⟩ := hn
  cases n with
  | text s => cases ht'
  | tag nm as ks =>
    obtain rfl : nm = "color" := hname
    have hnew : newValue F .color (.str ('#' :: t)) = .error .value := by
      simp only [newValue, construct, setValue, setColor, harg]
    have h0 : T.new F ctx.root (.num 0) = .ok ⟨0, f⟩ := new_zero hF hf
    simp only [setAnimated, animate, getValue, hhex, setItem, ensureFps, h0, makeWp, hnew]
    rfl

/-- Twice as bright as white, in red. -/
example : setAnimated double ⟨some exRoot, true⟩ .color true
      (.tag "color" [] [.tag "r" [] [.text "2.000000".toList], .tag "g" [] [.text "0.000000".toList],
        .tag "b" [] [.text "0.000000".toList], .tag "a" [] [.text "1.000000".toList]]) =
    (.tag "animated" [("type", .str "color".toList)] [], .error .value) := by
  decide +kernel

/-- C39 is violated without complaint if two components are over-bright: the digits of `2, 2, 0, 1` are taken for
other components. -/
theorem c39_two_bright_wrong :
    let n : Node := .tag "color" [] [.tag "r" [] [.text "2.000000".toList], .tag "g" [] [.text "2.000000".toList],
        .tag "b" [] [.text "0.000000".toList], .tag "a" [] [.text "1.000000".toList]]
    let m := setAnimated double ⟨some exRoot, true⟩ .color true n
    m.2 = .ok () ∧ colorTuple double n = .ok [2, 2, 0, 1] ∧
    colorTuple double (setAnimated double ⟨some exRoot, true⟩ .color false m.1).1 =
      .ok [double.rnd (121569 / 1000000), double.rnd (882353 / 1000000), double.rnd (996078 / 1000000), 0] := by
  decide +kernel

/-! ### Vectors -/

/-- A vector with these coordinates, as text. -/
def textVec (d : List (String × Str)) : Node :=
  .tag "vector" [] (d.map fun p => .tag p.1 [] [.text p.2])

theorem appendMembers_texts (F : Fl) (d : List (String × Str)) (ks : List Node) :
    appendMembers F (d.map fun p => (p.1, .str p.2)) (.tag "vector" [] ks) =
      (.tag "vector" [] (ks ++ d.map fun p => .tag p.1 [] [.text p.2]), .ok ()) := by
  induction d generalizing ks with
  | nil => simp [appendMembers]
  | cons p r ih =>
    simp only [List.map_cons, appendMembers, coordText, PV.toStr, Node.append, Node.new, Node.setString,
      Node.setKids]
    rw [ih]
    simp

theorem newVector_texts (F : Fl) (d : List (String × Str)) :
    newValue F .vector (.dict (d.map fun p => (p.1, .str p.2))) = .ok (textVec d) := by
  have : setValue F .vector (.dict (d.map fun p => (p.1, .str p.2))) (emptyTag .vector) =
      (textVec d, .ok ()) := by
    simp only [setValue, setVector, vectorArg, emptyTag, Node.new, Node.setName, Node.setAttrs]
    rw [appendMembers_texts]
    rfl
  simp only [newValue, construct, this]

theorem tagKids_textVec (d : List (String × Str)) :
    (textVec d).tagKids = d.map fun p => .tag p.1 [] [.text p.2] := by
  rw [textVec, tagKids_tag, List.filter_eq_self]
  intro x hx
  obtain ⟨p, _, rfl⟩ := List.mem_map.1 hx
  rfl

theorem vectorDict_textVec (d : List (String × Str)) (hd : (d.map Prod.fst).Nodup) :
    vectorDict (textVec d) = d.map fun p => (p.1, some p.2) := by
  rw [vectorDict, tagKids_textVec, List.foldl_map]
  have h2 := foldl_dictSet_nodup (d.map fun p => (p.1, some p.2)) []
    (by simpa [List.map_map, Function.comp_def] using hd)
  rw [List.foldl_map, List.nil_append] at h2
  exact h2

theorem vectorDict_keys (n : Node) : ((vectorDict n).map Prod.fst).Nodup ∧
    ∀ k, k ∈ (vectorDict n).map Prod.fst ↔ k ∈ kidNames n := by
  have h := foldl_dictSet_keys (n.tagKids.map fun x => (x.name, x.string?)) [] (by simp)
  rw [List.foldl_map] at h
  refine ⟨h.1, fun k => ?_⟩
  have := h.2 k
  simp only [List.map_map, Function.comp_def, List.map_nil, List.not_mem_nil, or_false] at this
  exact this

theorem isXY_congr {a b : List String} (h : ∀ k, k ∈ a ↔ k ∈ b) : isXY a = isXY b := by
  have h1 : a.all (fun s => s == "x" || s == "y") = b.all (fun s => s == "x" || s == "y") := by
    rw [Bool.eq_iff_iff]; simp only [List.all_eq_true, h]
  have h2 : ∀ k, a.contains k = b.contains k := by
    intro k; rw [Bool.eq_iff_iff]; simp only [List.contains_iff_mem, h]
  simp only [isXY, h1, h2]

/-- The coordinates as text, if each has some. -/
theorem all_texts {d : List (String × Option Str)} (h : ∀ p ∈ d, p.2 ≠ none) :
    ∃ e : List (String × Str), d = e.map fun p => (p.1, some p.2) := by
  induction d with
  | nil => exact ⟨[], rfl⟩
  | cons p r ih =>
    obtain ⟨e, he⟩ := ih fun q hq => h q (by simp [hq])
    obtain ⟨k, s⟩ := p
    obtain ⟨s, rfl⟩ := Option.ne_none_iff_exists'.1 (h (k, s) (by simp))
    exact ⟨(k, s) :: e, by simp [he]⟩

/-- C39 for vectors whose coordinates have text: the texts are the same, so `value`, `as_tuple` and
the rest are too. -/
theorem c39_vector {F : Fl} (hF : F.Lawful) {ctx : Ctx} {f : Option ℚ} {n : Node}
    (hf : readFps F ctx.root = .ok f) (hp : ctx.hasParent = true) (hn : Legal "vector".toList n)
    (ht : ∀ p ∈ vectorDict n, p.2 ≠ none) :
    ∃ v, AnimatesThrough F ctx .vector n v ∧ vectorDict v = vectorDict n ∧
      vectorTuple F v = vectorTuple F n := by
  obtain ⟨e, he⟩ := all_texts ht
  obtain ⟨k1, k2⟩ := vectorDict_keys n
  have hnd : (e.map Prod.fst).Nodup := by
    rw [he] at k1; simpa [List.map_map, Function.comp_def] using k1
  have hv : vectorDict (textVec e) = vectorDict n := by rw [vectorDict_textVec e hnd, he]
  have hval : getValue F ctx.root .vector n = .ok (.dict (e.map fun p => (p.1, .str p.2))) := by
    simp only [getValue, he, List.map_map, Function.comp_def]
  have hlegal : Legal "vector".toList (textVec e) := by
    obtain ⟨h1, h2, h3, c, h4⟩ := id hn
    have hname : n.name = "vector" := String.toList_injective h3
    refine ⟨rfl, (by decide : "vector" ≠ "animated"), rfl, .vector, ?_⟩
    have hx : isXY (kidNames n) = true := by
      by_contra hx
      have hreg : valueRegistry.fromName "vector".toList = .ok .vector := by decide +kernel
      have hf : fromTag n = .error .type := by
        simp only [fromTag, if_neg h2, h3, hreg, vectorCheck]
        rw [if_neg hx]
      rw [hf] at h4
      simp at h4
    have hx' : isXY (kidNames (textVec e)) = true := by
      rw [← hx]
      apply isXY_congr
      intro k
      rw [← k2, ← (vectorDict_keys (textVec e)).2, hv]
    exact fromTag_vector (n := textVec e) (by rfl) hx'
  refine ⟨_, animatesThrough hF hf hp hn hval (by simp) (newVector_texts F e) hlegal, hv, ?_⟩
  simp only [vectorTuple, hv]

/-- C39's hypotheses are met by ordinary values; a vector for instance. -/
example : Legal "vector".toList (textVec [("x", "1.5".toList), ("y", "-2".toList)]) ∧
    (∀ p ∈ vectorDict (textVec [("x", "1.5".toList), ("y", "-2".toList)]), p.2 ≠ none) ∧
    Legal "color".toList (colorNode (1/2) 1 0 1) ∧ Legal "time".toList (.tag "time" [("value", .str "2s".toList)] []) ∧
    getTime double (some exRoot) (.tag "time" [("value", .str "2s".toList)] []) = .ok ⟨(48:ℕ), some 24⟩ ∧
    readFps double (some exRoot) = .ok (some 24) := by
  refine ⟨⟨rfl, (by decide : "vector" ≠ "animated"), rfl, .vector, by decide +kernel⟩, by decide +kernel,
    legal_simple (c := .color) (by decide) (by decide) (by decide) (by decide),
    legal_simple (c := .time) (by decide) (by decide) (by decide) (by decide), by decide +kernel,
    by decide +kernel⟩

/-! ## C79: animating a transformation -/

/-- C79 is violated: for every readable transformation (whose angle is an `Angle`, as in every one
that Synfig writes), making it animated raises, and leaves an element with nothing in it. -/
theorem c79_animating_transformation_destroys {F : Fl} (hF : F.Lawful) {ctx : Ctx} {f : Option ℚ}
    (hf : readFps F ctx.root = .ok f) {n : Node} (hn : n.isTag = true) (hna : n.name ≠ "animated")
    {d : List (String × VCls × Node)} (hd : compositeDict n = .ok d) {an : Node}
    (ha : ("angle", VCls.angle, an) ∈ d) :
    ∃ e n', setAnimated F ctx .composite true n = (n', .error e) ∧ n'.kids = [] ∧
      n'.name = "animated" := by
  obtain ⟨n', e, h, _⟩ := c75_assigning_transformation_destroys F ctx.root n (emptyTag .composite) rfl d hd
    an ha
  have h' : setValue F .composite (.dict (d.map fun p => (p.1, .val p.2.1 ctx.root p.2.2)))
      (emptyTag .composite) = (n', .error e) := by
    rw [← h]
    simp only [setValue, setComposite, compositeArg, hd]
  have hnew : newValue F .composite (.dict (d.map fun p => (p.1, .val p.2.1 ctx.root p.2.2))) =
      .error e := by
    simp only [newValue, construct, h']
  refine ⟨e, (startAnimation n).setKids [], ?_, setKids_kids (startAnimation_tag hn) [], ?_⟩
  · simp only [setAnimated, if_true, animate, if_neg hna, getValue, hd, setItem, ensureFps,
      new_zero hF hf, makeWp, hnew]
  · rw [setKids_name, startAnimation_name hn]

/-- C79 on a concrete transformation. -/
example :
    let n : Node := .tag "composite" [("type", .str "transformation".toList)]
      [.tag "offset" [] [vecNode 1 2], .tag "angle" [] [angleNode double 30],
       .tag "skew_angle" [] [angleNode double 0], .tag "scale" [] [vecNode 1 1]]
    (∃ d, compositeDict n = .ok d ∧ ("angle", VCls.angle, angleNode double 30) ∈ d) ∧
    setAnimated double ⟨some exRoot, true⟩ .composite true n =
      (.tag "animated" [("type", .str "composite".toList)] [], .error .type) := by
  refine ⟨⟨_, rfl, by decide +kernel⟩, by decide +kernel⟩

/-! ## C80: adding nothing -/

/-- C80 is violated: `timeline.add([])` on a value that isn't animated leaves it animated with no
waypoints, so its value is lost, and it can't be un-animated. -/
theorem c80_add_nothing_loses_value {F : Fl} {ctx : Ctx} {c : VCls} {n : Node} (hn : n.isTag = true)
    {ty : Str} (hty : ourType n = .ok ty) (hna : n.name ≠ "animated")
    (han : (animate F ctx c n).2 = .ok ()) (ow : Bool) :
    (addWaypoints F ctx c [] ow n).2 = .ok () ∧
    (addWaypoints F ctx c [] ow n).1.kids = [] ∧ (addWaypoints F ctx c [] ow n).1.name = "animated" ∧
    setAnimated F ctx c false (addWaypoints F ctx c [] ow n).1 =
      ((addWaypoints F ctx c [] ow n).1, .error .index) := by
  obtain ⟨t1, t2, t3⟩ := animate_tag hn hty han
  have hsplit : animate F ctx c n = ((animate F ctx c n).1, .ok ()) := Prod.ext rfl han
  have h : addWaypoints F ctx c [] ow n = ((animate F ctx c n).1.setKids [], .ok ()) := by
    simp only [addWaypoints, waypoints_static F ctx hna, List.any_nil, Bool.false_eq_true, if_false]
    have hc : clashes [] [] = [] := rfl
    have hr : rateClash [] = false := rfl
    have hs : sortWps [] = [] := rfl
    have hk : (if ow = true then delClashes (clashes [] []) [] else
        if clashes [] [] = [] then (.ok [] : Res (List Waypoint)) else .error .value) = .ok [] := by
      cases ow <;> rfl
    rw [hk]
    simp only
    rw [hsplit]
    simp only [List.foldl_nil, hr, Bool.false_eq_true, if_false, hs, List.map_nil]
  rw [h]
  have hk : ((animate F ctx c n).1.setKids []).kids = [] := setKids_kids t1 []
  have hnm : ((animate F ctx c n).1.setKids []).name = "animated" := by rw [setKids_name, t2]
  refine ⟨rfl, hk, hnm, ?_⟩
  simp only [setAnimated, Bool.false_eq_true, if_false, unAnimate, hnm, ne_eq, not_true_eq_false,
    waypoints_empty F ctx hk]

/-- C80 on a concrete real. -/
example :
    (animate double ⟨some exRoot, true⟩ .real (exReal "2.5")).2 = .ok () ∧
    addWaypoints double ⟨some exRoot, true⟩ .real [] false (exReal "2.5") =
      (.tag "animated" [("type", .str "real".toList)] [], .ok ()) := by decide +kernel

/-! ## C81: comparing timelines -/

theorem wpsEq_iff {f g : Option ℚ} (hfg : f = none ∨ g = none ∨ f = g) :
    ∀ (ws ws' : List Waypoint), AllFps f ws → AllFps g ws' →
      wpsEq ws ws' = .ok (decide (ws.map (fun w => w.time.frames) = ws'.map fun w => w.time.frames))
  | [], [], _, _ => rfl
  | [], y :: s, _, _ => by simp [wpsEq]
  | x :: r, [], _, _ => by simp [wpsEq]
  | x :: r, y :: s, h, h' => by
    have hx := h x (by simp)
    have hy := h' y (by simp)
    have he : x.eq y = .ok (decide (x.time.frames = y.time.frames)) := by
      simp only [Waypoint.eq, T.eq, T.compare, hx, hy]
      rcases hfg with rfl | rfl | rfl
      · cases g <;> rfl
      · cases f <;> rfl
      · cases f <;> simp
    have ih := wpsEq_iff hfg r s (fun w hw => h w (by simp [hw])) fun w hw => h' w (by simp [hw])
    simp only [wpsEq, he]
    by_cases hf : x.time.frames = y.time.frames
    · simp only [hf, decide_true, ih, List.map_cons, List.cons.injEq, true_and]
    · simp [hf]

/-- C81 is violated: `==` on timelines (in animations with the same frame rate) looks at the times
only. Timelines with the same times in the same order are equal, whatever the values and
interpolations. -/
theorem c81_equality_is_of_times {F : Fl} {ctx ctx' : Ctx} {f : Option ℚ} {ty ty' : Str} {n m : Node}
    {ws ws' : List Waypoint} (hf : readFps F ctx.root = .ok f) (hf' : readFps F ctx'.root = .ok f)
    (hty : ourType n = .ok ty) (hty' : ourType m = .ok ty')
    (h : waypoints F ctx n = .ok ws) (h' : waypoints F ctx' m = .ok ws') :
    timelineEq F ctx ctx' n m =
      .ok (decide (ws.map (fun w => w.time.frames) = ws'.map fun w => w.time.frames)) := by
  obtain ⟨i1, _⟩ := waypoints_inv hf hty h
  obtain ⟨j1, _⟩ := waypoints_inv hf' hty' h'
  simp only [timelineEq, h, h']
  split
  · next hl =>
    have : ws.map (fun w => w.time.frames) ≠ ws'.map fun w => w.time.frames := by
      intro e; exact hl (by simpa using congrArg List.length e)
    simp [this]
  · exact wpsEq_iff (Or.inr (Or.inr rfl)) ws ws' i1 j1

/-- C81: two timelines which differ in everything but their times are equal. -/
theorem c81_equality_fails :
    let F := double
    let ctx : Ctx := ⟨some exRoot, true⟩
    let other := (setItem F ctx .real (.num 48) (.py (.float 7)) exTimeline).1
    waypoints F ctx other ≠ waypoints F ctx exTimeline ∧ timelineEq F ctx ctx other exTimeline = .ok true := by
  decide +kernel

end Sang
