import Verif.Props.Bywords
import Verif.Props.Registry
import Mathlib.Data.List.Lex

/-! # Putting the words on timelines, and choosing groups: properties C93 and C94 -/

namespace Sang

open Spec

/-! ## Times as seconds -/

/-- Between a ten thousandth and ten thousand million million, `str` uses no exponent. -/
theorem reprPos_numDot {F : Fl} (hF : F.Lawful) {q : ℚ} (hr : F.rep q) (h1 : (10:ℚ) ^ (-4:ℤ) ≤ q)
    (h2 : q < (10:ℚ) ^ (16:ℤ)) : reprPos F q ≠ [] ∧ ∀ c ∈ reprPos F q, isNumDot c = true := by
  have hq : 0 < q := lt_of_lt_of_le (by norm_num) h1
  have hsh := shortest_spec (F := F) q 16 1 (le_refl _) (seventeen hF hq hr)
  set n := shortest F q 16 1 with hn
  obtain ⟨hn1, hv⟩ := hsh
  have hlog1 : -4 ≤ Int.log 10 q := by
    rw [← Int.zpow_le_iff_le_log (by norm_num) hq]; exact_mod_cast h1
  have hlog2 : Int.log 10 q < 16 := by
    rw [← Int.lt_zpow_iff_log_lt (by norm_num) hq]; exact_mod_cast h2
  have he : -4 ≤ (sigDigits n q).2 ∧ (sigDigits n q).2 < 16 := by
    constructor
    · simp only [sigDigits]
      split <;> simp only <;> omega
    · by_contra hc
      push Not at hc
      have hcase : (sigDigits n q) = (10 ^ (n - 1), 16) := by
        simp only [sigDigits] at hc ⊢
        split
        · next hm =>
          rw [if_pos hm] at hc
          simp only at hc
          have : Int.log 10 q + 1 = 16 := by omega
          rw [this]
        · next hm =>
          rw [if_neg hm] at hc
          simp only at hc
          omega
      rw [hcase] at hv
      simp only at hv
      have e : (((10 ^ (n - 1) : ℕ) : ℚ)) * (10:ℚ) ^ ((16:ℤ) - ((n:ℤ) - 1)) = (5 ^ 16 : ℤ) * (2:ℚ) ^ (16:ℤ) := by
        push_cast
        rw [← zpow_natCast, ← zpow_add₀ (by norm_num)]
        have : ((n - 1 : ℕ) : ℤ) + (16 - ((n:ℤ) - 1)) = 16 := by omega
        rw [this]; norm_num
      rw [e, hF.exact _ _ (by norm_num)] at hv
      rw [← hv] at h2
      norm_num at h2
  simp only [reprPos, ← hn]
  rw [if_pos he]
  split
  · refine ⟨by simp, fun c hc => ?_⟩
    rcases List.mem_append.1 hc with hc | hc
    · simp [isNumDot, natStr_digits _ c hc]
    · clear * - hc
      revert c; decide
  · refine ⟨?_, fixedNN_numDot _ _⟩
    simp only [fixedNN]
    intro h
    exact natStr_ne_nil _ (List.append_eq_nil_iff.1 h).1

/-- A plain number with an `s` after it is so many seconds. -/
theorem parseSpec_seconds {F : Fl} (hF : F.Lawful) {x : Str} {q r : ℚ} (hx : x ≠ [])
    (hd : ∀ c ∈ x, isNumDot c = true) (hp : pyFloat F x = .ok q) (hq : F.rep q) :
    parseSpec F (some r) (x ++ ['s']) = .ok (F.rnd (q * r)) := by
  have hstrip : strip (x ++ ['s']) = x ++ ['s'] := by
    apply strip_noSpace
    intro c hc
    rcases List.mem_append.1 hc with hc | hc
    · exact numCh_not_space (numDot_numCh (hd c hc))
    · simp only [List.mem_singleton] at hc; subst hc; rfl
  obtain ⟨c, cs, rfl⟩ := List.exists_cons_of_ne_nil hx
  have hdash : takeDash (c :: cs ++ ['s']) = (0, c :: cs ++ ['s']) := by
    have hc := hd c (by simp)
    rw [List.cons_append, takeDash]
    intro t ht
    injection ht with h1
    subst h1
    exact absurd hc (by decide)
  have htw := takeWhile_append_cons (p := isNumDot) (ds := c :: cs) (c := 's') (r := []) hd (by decide)
  have hm : matchLen (c :: (cs ++ ['s'])) = some (cs.length + 1 + 1) := by
    rw [← List.cons_append]
    simp only [matchLen, hdash, htw.1, htw.2]
    simp [isUnit]
  have hsplit : specSplit 0 [] (c :: cs ++ ['s']) = [[], c :: cs ++ ['s'], []] := by
    rw [List.cons_append, specSplit, hm]
    simp only
    rw [show cs.length + 1 + 1 - 1 = cs.length + 1 by omega,
      show cs ++ ['s'] = (cs ++ ['s']) ++ [] by simp,
      specSplit_take cs.length [c] (cs ++ ['s']) [] (by simp)]
    simp [specSplit]
  have hne : strip (c :: cs ++ ['s']) ≠ [] := by rw [hstrip]; simp
  have hlast : (c :: cs ++ ['s']).getLast? = some 's' := List.getLast?_concat ..
  have hdrop : (c :: cs ++ ['s']).dropLast = c :: cs := List.dropLast_concat ..
  have hcol : collectParts F [] [[], c :: cs ++ ['s'], []] = .ok [('s', q)] := by
    have a1 : addPart F [] [] = .ok [] := rfl
    have a2 : addPart F [] (c :: cs ++ ['s']) = .ok [('s', q)] := by
      simp only [addPart, if_neg hne, hlast, List.lookup_nil, hdrop, hp, List.nil_append]
    have a3 : addPart F [('s', q)] [] = .ok [('s', q)] := rfl
    simp only [collectParts, a1, a2, a3]
  simp only [parseSpec, hstrip, hsplit, hcol]
  have hsec : secondsOf F [('s', q)] = some q := by
    have l1 : List.lookup 'h' [('s', q)] = none := rfl
    have l2 : List.lookup 'm' [('s', q)] = none := rfl
    have l3 : List.lookup 's' [('s', q)] = some q := rfl
    simp only [secondsOf, addSeconds, l1, l2, l3, Option.getD_none, mul_one, zero_add]
    rw [show F.rnd q = q from hq, show F.rnd q = q from hq]
  have l4 : List.lookup 'f' [('s', q)] = none := rfl
  simp only [framesOf, hsec, Option.getD_some, l4]
  by_cases h0 : q = 0
  · subst h0; simp [hF.zero]
  · simp only [h0, ne_eq, not_false_eq_true, if_true, zero_add]
    rw [hF.idem]

/-- The times that can be written as seconds: zero, or from a ten thousandth of a second on. -/
def Plain10 (q : ℚ) : Prop := q = 0 ∨ ((10:ℚ) ^ (-4:ℤ) ≤ q ∧ q < (10:ℚ) ^ (16:ℤ))

theorem new_seconds {F : Fl} (hF : F.Lawful) {root : Option Attrs} {r q : ℚ}
    (hf : readFps F root = .ok (some r)) (hq : F.rep q) (hp : Plain10 q) :
    T.new F root (.str (reprF F q ++ ['s'])) = .ok ⟨F.rnd (q * r), some r⟩ := by
  have h : reprF F q ≠ [] ∧ ∀ c ∈ reprF F q, isNumDot c = true := by
    rcases hp with rfl | ⟨h1, h2⟩
    · simp only [reprF, if_true]; exact ⟨by simp, by decide⟩
    · have h0 : 0 < q := lt_of_lt_of_le (by norm_num) h1
      simp only [reprF, h0.ne', if_false, not_lt.2 h0.le]
      exact reprPos_numDot hF hq h1 h2
  simp only [T.new, hf, parseSpec_seconds hF h.1 h.2 (pyFloat_reprF hF hq) hq]

theorem new_zero_seconds {F : Fl} (hF : F.Lawful) {root : Option Attrs} {r : ℚ}
    (hf : readFps F root = .ok (some r)) :
    T.new F root (.str (['0'] ++ ['s'])) = .ok ⟨0, some r⟩ := by
  have hp : pyFloat F ['0'] = .ok 0 := by
    have h0 : natStr 0 = ['0'] := by decide +kernel
    have := pyFloat_natStr F 0
    rwa [h0, Nat.cast_zero, hF.zero] at this
  have := parseSpec_seconds hF (x := ['0']) (r := r) (by simp) (by decide) hp hF.zero
  simp only [zero_mul, hF.zero] at this
  simp only [T.new, hf, this]

/-! ## C93 -/

/-- A text on a timeline, held until the next. -/
def heldText (s : Str) : Entry := ⟨"constant".toList, "constant".toList, .tag "string" [] [.text s]⟩

/-- The element of a text that is not animated, or is animated with the timeline `m`. -/
def TextIs (F : Fl) (ctx : Ctx) (n : Node) (m : TMap) : Prop :=
  TimelineIs F ctx "string".toList n m ∧ (animate F ctx .string n).2 = .ok ()

theorem textIs_static {F : Fl} (hF : F.Lawful) {ctx : Ctx} {f : Option ℚ} {n : Node}
    (hf : readFps F ctx.root = .ok f) (hp : ctx.hasParent = true) (hn : Legal "string".toList n) :
    TextIs F ctx n TMap.empty := by
  obtain ⟨v, h, _⟩ := c39_string hF hf hp hn
  obtain ⟨h1, h2, h3, _⟩ := hn
  refine ⟨⟨h1, by simp only [ourType, if_neg h2, h3], [], ?_, by simp, by intro q e; simp [TMap.empty]⟩, ?_⟩
  · exact waypoints_static F ctx h2
  · have := h.1
    simpa [setAnimated] using this

theorem setAll_single (m : TMap) (q : ℚ) (f : Option ℚ) (b a : Str) (v : Node) :
    m.setAll (entries [⟨⟨q, f⟩, b, a, v⟩]) = m.set q ⟨b, a, v⟩ := rfl

theorem setConstant_spec {F : Fl} {ctx : Ctx} {f : Option ℚ} {n : Node} {m : TMap} {time s : Str} {q : ℚ}
    (hf : readFps F ctx.root = .ok f) (hn : TextIs F ctx n m)
    (ht : T.new F ctx.root (.str (time ++ ['s'])) = .ok ⟨q, f⟩) (hq : 0 ≤ q) :
    (setConstant F ctx time s n).2 = .ok () ∧
    TextIs F ctx (setConstant F ctx time s n).1 (m.set q (heldText s)) := by
  have hnew : newValue F .string (.str s) = .ok (.tag "string" [] [.text s]) := rfl
  have hc : checkInterp "constant".toList = .ok "constant".toList := by decide +kernel
  have hw : Waypoint.new F none (.t ⟨q, f⟩) (.val .string none (.tag "string" [] [.text s]))
      "constant".toList "constant".toList =
      .ok ⟨⟨q, f⟩, "constant".toList, "constant".toList, .tag "string" [] [.text s]⟩ := by
    simp only [Waypoint.new, hc]
    rfl
  have hleg : Legal "string".toList (.tag "string" [] [.text s]) := by
    have := newValue_legal hnew (by simp)
    rwa [show (emptyTag VCls.string).name = "string" from rfl] at this
  have hl : LegalInterp "constant".toList := by unfold LegalInterp; decide +kernel
  have hadd : Addable f "string".toList
      [⟨⟨q, f⟩, "constant".toList, "constant".toList, .tag "string" [] [.text s]⟩] := by
    intro w hw
    simp only [List.mem_singleton] at hw
    subst hw
    exact ⟨rfl, hq, hl, hl, hleg⟩
  obtain ⟨a1, a2, ws, a3, _⟩ := c38_add_overwrite hf hn.1 hn.2 hadd (by simp)
  have e : setConstant F ctx time s n =
      addWaypoints F ctx .string
        [⟨⟨q, f⟩, "constant".toList, "constant".toList, .tag "string" [] [.text s]⟩] true n := by
    simp only [setConstant, hnew, ht, hw]
  have hset : m.setAll (entries
      [⟨⟨q, f⟩, "constant".toList, "constant".toList, .tag "string" [] [.text s]⟩]) =
      m.set q (heldText s) := setAll_single m q f _ _ _
  rw [hset] at a2
  rw [e]
  refine ⟨a1, a2, ?_⟩
  have hne : ws ≠ [] := by
    rintro rfl
    obtain ⟨_, _, ws', h1, _, h3⟩ := a2
    rw [a3] at h1
    injection h1 with h1
    subst h1
    have := (h3 q (heldText s)).1 (by simp [TMap.set])
    simp at this
  have := animated_of_waypoints a3 hne
  simp only [animate, this, if_true]

theorem setWords_spec {F : Fl} (hF : F.Lawful) {ctx : Ctx} {r : ℚ} (hr : 0 ≤ r)
    (hf : readFps F ctx.root = .ok (some r)) (words : List WordTiming)
    (hw : ∀ w ∈ words, F.rep w.time ∧ Plain10 w.time) {n : Node} {m : TMap} (hn : TextIs F ctx n m) :
    (setWords F ctx words n).2 = .ok () ∧
    TextIs F ctx (setWords F ctx words n).1
      (m.setAll (words.map fun w => (F.rnd (w.time * r), heldText w.text))) := by
  induction words generalizing n m with
  | nil => exact ⟨rfl, hn⟩
  | cons w ws ih =>
    obtain ⟨h1, h2⟩ := hw w (by simp)
    have h0 : 0 ≤ w.time := by
      rcases h2 with h | ⟨h, _⟩
      · exact h.ge
      · exact le_trans (by norm_num) h
    obtain ⟨s1, s2⟩ := setConstant_spec (s := w.text) hf hn (new_seconds hF hf h1 h2)
      (hF.nonneg (by positivity))
    obtain ⟨i1, i2⟩ := ih (fun x hx => hw x (by simp [hx])) s2
    have e : setConstant F ctx (reprF F w.time) w.text n =
        ((setConstant F ctx (reprF F w.time) w.text n).1, .ok ()) := Prod.ext rfl s1
    rw [setWords, e]
    exact ⟨i1, i2⟩

theorem fps_pos {F : Fl} {root : Option Attrs} {r : ℚ} (h : readFps F root = .ok (some r)) : 0 < r := by
  unfold readFps at h
  split at h
  · simp at h
  · split at h
    · simp at h
    · split at h
      · simp at h
      · split at h
        · simp at h
        · injection h with h; injection h with h; subst h; linarith

/-- C93, for texts whose times can be written as seconds without an exponent: after `adjust`, the
timeline of a layer's text has the empty text at the start, and each of the layer's scheduled texts at
the frame nearest to its time; a later text replaces an earlier one at the same frame. -/
theorem c93_adjust_partial {F : Fl} (hF : F.Lawful) {ctx : Ctx} {r : ℚ}
    (hf : readFps F ctx.root = .ok (some r)) (hp : ctx.hasParent = true) {n : Node}
    (hn : Legal "string".toList n) (item : ℕ × ℕ) {words : List WordTiming}
    (hw : ∀ w ∈ words, w.item = item → F.rep w.time ∧ Plain10 w.time) :
    (adjustText F ctx item words n).2 = .ok () ∧
    TimelineIs F ctx "string".toList (adjustText F ctx item words n).1
      ((TMap.empty.set 0 (heldText [])).setAll
        ((words.filter fun w => w.item = item).map fun w => (F.rnd (w.time * r), heldText w.text))) := by
  have hr := fps_pos hf
  obtain ⟨s1, s2⟩ := setConstant_spec (s := []) hf (textIs_static hF hf hp hn)
    (new_zero_seconds hF hf) le_rfl
  have e : setConstant F ctx ['0'] [] n = ((setConstant F ctx ['0'] [] n).1, .ok ()) := Prod.ext rfl s1
  obtain ⟨i1, i2⟩ := setWords_spec hF hr.le hf (words.filter fun w => w.item = item) (by
    intro w hw'
    obtain ⟨h1, h2⟩ := List.mem_filter.1 hw'
    exact hw w h1 (by simpa using h2)) s2
  rw [adjustText, e]
  exact ⟨i1, i2.1⟩

theorem setTimes_rep {F : Fl} (hF : F.Lawful) (m t : ℚ) (texts : List (Str × (ℕ × ℕ))) :
    ∀ w ∈ setTimes F m t texts, F.rep w.time := by
  induction texts generalizing t with
  | nil => simp [setTimes]
  | cons q r ih =>
    obtain ⟨s, y⟩ := q
    intro w hw
    rcases List.mem_cons.1 hw with rfl | hw
    · exact hF.idem _
    · exact ih _ w hw

/-- C93. What `Bywords` schedules are floats. -/
theorem c93_times_are_floats {F : Fl} (hF : F.Lawful) {m : Bool} {groups : List BGroup}
    {lines : List SubLine} {ws : List WordTiming} {no : List Str}
    (h : bywords F m groups lines = .ok (ws, no)) : ∀ w ∈ ws, F.rep w.time := by
  obtain ⟨_, per, h1, h2⟩ := c69_last_word_wins h
  intro w hw
  obtain ⟨a, b, e, _⟩ := (h2 w).1 hw
  have hmem : w ∈ per.flatMap fun o => o.getD [] := by rw [e]; simp
  obtain ⟨o, ho, hwo⟩ := List.mem_flatMap.1 hmem
  obtain ⟨l, hl, hlo⟩ := mapRes_mem h1 ho
  rcases firstMatch_cases F m groups l with ⟨_, h'⟩ | ⟨_, g, _, h'⟩
  · rw [h'] at hlo
    injection hlo with hlo
    subst hlo
    simp at hwo
  · rw [h'] at hlo
    cases o with
    | none => simp at hwo
    | some x =>
      rw [(bwMatches_some hlo).2.2] at hwo
      exact setTimes_rep hF _ _ _ w hwo

/-- C93 fails for a text due a twenty thousandth of a second after the start: its time is written
`5e-05s`, which is read as five seconds before the start. So the text comes before the empty text that is put at the
start, and, as times before the start count from the end, is found at frame 1. -/
theorem c93_tiny_time_fails :
    let ctx : Ctx := ⟨some exRoot, true⟩
    let n : Node := .tag "string" [] [.text "Text Layer".toList]
    let res := adjustText double ctx (0, 0) [⟨"a".toList, (0, 0), double.rnd (1 / 20000)⟩] n
    res.2 = .ok () ∧
    (waypoints double ctx res.1).map (List.map fun w => (w.time.frames, getString w.val)) =
      .ok [(1, "a".toList), (0, [])] := by decide +kernel

/-- Such times do occur: a subtitle of a tenth of a millisecond per letter. -/
theorem c93_tiny_time_occurs :
    ∃ ws, bywords double true [⟨"bywords".toList, [⟨(0, 0), "abcdef".toList⟩]⟩]
      [⟨0, 1, "abcdef".toList⟩] = .ok (ws, []) ∧ ∃ w ∈ ws, 0 < w.time ∧ w.time < 1 / 10000 := by
  refine ⟨_, rfl, ?_⟩
  have : ∀ l : List WordTiming, (l.any fun w => 0 < w.time ∧ w.time < 1 / 10000) = true →
      ∃ w ∈ l, 0 < w.time ∧ w.time < 1 / 10000 := by
    intro l hl
    obtain ⟨w, hw, h⟩ := List.any_eq_true.1 hl
    exact ⟨w, hw, by simpa using h⟩
  apply this
  decide +kernel

/-- C93 applies: the layer's text, and the words of a line. -/
example :
    let n : Node := .tag "string" [] [.text "Text Layer".toList]
    let ctx : Ctx := ⟨some exRoot, true⟩
    readFps double ctx.root = .ok (some 24) ∧ Legal "string".toList n ∧
    ∃ ws, bywords double false [exBGroup'] [⟨1000, 15000, "AA aa aa!".toList⟩] = .ok (ws, []) ∧
      ws.length = 3 ∧ (∀ w ∈ ws, double.rep w.time ∧ Plain10 w.time) := by
  refine ⟨by decide +kernel, ⟨rfl, by decide, by decide +kernel, .string, by decide +kernel⟩, _, rfl, by decide +kernel, ?_⟩
  have : bywords double false [exBGroup'] [⟨1000, 15000, "AA aa aa!".toList⟩] =
      .ok ([⟨"aa".toList, (1, 0), 1⟩, ⟨"aa aa".toList, (1, 0), 3⟩, ⟨"aa aa aa".toList, (1, 0), 8⟩], []) := by
    decide +kernel
  intro w hw
  have hw' : w ∈ [(⟨"aa".toList, (1, 0), 1⟩ : WordTiming), ⟨"aa aa".toList, (1, 0), 3⟩,
      ⟨"aa aa aa".toList, (1, 0), 8⟩] := by
    injection this with h
    injection h with h1 h2
    rw [← h1]; exact hw
  simp only [List.mem_cons, List.not_mem_nil, or_false] at hw'
  rcases hw' with rfl | rfl | rfl <;>
    exact ⟨by decide +kernel, Or.inr ⟨by norm_num, by norm_num⟩⟩

/-! ## C94 -/

theorem filterMap_wanted (F : Fl) (p : Str) (xs : List LObj) :
    (xs.filterMap fun x => match getDesc F x.2 with
      | some s => if p.isPrefixOf (lower s) then some (s, x.2) else none
      | none => none).map Prod.fst =
    (xs.filterMap fun x => getDesc F x.2).filter fun s => p <+: lower s := by
  induction xs with
  | nil => rfl
  | cons x r ih =>
    rw [List.filterMap_cons, List.filterMap_cons]
    cases hx : getDesc F x.2 with
    | none => simpa using ih
    | some s =>
      by_cases hp : p <+: lower s
      · simpa [List.filter_cons, hp] using ih
      · simpa [List.filter_cons, hp] using ih

/-- C94. The groups which are considered: those whose description begins with "bywords", whatever the
capitals, in order of their descriptions. -/
theorem c94_groups {F : Fl} {d : Defaults} {n : Node} {gs : List BGroup} (h : bwGroups F d n = .ok gs) :
    gs.Pairwise (fun a b => a.desc ≤ b.desc) ∧
    ∃ xs, findAllLayers F d {pos := [.cls "Group".toList]} true n = .ok xs ∧
      (gs.map BGroup.desc).Perm
        ((xs.filterMap fun x => getDesc F x.2).filter fun s => "bywords".toList <+: s.map Char.toLower) := by
  simp only [← lower_eq]
  simp only [bwGroups] at h
  split at h
  · simp at h
  · next xs hxs =>
    split at h
    · simp at h
    · next l hl =>
      injection h with h
      subst h
      constructor
      · have : Std.Total fun a b : BGroup => a.desc ≤ b.desc := ⟨fun a b => List.le_total _ _⟩
        have : IsTrans BGroup fun a b : BGroup => a.desc ≤ b.desc := ⟨fun a b c h1 h2 => List.le_trans h1 h2⟩
        exact List.pairwise_insertionSort _ l
      · refine ⟨xs, hxs, ((List.perm_insertionSort _ l).map BGroup.desc).trans ?_⟩
        have hdesc : ∀ (ys : List ((Str × Node) × ℕ)) (l : List BGroup),
            mapRes (fun p => bwGroup F d p.2 p.1.1 p.1.2) ys = .ok l →
            l.map BGroup.desc = ys.map fun p => p.1.1 := by
          intro ys
          induction ys with
          | nil => intro l hl; simp [mapRes] at hl; subst hl; rfl
          | cons y r ih =>
            intro l hl
            simp only [mapRes] at hl
            split at hl
            · simp at hl
            · next g hg =>
              split at hl
              · simp at hl
              · next l' hl' =>
                injection hl with hl
                subst hl
                rw [List.map_cons, List.map_cons, ih l' hl']
                congr 1
                simp only [bwGroup] at hg
                split at hg
                · simp at hg
                · split at hg
                  · simp at hg
                  · injection hg with hg; subst hg; rfl
        rw [hdesc _ _ hl]
        have e : ((bwWanted F xs).zipIdx.map fun p => p.1.1) = (bwWanted F xs).map Prod.fst := by
          rw [← List.zipIdx_map_fst 0 (bwWanted F xs), List.map_map, List.zipIdx_map_fst]; rfl
        rw [e]
        exact List.Perm.of_eq (filterMap_wanted F _ xs)

/-- C94. The text layers of a group, and so its text: the descriptions are those of the layers of type
"text" anywhere in the group, top first; none is without a description. -/
theorem c94_texts {F : Fl} {d : Defaults} {i : ℕ} {desc : Str} {n : Node} {g : BGroup}
    (h : bwGroup F d i desc n = .ok g) :
    (g.texts.map BText.item).Nodup ∧
    ∃ xs, findAllLayers F d {pos := [.str "text".toList]} true n = .ok xs ∧
      xs.reverse.map (fun x => getDesc F x.2) = g.texts.map fun t => some t.desc := by
  simp only [bwGroup] at h
  split at h
  · simp at h
  · next xs hxs =>
    split at h
    · simp at h
    · next ts hts =>
      injection h with h
      subst h
      have key : ∀ (ys : List LObj) (k : ℕ) (ts : List BText),
          mapRes (fun (p : LObj × ℕ) => match getDesc F p.1.2 with
            | none => (.error .attr : Res BText)
            | some s => .ok ⟨(i, p.2), s⟩) (ys.zipIdx k) = .ok ts →
          ts.map BText.item = (List.range' k ys.length).map (fun j => (i, j)) ∧
          ys.map (fun x => getDesc F x.2) = ts.map fun t => some t.desc := by
        intro ys
        induction ys with
        | nil => intro k ts hts; simp [mapRes] at hts; subst hts; simp
        | cons y r ih =>
          intro k ts hts
          rw [List.zipIdx_cons] at hts
          simp only [mapRes] at hts
          cases hy : getDesc F y.2 with
          | none => simp [hy] at hts
          | some s =>
            simp only [hy] at hts
            split at hts
            · simp at hts
            · next l' hl' =>
              injection hts with hts
              subst hts
              obtain ⟨i1, i2⟩ := ih (k + 1) l' hl'
              simp only [List.map_cons, List.length_cons, List.range'_succ, i1, i2, hy, and_self]
      obtain ⟨k1, k2⟩ := key xs.reverse 0 ts hts
      refine ⟨?_, xs, hxs, k2⟩
      simp only
      rw [k1]
      exact List.Nodup.map (fun a b h => by simpa using h) (List.nodup_range' 1 (by norm_num))

/-- C94. Of several groups with the same text, a line goes to the one whose description comes first. -/
theorem c94_first_by_description {F : Fl} {d : Defaults} {n : Node} {gs : List BGroup}
    (h : bwGroups F d n = .ok gs) {l : SubLine} {g : BGroup} (hg : GoesTo gs l g) :
    ∀ g' ∈ gs, normal l.text = groupText g' → g.desc ≤ g'.desc := by
  obtain ⟨hs, _⟩ := c94_groups h
  obtain ⟨a, b, rfl, h1, h2⟩ := hg
  intro g' hg' he
  rcases List.mem_append.1 hg' with hg' | hg'
  · exact absurd he (h1 g' hg')
  · rcases List.mem_cons.1 hg' with rfl | hg'
    · exact List.le_refl _
    · exact (List.pairwise_cons.1 (List.pairwise_append.1 hs).2.1).1 g' hg'

/-- A layer with a description, for the examples. -/
def exDescribed (ty desc : String) (kids : List Node) : Node :=
  .tag "layer" [("type", .str ty.toList), ("desc", .str desc.toList)] kids

/-- An animation with two groups for bywords, and one that isn't. -/
def exBywordsDoc : Node := .tag "canvas" []
  [exDescribed "group" "Bywords 2" [.tag "param" [("name", .str "canvas".toList)]
     [.tag "canvas" [] [exDescribed "text" "bye" [], exDescribed "circle" "O" [], exDescribed "text" "Good" []]]],
   exDescribed "group" "Other" [exDescribed "text" "hello" []],
   exDescribed "group" "BYWORDS" [exDescribed "text" "good-bye" []]]

/-- C94 on a concrete document. -/
example : bwGroups double .initial exBywordsDoc =
    .ok [⟨"BYWORDS".toList, [⟨(1, 0), "good-bye".toList⟩]⟩,
         ⟨"Bywords 2".toList, [⟨(0, 0), "Good".toList⟩, ⟨(0, 1), "bye".toList⟩]⟩] := by decide +kernel

end Sang
