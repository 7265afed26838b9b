import Verif.KeyframeText
import Verif.Spec.KeyframeText
import Verif.Props.LayerText
import Verif.Props.Animation

/-! # The text of an animation and of its keyframes -/

namespace Sang

open Spec

/-! ## The characters of a time -/

/-- What the text of a time is made of. -/
def timeCh (c : Char) : Bool := numCh c || c ∈ ['h', 'm', 's', 'f', ' ']

theorem timeCh_strUnit {st : ℚ × List Str} (h : ∀ s ∈ st.2, ∀ c ∈ s, timeCh c = true) {u : Char}
    (hu : timeCh u = true) (size : ℚ) : ∀ s ∈ (strUnit st u size).2, ∀ c ∈ s, timeCh c = true := by
  rw [strUnit]
  split
  · intro s hs
    rcases List.mem_append.1 hs with hs | hs
    · exact h s hs
    · rw [List.mem_singleton] at hs
      subst hs
      intro c hc
      rcases List.mem_append.1 hc with hc | hc
      · simp [timeCh, numCh_of_isDig (natStr_digits _ c hc)]
      · rw [List.mem_singleton] at hc; subst hc; exact hu
  · exact h

theorem timeCh_join {l : List Str} (h : ∀ s ∈ l, ∀ c ∈ s, timeCh c = true) :
    ∀ c ∈ join [' '] l, timeCh c = true := by
  induction l with
  | nil => simp [join]
  | cons s l ih =>
    cases l with
    | nil => exact h s (by simp)
    | cons t r =>
      intro c hc
      rw [join] at hc
      simp only [List.mem_append, List.mem_singleton] at hc
      rcases hc with (hc | rfl) | hc
      · exact h s (by simp) c hc
      · decide
      · exact ih (fun x hx => h x (by simp [hx])) c hc

theorem timeCh_fmtG (q : ℚ) : ∀ c ∈ fmtG q ++ ['f'], timeCh c = true := by
  intro c hc
  rcases List.mem_append.1 hc with hc | hc
  · simp [timeCh, fmtG_numCh q c hc]
  · rw [List.mem_singleton] at hc; subst hc; decide

theorem tstr_chars (F : Fl) (t : T) : ∀ c ∈ t.str F, timeCh c = true := by
  unfold T.str
  split
  · exact timeCh_fmtG _
  · rename_i fps hf
    dsimp only
    have h := timeCh_strUnit (u := 's') (timeCh_strUnit (u := 'm') (timeCh_strUnit (u := 'h')
      (st := (|F.rnd (t.frames / fps)|, [])) (by simp) (by decide) 3600) (by decide) 60) (by decide) 1
    intro c hc
    rcases List.mem_append.1 hc with hc | hc
    · split at hc
      · rw [List.mem_singleton] at hc; subst hc; decide
      · simp at hc
    · refine timeCh_join ?_ c hc
      split
      · intro s hs
        rcases List.mem_append.1 hs with hs | hs
        · exact h s hs
        · rw [List.mem_singleton] at hs; subst hs; exact timeCh_fmtG _
      · exact h

theorem timeCh_quote {c : Char} (h : c = '\'' ∨ c = '"') : timeCh c = false := by
  rcases h with rfl | rfl <;> decide

/-! ## One keyframe -/

/-- C141. The text of a keyframe shows its time, its name and whether it is active. -/
theorem c141_keyframe_text (F : Fl) (pr : Char → Bool) (k : Keyframe) (t : T) (b : Bool)
    (ht : k.time F = .ok t) (hb : k.active = .ok b) :
    ∃ s, k.str F (pyRepr pr) = .ok s ∧ ShowsKeyframe F s (t.str F) k.name b := by
  refine ⟨t.str F ++ [' '] ++ pyRepr pr k.name ++ (if b then [] else " (inactive)".toList), ?_, pyRepr pr k.name,
    literal_pyRepr F pr _, rfl⟩
  unfold Keyframe.str
  rw [hb, ht]

/-- C141. It fails just when the keyframe's time or activity can't be had. -/
theorem c141_keyframe_fails (F : Fl) (pr : Char → Bool) (k : Keyframe) (e : Err) :
    k.str F (pyRepr pr) = .error e ↔
      k.active = .error e ∨ (∃ b, k.active = .ok b) ∧ k.time F = .error e := by
  unfold Keyframe.str
  cases k.active with
  | error e' => simp
  | ok b =>
    cases k.time F with
    | error e' => simp
    | ok t => exact ⟨fun h => (by cases h), fun h => (by rcases h with h | ⟨-, h⟩ <;> cases h)⟩

theorem keyframe_shows {F : Fl} {pr : Char → Bool} {k : Keyframe} {s : Str} (h : k.str F (pyRepr pr) = .ok s) :
    ∃ t b, k.time F = .ok t ∧ k.active = .ok b ∧ ShowsKeyframe F s (t.str F) k.name b := by
  cases hb : k.active with
  | error e => simp [Keyframe.str, hb] at h
  | ok b =>
    cases ht : k.time F with
    | error e => simp [Keyframe.str, hb, ht] at h
    | ok t =>
      obtain ⟨s', h1, h2⟩ := c141_keyframe_text F pr k t b ht hb
      rw [h] at h1
      cases h1
      exact ⟨t, b, rfl, rfl, h2⟩

/-- The text of a keyframe can be read in one way only, if the text ends after it or the line does. -/
theorem showsKeyframe_unique {F : Fl} {s s' tm tm' nm nm' r r' : Str} {b b' : Bool}
    (h : ShowsKeyframe F s tm nm b) (h' : ShowsKeyframe F s' tm' nm' b')
    (ht : ∀ c ∈ tm, timeCh c = true) (ht' : ∀ c ∈ tm', timeCh c = true)
    (hr : r = [] ∨ r.head? = some '\n') (hr' : r' = [] ∨ r'.head? = some '\n')
    (e : s ++ r = s' ++ r') : tm = tm' ∧ nm = nm' ∧ b = b' ∧ r = r' := by
  obtain ⟨l, hl, rfl⟩ := h
  obtain ⟨l', hl', rfl⟩ := h'
  have quote : ∀ {l x r : Str}, LiteralFor F l (.str x) → ∀ c, (l ++ r).head? = some c → timeCh c = false := by
    intro l x r hl c hc
    obtain ⟨q, u, hq, -, rfl⟩ := literal_str hl
    simp only [List.cons_append, List.head?_cons, Option.some.injEq] at hc
    subst hc
    exact timeCh_quote hq
  have ext : ∀ {tm : Str}, (∀ c ∈ tm, timeCh c = true) → ∀ c ∈ tm ++ " ".toList, timeCh c = true := by
    intro tm h c hc
    rcases List.mem_append.1 hc with hc | hc
    · exact h c hc
    · have : c = ' ' := by simpa using hc
      subst this; decide
  rw [List.append_assoc (tm ++ _), List.append_assoc (tm ++ _), List.append_assoc (tm' ++ _),
    List.append_assoc (tm' ++ _)] at e
  rw [List.append_assoc l, List.append_assoc l'] at e
  obtain ⟨e1, e2⟩ := span_unique (ext ht) (quote hl) (ext ht') (quote hl') e
  obtain ⟨-, e3, e4⟩ := literal_unique hl hl' e2
  refine ⟨List.append_cancel_right e1, e3, ?_⟩
  have key : ∀ {r : Str} (x : Str), (r = [] ∨ r.head? = some '\n') → r ≠ " (inactive)".toList ++ x := by
    intro r x h e
    rcases h with h | h <;> rw [e] at h <;> simp at h
  cases b <;> cases b' <;> simp only [if_true, if_false, List.nil_append, Bool.false_eq_true] at e4
  · exact ⟨rfl, List.append_cancel_left e4⟩
  · exact absurd e4.symm (key r hr')
  · exact absurd e4 (key r' hr)
  · exact ⟨rfl, e4⟩

/-- C141. Two keyframes that are shown alike have the same text for their times, the same name, and are both active or
both inactive. -/
theorem c141_tells_keyframes_apart {F : Fl} {pr : Char → Bool} {k k' : Keyframe} {s : Str}
    (h : k.str F (pyRepr pr) = .ok s) (h' : k'.str F (pyRepr pr) = .ok s) :
    k.name = k'.name ∧ k.active = k'.active ∧
      ∃ t t', k.time F = .ok t ∧ k'.time F = .ok t' ∧ t.str F = t'.str F := by
  obtain ⟨t, b, ht, hb, hs⟩ := keyframe_shows h
  obtain ⟨t', b', ht', hb', hs'⟩ := keyframe_shows h'
  obtain ⟨e1, e2, rfl, -⟩ := showsKeyframe_unique (r := []) (r' := []) hs hs' (tstr_chars F t) (tstr_chars F t')
    (Or.inl rfl) (Or.inl rfl) rfl
  exact ⟨e2, hb.trans hb'.symm, t, t', ht, ht', e1⟩

/-! ## The animation -/

/-- C141. The text of an animation shows its description, if there is one that isn't empty. -/
theorem c141_animation_text (F : Fl) (pr : Char → Bool) (n : Node) :
    ShowsAnimation F (animRepr pr n) (shownDesc (animDesc n)) := by
  have hsym : symbolOf lcGroup ++ "animation".toList = "📂animation".toList := by decide +kernel
  have hA : "[📂animation".toList = '[' :: "📂animation".toList := by decide +kernel
  refine ⟨(shownDesc (animDesc n)).map (pyRepr pr), literals_repr F pr _, ?_⟩
  rw [animRepr, hA, ← hsym]
  rcases animDesc n with _ | _ | ⟨c, s⟩ <;> simp [shownDesc]

/-- The text of an animation can be read in one way only, whatever comes after it. -/
theorem showsAnimation_unique {F : Fl} {s s' r r' : Str} {d d' : List Str} (h : ShowsAnimation F s d)
    (h' : ShowsAnimation F s' d') (e : s ++ r = s' ++ r') : d = d' ∧ r = r' := by
  obtain ⟨l, hl, rfl⟩ := h
  obtain ⟨l', hl', rfl⟩ := h'
  simp only [List.append_assoc] at e
  obtain ⟨-, h1, h2⟩ := literals_unique hl hl' (List.append_cancel_left e)
  exact ⟨h1, h2⟩

theorem shownDesc_getD {a b : Option Str} (hab : shownDesc a = shownDesc b) : a.getD [] = b.getD [] := by
  rcases a with _ | _ | ⟨c, a⟩ <;> rcases b with _ | _ | ⟨d, b⟩ <;> simp_all [shownDesc]

/-! ## All the keyframes -/

theorem mapRes_first {α β : Type} {f : α → Res β} {l : List α} {e : Err} :
    mapRes f l = .error e ↔ ∃ a x b, l = a ++ x :: b ∧ (∀ y ∈ a, ∃ r, f y = .ok r) ∧ f x = .error e := by
  induction l with
  | nil => simp [mapRes]
  | cons x l ih =>
    cases hx : f x with
    | error e' =>
      simp only [mapRes, hx, Except.error.injEq]
      constructor
      · rintro rfl; exact ⟨[], x, l, rfl, by simp, hx⟩
      · rintro ⟨a, y, b, hl, ha, hy⟩
        cases a with
        | nil => simp at hl; rw [← hl.1, hx] at hy; injection hy
        | cons z a =>
          simp at hl
          obtain ⟨r, hr⟩ := ha z (by simp)
          rw [← hl.1, hx] at hr; cases hr
    | ok r =>
      have : mapRes f (x :: l) = .error e ↔ mapRes f l = .error e := by
        simp only [mapRes, hx]
        cases mapRes f l <;> simp
      rw [this, ih]
      constructor
      · rintro ⟨a, y, b, rfl, ha, hy⟩
        refine ⟨x :: a, y, b, rfl, ?_, hy⟩
        intro z hz
        rcases List.mem_cons.1 hz with rfl | hz
        · exact ⟨r, hx⟩
        · exact ha z hz
      · rintro ⟨a, y, b, hl, ha, hy⟩
        cases a with
        | nil => simp at hl; rw [← hl.1, hx] at hy; cases hy
        | cons z a =>
          simp at hl
          exact ⟨a, y, b, hl.2, fun w hw => ha w (by simp [hw]), hy⟩

theorem mapRes_pairs {α β : Type} {f : α → Res β} {xs : List α} {ys : List β} (h : mapRes f xs = .ok ys) :
    List.Forall₂ (fun x y => f x = .ok y) xs ys := by
  induction xs generalizing ys with
  | nil => simp [mapRes] at h; subst h; exact .nil
  | cons x xs ih =>
    cases hx : f x with
    | error e => simp [mapRes, hx] at h
    | ok y =>
      cases hr : mapRes f xs with
      | error e => simp [mapRes, hx, hr] at h
      | ok r =>
        simp only [mapRes, hx, hr, Except.ok.injEq] at h
        subst h
        exact .cons hx (ih hr)

/-- C141. The text of an animation's keyframes shows the animation, and then each of the keyframes, in order, on a line
of its own. -/
theorem c141_keyframes_text {F : Fl} {pr : Char → Bool} {n : Node} {s : Str} (h : keyframesStr F pr n = .ok s) :
    ∃ lines, List.Forall₂ (fun k t => Keyframe.str F (pyRepr pr) k = .ok t) (keyframes n) lines ∧
      ShowsList s (animRepr pr n) lines := by
  have hlen := (c61_keyframes_in_order n).2
  unfold keyframesStr at h
  split at h
  · rename_i h0
    cases h
    rw [h0] at hlen
    rw [List.eq_nil_of_length_eq_zero hlen.symm]
    have e : ":\n  (none)".toList = ":".toList ++ "\n  (none)".toList := by decide +kernel
    refine ⟨[], .nil, ?_⟩
    rw [ShowsList, if_pos rfl, e]
    simp only [List.append_assoc]
  · rename_i h0
    cases hl : mapRes (Keyframe.str F (pyRepr pr)) (keyframes n) with
    | error e => rw [hl] at h; cases h
    | ok l =>
      rw [hl] at h
      cases h
      have hp := mapRes_pairs hl
      refine ⟨l, hp, ?_⟩
      have : l ≠ [] := by
        rintro rfl
        have := hp.length_eq
        rw [← hlen] at this
        exact h0 this
      have e : ":".toList = [':'] := rfl
      rw [ShowsList, if_neg this, e]
      simp only [List.append_assoc, List.cons_append, List.nil_append]

/-- C141. It fails just when that of a keyframe does, and as that of the first of them does. -/
theorem c141_keyframes_fail (F : Fl) (pr : Char → Bool) (n : Node) (e : Err) :
    keyframesStr F pr n = .error e ↔ ∃ a k b, keyframes n = a ++ k :: b ∧
      (∀ j ∈ a, ∃ s, Keyframe.str F (pyRepr pr) j = .ok s) ∧ Keyframe.str F (pyRepr pr) k = .error e := by
  rw [← mapRes_first]
  have hlen := (c61_keyframes_in_order n).2
  unfold keyframesStr
  split
  · rename_i h0
    rw [h0] at hlen
    rw [List.eq_nil_of_length_eq_zero hlen.symm]
    simp [mapRes]
  · cases mapRes (Keyframe.str F (pyRepr pr)) (keyframes n) <;> simp

theorem lines_alike {F : Fl} {pr : Char → Bool} {ks ks' : List Keyframe} {ls ls' : List Str}
    (h : List.Forall₂ (fun k t => Keyframe.str F (pyRepr pr) k = .ok t) ks ls)
    (h' : List.Forall₂ (fun k t => Keyframe.str F (pyRepr pr) k = .ok t) ks' ls')
    (e : (ls.flatMap fun t => "\n  - ".toList ++ t) = ls'.flatMap fun t => "\n  - ".toList ++ t) :
    List.Forall₂ (fun k k' => k.name = k'.name ∧ k.active = k'.active ∧
      ∃ t t', k.time F = .ok t ∧ k'.time F = .ok t' ∧ t.str F = t'.str F) ks ks' := by
  have hd : ∀ ls : List Str, (ls.flatMap fun t => "\n  - ".toList ++ t) = [] ∨
      (ls.flatMap fun t => "\n  - ".toList ++ t).head? = some '\n' := by
    intro ls
    cases ls with
    | nil => exact Or.inl rfl
    | cons => exact Or.inr (by simp)
  induction h generalizing ks' ls' with
  | nil =>
    cases h' with
    | nil => exact .nil
    | cons => simp at e
  | @cons k t ks ls h1 h2 ih =>
    cases h' with
    | nil => simp at e
    | @cons k' t' ks' ls' g1 g2 =>
      simp only [List.flatMap_cons, List.append_assoc] at e
      have e := List.append_cancel_left e
      obtain ⟨x, b, hx, hb, hs⟩ := keyframe_shows h1
      obtain ⟨x', b', hx', hb', hs'⟩ := keyframe_shows g1
      obtain ⟨e1, e2, rfl, e3⟩ := showsKeyframe_unique hs hs' (tstr_chars F x) (tstr_chars F x') (hd ls) (hd ls') e
      exact .cons ⟨e2, hb.trans hb'.symm, x, x', hx, hx', e1⟩ (ih g2 e3)

/-- C141. Two animations whose keyframes are shown alike have the same description, and as many keyframes, which are
pairwise shown with the same time, have the same name, and are active or not alike. -/
theorem c141_tells_keyframe_lists_apart {F : Fl} {pr : Char → Bool} {n m : Node} {s : Str}
    (h : keyframesStr F pr n = .ok s) (h' : keyframesStr F pr m = .ok s) :
    (animDesc n).getD [] = (animDesc m).getD [] ∧
    List.Forall₂ (fun k k' => k.name = k'.name ∧ k.active = k'.active ∧
      ∃ t t', k.time F = .ok t ∧ k'.time F = .ok t' ∧ t.str F = t'.str F) (keyframes n) (keyframes m) := by
  obtain ⟨ls, hl, hs⟩ := c141_keyframes_text h
  obtain ⟨ls', hl', hs'⟩ := c141_keyframes_text h'
  unfold ShowsList at hs hs'
  rw [hs] at hs'
  simp only [List.append_assoc] at hs'
  obtain ⟨e1, e2⟩ := showsAnimation_unique (c141_animation_text F pr n) (c141_animation_text F pr m)
    (List.append_cancel_left hs')
  refine ⟨shownDesc_getD e1, lines_alike hl hl' ?_⟩
  have e3 := List.append_cancel_left e2
  have ne : ∀ l : List Str, (l.flatMap fun t => "\n  - ".toList ++ t) ≠ "\n  (none)".toList := by
    intro l hl
    cases l with
    | nil => simp at hl
    | cons t l => simp at hl
  by_cases h1 : ls = [] <;> by_cases h2 : ls' = []
  · rw [h1, h2]
  · rw [if_pos h1, if_neg h2] at e3; exact absurd e3.symm (ne _)
  · rw [if_neg h1, if_pos h2] at e3; exact absurd e3 (ne _)
  · rwa [if_neg h1, if_neg h2] at e3

/-- C141. At whole frames, not negative, of animations with the same frame rate, keyframes shown alike are at the same
time. -/
theorem c141_same_frame {F : Fl} (hF : F.Lawful) {pr : Char → Bool} {k k' : Keyframe} {s : Str} {root : Attrs}
    (a b r : ℕ) (ha : a < 2 ^ 53) (hb : b < 2 ^ 53) (hr : 1 ≤ r) (hr6 : r < 10 ^ 6) (hroot : HasFps F root r)
    (hk : k.time F = .ok ⟨a, some (r:ℚ)⟩) (hk' : k'.time F = .ok ⟨b, some (r:ℚ)⟩)
    (h : k.str F (pyRepr pr) = .ok s) (h' : k'.str F (pyRepr pr) = .ok s) : a = b := by
  obtain ⟨-, -, t, t', ht, ht', e⟩ := c141_tells_keyframes_apart h h'
  rw [hk] at ht
  rw [hk'] at ht'
  cases ht
  cases ht'
  have r1 := c01_time_text_roundtrip hF root a r ha hr hr6 hroot
  have r2 := c01_time_text_roundtrip hF root b r hb hr hr6 hroot
  rw [e, r2] at r1
  simp only [Except.ok.injEq, T.mk.injEq, and_true] at r1
  exact_mod_cast r1.symm

/-! ## The hypotheses are met -/

/-- An animation with a description and two keyframes. -/
def exKeyed : Node := .tag "canvas" [("fps", .str "24".toList)]
  [.tag "desc" [] [.text "it's".toList],
   .tag "keyframe" [("time", .str "0s".toList), ("active", .str "true".toList)] [],
   .tag "keyframe" [("time", .str "1s 3f".toList), ("active", .str "false".toList)] [.text "the\nend".toList]]

example : keyframesStr double (fun _ => true) exKeyed =
    .ok "Keyframes of [📂animation \"it's\"]:\n  - 0f ''\n  - 1s 3f 'the\\nend' (inactive)".toList := by
  decide +kernel

example : keyframesStr double (fun _ => true) (.tag "canvas" [] []) =
    .ok "Keyframes of [📂animation]:\n  (none)".toList := by
  decide +kernel

/-- A keyframe without `active` can't be shown. -/
example : keyframesStr double (fun _ => true) (.tag "canvas" [] [.tag "keyframe" [("time", .str "0s".toList)] []]) =
    .error .key := by
  decide +kernel

end Sang
