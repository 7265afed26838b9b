import Verif.Spec.TimeText
import Verif.Props.Time
import Mathlib.Data.List.TakeWhile
import Mathlib.Tactic.FinCases
import Mathlib.Tactic.IntervalCases

/-! # Which texts are times -/

namespace Sang

open Spec

/-! ## Cutting -/

theorem numDot_iff (c : Char) : isNumDot c = true ↔ c ∈ "0123456789.".toList := by
  have : "0123456789.".toList = ['0','1','2','3','4','5','6','7','8','9','.'] := by decide
  rw [this]
  constructor
  · intro h
    simp only [isNumDot, isDig, Bool.or_eq_true, Bool.and_eq_true, decide_eq_true_eq, beq_iff_eq] at h
    rcases h with ⟨h1, h2⟩ | rfl
    · obtain ⟨n, hn⟩ : ∃ n, c.toNat = n := ⟨_, rfl⟩
      have hc : c = Char.ofNat n := by rw [← hn, Char.ofNat_toNat]
      rw [hn] at h1 h2
      subst hc
      interval_cases n <;> decide
    · decide
  · intro h
    fin_cases h <;> decide

theorem unit_iff (c : Char) : isUnit c = true ↔ c ∈ "hmsf".toList := by
  have : "hmsf".toList = ['h', 'm', 's', 'f'] := by decide
  rw [this]
  simp [isUnit, or_assoc]

theorem unit_not_num {c : Char} (h : isUnit c = true) : isNumDot c = false := by
  rw [unit_iff] at h
  have : "hmsf".toList = ['h', 'm', 's', 'f'] := by decide
  rw [this] at h
  fin_cases h <;> decide

theorem takeDash_eq (s : Str) : ∃ sign, (sign = [] ∨ sign = ['-']) ∧ s = sign ++ (takeDash s).2 ∧
    (takeDash s).1 = sign.length := by
  unfold takeDash
  split
  · exact ⟨['-'], Or.inr rfl, rfl, rfl⟩
  · exact ⟨[], Or.inl rfl, rfl, rfl⟩

/-- The pattern matches at the start of a text iff a part is there. -/
theorem matchLen_iff (s : Str) (k : ℕ) :
    matchLen s = some k ↔ ∃ p r, s = p ++ r ∧ IsPart p ∧ p.length = k := by
  constructor
  · intro h
    obtain ⟨sign, hs, e, el⟩ := takeDash_eq s
    unfold matchLen at h
    simp only at h
    split at h
    · rename_i x xs u r h1 h2
      split at h
      · rename_i hu
        injection h with h
        refine ⟨sign ++ (takeDash s).2.takeWhile isNumDot ++ [u], r, ?_, ⟨sign, _, u, rfl, hs, by rw [h1]; simp, ?_, (unit_iff u).1 hu⟩, ?_⟩
        · conv_lhs => rw [e, ← List.takeWhile_append_dropWhile (p := isNumDot) (l := (takeDash s).2), h2]
          simp
        · intro c hc
          exact (numDot_iff c).1 (List.mem_takeWhile_imp hc)
        · rw [← h, el]; simp; omega
      · cases h
    · cases h
  · rintro ⟨p, r, rfl, ⟨sign, num, u, rfl, hs, hne, hn, hu⟩, rfl⟩
    have hn' : ∀ c ∈ num, isNumDot c = true := fun c hc => (numDot_iff c).2 (hn c hc)
    have hu' := (unit_iff u).2 hu
    have key := takeWhile_append_cons (c := u) (r := r) hn' (unit_not_num hu')
    obtain ⟨x, xs, rfl⟩ := List.exists_cons_of_ne_nil hne
    have hx : x ≠ '-' := by rintro rfl; exact absurd (hn' '-' (by simp)) (by decide)
    have hd : takeDash (sign ++ x :: xs ++ [u] ++ r) = (sign.length, x :: xs ++ u :: r) := by
      rcases hs with rfl | rfl
      · simp only [List.nil_append, List.cons_append, List.append_assoc, List.length_nil]
        rw [takeDash]
        intro t ht; injection ht with h1; exact hx h1
      · simp [takeDash]
    simp only [matchLen, hd, key.1, key.2]
    simp [hu']
    omega

theorem part_length {p : Str} (h : IsPart p) : ∃ c m k, p = c :: m ∧ m.length = k + 1 := by
  obtain ⟨sign, num, u, rfl, hs, hne, -, -⟩ := h
  obtain ⟨x, xs, rfl⟩ := List.exists_cons_of_ne_nil hne
  rcases hs with rfl | rfl
  · exact ⟨x, xs ++ [u], xs.length, by simp, by simp⟩
  · exact ⟨'-', x :: xs ++ [u], xs.length + 1, by simp, by simp⟩

/-- At most one part begins at a place. -/
theorem part_unique {p p' r r' : Str} (h : IsPart p) (h' : IsPart p') (e : p ++ r = p' ++ r') :
    p = p' ∧ r = r' := by
  have h1 := (matchLen_iff (p ++ r) p.length).2 ⟨p, r, rfl, h, rfl⟩
  have h2 := (matchLen_iff (p ++ r) p'.length).2 ⟨p', r', e, h', rfl⟩
  rw [h1] at h2
  injection h2 with h2
  exact List.append_inj e h2

theorem cut_split {s : Str} {l : List Str} (h : Cut s l) : ∀ acc,
    ∃ x t, l = x :: t ∧ specSplit 0 acc s = (acc.reverse ++ x) :: t := by
  induction h with
  | @rest s h =>
    intro acc
    refine ⟨s, [], rfl, ?_⟩
    induction s generalizing acc with
    | nil => simp [specSplit]
    | cons c s ih =>
      have hm : matchLen (c :: s) = none := by
        cases hm : matchLen (c :: s) with
        | none => rfl
        | some k =>
          obtain ⟨p, r, e, hp, -⟩ := (matchLen_iff _ _).1 hm
          exact absurd hp (h [] p r (by simpa using e))
      rw [specSplit, hm]
      simp only
      rw [ih (fun a p b e => h (c :: a) p b (by simp [e])) (c :: acc)]
      simp
  | @part a p b l hp first r ih =>
    intro acc
    refine ⟨a, p :: l, rfl, ?_⟩
    induction a generalizing acc with
    | nil =>
      obtain ⟨x, t, rfl, hsp⟩ := ih []
      obtain ⟨c, m, k, rfl, hk⟩ := part_length hp
      have hm := (matchLen_iff (c :: m ++ b) _).2 ⟨_, b, rfl, hp, rfl⟩
      simp only [List.nil_append, List.cons_append] at hm ⊢
      rw [specSplit, hm]
      simp only [List.length_cons, hk, Nat.add_sub_cancel]
      rw [specSplit_take k [c] m b hk, hsp]
      simp
    | cons c a iha =>
      have hm : matchLen (c :: a ++ p ++ b) = none := by
        cases hm : matchLen (c :: a ++ p ++ b) with
        | none => rfl
        | some k =>
          obtain ⟨p', r', e, hp', -⟩ := (matchLen_iff _ _).1 hm
          have := first [] p' r' (by simpa using e) hp'
          simp at this
      rw [List.cons_append, List.cons_append] at hm ⊢
      rw [specSplit, hm]
      simp only
      rw [iha (fun a' p' b' e hp' => ?_) (c :: acc)]
      · simp
      · have := first (c :: a') p' b' (by simpa using e) hp'
        simpa using this

theorem cut_exists (s : Str) : ∃ l, Cut s l := by
  induction hn : s.length using Nat.strong_induction_on generalizing s with
  | _ n ih =>
    by_cases h : ∃ k a p b, s = a ++ p ++ b ∧ IsPart p ∧ a.length = k
    · classical
      obtain ⟨a, p, b, rfl, hp, ha⟩ := Nat.find_spec h
      obtain ⟨c, m, k, e, hk⟩ := part_length hp
      obtain ⟨l, hl⟩ := ih b.length (by subst e; simp at hn; omega) b rfl
      refine ⟨a :: p :: l, .part hp (fun a' p' b' e hp' => ?_) hl⟩
      rw [ha]
      exact Nat.find_min' h ⟨a', p', b', e, hp', rfl⟩
    · exact ⟨[s], .rest fun a p b e hp => h ⟨a.length, a, p, b, e, hp, rfl⟩⟩

/-- C140. There is exactly one way of cutting a text into parts. -/
theorem c140_one_way (s : Str) : ∃! l, Cut s l := by
  obtain ⟨l, hl⟩ := cut_exists s
  refine ⟨l, hl, fun l' hl' => ?_⟩
  obtain ⟨x, t, rfl, e⟩ := cut_split hl []
  obtain ⟨x', t', rfl, e'⟩ := cut_split hl' []
  rw [e] at e'
  simpa using e'.symm

theorem cut_specSplit {s : Str} {l : List Str} (h : Cut s l) : specSplit 0 [] s = l := by
  obtain ⟨x, t, rfl, e⟩ := cut_split h []
  simpa using e

/-- How `s` is cut can be computed. -/
theorem cut_of {s : Str} {l : List Str} (h : specSplit 0 [] s = l) : Cut s l := by
  obtain ⟨l', hl⟩ := cut_exists s
  rw [cut_specSplit hl] at h
  exact h ▸ hl

/-- The hypotheses of `c140_…` about the cut are met: text, blanks and parts. -/
example : Cut "1.5s, x2s -3f".toList
    ["".toList, "1.5s".toList, ", x".toList, "2s".toList, " ".toList, "-3f".toList, "".toList] :=
  cut_of (by decide +kernel)

/-! ## Collecting -/

theorem strip_nil_iff (p : Str) : strip p = [] ↔ (p.any fun c => !isSpace c) = false := by
  simp only [strip, List.reverse_eq_nil_iff, List.dropWhile_eq_nil_iff, List.mem_reverse, List.any_eq_false,
    Bool.not_eq_true', Bool.not_eq_false]
  constructor
  · intro h c hc
    by_contra hs
    have hs' : isSpace c = false := by simpa using hs
    have : c ∈ p.dropWhile isSpace := by
      have e := List.takeWhile_append_dropWhile (p := isSpace) (l := p)
      rw [← e] at hc
      rcases List.mem_append.1 hc with h1 | h1
      · rw [List.mem_takeWhile_imp h1] at hs'; cases hs'
      · exact h1
    exact hs (h c this)
  · intro h c hc
    exact h c ((List.dropWhile_sublist _).mem hc)

/-- What a list of pieces says. -/
abbrev SaysAll (F : Fl) : List Str → Parts → Prop := List.Forall₂ fun p a => PieceSays F p a.1 a.2

theorem lookup_none_iff (parts : Parts) (u : Char) : parts.lookup u = none ↔ u ∉ parts.map Prod.fst := by
  induction parts with
  | nil => simp
  | cons a r ih =>
    rw [List.lookup_cons]
    by_cases h : u = a.1
    · simp [h]
    · simp [h, ih, beq_eq_false_iff_ne.2 h]

theorem pyFloat_errors {F : Fl} {s : Str} {e : Err} (h : pyFloat F s = .error e) :
    e = .value ∨ e = .unmodelled := by
  unfold pyFloat at h
  simp only at h
  split at h
  · cases h; exact Or.inr rfl
  · split at h
    · cases h; exact Or.inr rfl
    · split at h
      · cases h; exact Or.inl rfl
      · split at h
        · cases h; exact Or.inl rfl
        · cases h

theorem piece_last {p : Str} (h : (p.any fun c => !isSpace c) = true) : ∃ s u, p = s ++ [u] := by
  rcases List.eq_nil_or_concat p with rfl | ⟨s, u, e⟩
  · simp at h
  · exact ⟨s, u, by simpa using e⟩

theorem says_piece (F : Fl) (s : Str) (u v : Char) (q : ℚ) :
    PieceSays F (s ++ [u]) v q ↔ v = u ∧ pyFloat F s = .ok q := by
  constructor
  · rintro ⟨s', e, h⟩
    obtain ⟨rfl, e'⟩ := List.append_inj' e rfl
    injection e' with e'
    exact ⟨e'.symm, h⟩
  · rintro ⟨rfl, h⟩
    exact ⟨s, rfl, h⟩

theorem addPart_ink (F : Fl) (parts : Parts) (s : Str) (u : Char)
    (h : ((s ++ [u]).any fun c => !isSpace c) = true) :
    addPart F parts (s ++ [u]) = if u ∈ parts.map Prod.fst then .error .value
      else match pyFloat F s with
        | .error e => .error e
        | .ok q => .ok (parts ++ [(u, q)]) := by
  have hs : ¬ strip (s ++ [u]) = [] := by rw [strip_nil_iff, h]; simp
  unfold addPart
  rw [if_neg hs]
  simp only [List.getLast?_append, List.getLast?_singleton, Option.some_or, List.dropLast_concat]
  by_cases hu : u ∈ parts.map Prod.fst
  · rw [if_pos hu]
    cases hl : parts.lookup u with
    | none => exact absurd ((lookup_none_iff _ _).1 hl) (by simpa using hu)
    | some x => rfl
  · rw [if_neg hu, (lookup_none_iff _ _).2 hu]
    cases pyFloat F s <;> rfl

theorem addPart_pale (F : Fl) (parts : Parts) (s : Str)
    (h : (s.any fun c => !isSpace c) = false) :
    addPart F parts s = .ok parts := by
  unfold addPart
  rw [if_pos ((strip_nil_iff s).2 h)]

theorem inked_cons (x : Str) (l : List Str) :
    inked (x :: l) = if (x.any fun c => !isSpace c) = true then x :: inked l else inked l := by
  simp only [inked, List.filter_cons]

/-- The parts that are collected. -/
theorem collect_ok {F : Fl} {l : List Str} : ∀ {parts r : Parts}, (parts.map Prod.fst).Nodup →
    collectParts F parts l = .ok r →
    ∃ as, r = parts ++ as ∧ SaysAll F (inked l) as ∧ (r.map Prod.fst).Nodup := by
  induction l with
  | nil =>
    intro parts r hd h
    simp only [collectParts] at h
    cases h
    exact ⟨[], by simp, .nil, hd⟩
  | cons x l ih =>
    intro parts r hd h
    rw [collectParts] at h
    rw [inked_cons]
    by_cases hx : (x.any fun c => !isSpace c) = true
    · rw [if_pos hx]
      obtain ⟨s, u, rfl⟩ := piece_last hx
      rw [addPart_ink F parts s u hx] at h
      by_cases hu : u ∈ parts.map Prod.fst
      · rw [if_pos hu] at h; cases h
      · rw [if_neg hu] at h
        cases hq : pyFloat F s with
        | error e => rw [hq] at h; cases h
        | ok q =>
          rw [hq] at h
          obtain ⟨as, rfl, ha, hn⟩ := ih (by
            rw [List.map_append, List.nodup_append]
            refine ⟨hd, by simp, ?_⟩
            intro a ha b hb
            simp at hb
            rintro rfl
            rw [hb] at ha
            exact hu ha) h
          exact ⟨(u, q) :: as, by simp, .cons ⟨s, rfl, hq⟩ ha, by simpa using hn⟩
    · rw [if_neg hx]
      rw [addPart_pale F parts x (by simpa using hx)] at h
      exact ih hd h

/-- They are all collected. -/
theorem collect_of {F : Fl} {l : List Str} : ∀ {parts as : Parts}, SaysAll F (inked l) as →
    ((parts ++ as).map Prod.fst).Nodup → collectParts F parts l = .ok (parts ++ as) := by
  induction l with
  | nil =>
    intro parts as ha _
    cases ha
    simp [collectParts]
  | cons x l ih =>
    intro parts as ha hn
    rw [collectParts]
    rw [inked_cons] at ha
    by_cases hx : (x.any fun c => !isSpace c) = true
    · rw [if_pos hx] at ha
      cases ha with
      | @cons _ a _ as' h1 h2 =>
        obtain ⟨s, rfl, hq⟩ := h1
        rw [addPart_ink F parts s a.1 hx]
        have hu : a.1 ∉ parts.map Prod.fst := by
          intro hm
          rw [List.map_append, List.nodup_append] at hn
          exact hn.2.2 _ hm a.1 (by simp) rfl
        rw [if_neg hu, hq]
        simp only
        rw [ih h2 (by simpa using hn)]
        simp
    · rw [if_neg hx] at ha
      rw [addPart_pale F parts x (by simpa using hx)]
      exact ih ha hn

theorem collect_errors {F : Fl} {l : List Str} {e : Err} : ∀ {parts : Parts},
    collectParts F parts l = .error e →
    e = .value ∨ e = .unmodelled ∧ ∃ p ∈ inked l, ∃ s u, p = s ++ [u] ∧ pyFloat F s = .error .unmodelled := by
  induction l with
  | nil => intro parts h; cases h
  | cons x l ih =>
    intro parts h
    rw [collectParts] at h
    rw [inked_cons]
    by_cases hx : (x.any fun c => !isSpace c) = true
    · rw [if_pos hx]
      obtain ⟨s, u, rfl⟩ := piece_last hx
      rw [addPart_ink F parts s u hx] at h
      by_cases hu : u ∈ parts.map Prod.fst
      · rw [if_pos hu] at h; cases h; exact Or.inl rfl
      · rw [if_neg hu] at h
        cases hq : pyFloat F s with
        | error e' =>
          rw [hq] at h
          cases h
          rcases pyFloat_errors hq with rfl | rfl
          · exact Or.inl rfl
          · exact Or.inr ⟨rfl, _, by simp, s, u, rfl, hq⟩
        | ok q =>
          rw [hq] at h
          rcases ih h with he | ⟨he, p, hp, hh⟩
          · exact Or.inl he
          · exact Or.inr ⟨he, p, by simp [hp], hh⟩
    · rw [if_neg hx]
      rw [addPart_pale F parts x (by simpa using hx)] at h
      exact ih h

theorem says_last {F : Fl} {ps : List Str} {as : Parts} (h : SaysAll F ps as) :
    ps.map List.getLast? = as.map fun a => some a.1 := by
  induction h with
  | nil => rfl
  | cons h1 _ ih =>
    obtain ⟨s, rfl, -⟩ := h1
    simp [ih]

theorem nodup_somes (as : Parts) : ((as.map fun a => some a.1).Nodup) ↔ (as.map Prod.fst).Nodup := by
  have : (as.map fun a => some a.1) = (as.map Prod.fst).map some := by simp
  rw [this, List.nodup_map_iff (Option.some_injective _)]

theorem readable_iff (F : Fl) (l : List Str) :
    Readable F l ↔ ∃ as, SaysAll F (inked l) as ∧ (as.map Prod.fst).Nodup := by
  constructor
  · rintro ⟨h1, h2⟩
    have : ∃ as, SaysAll F (inked l) as := by
      revert h2
      generalize inked l = ps
      intro h2
      clear h1
      induction ps with
      | nil => exact ⟨[], .nil⟩
      | cons p ps ih =>
        obtain ⟨u, q, h⟩ := h2 p (by simp)
        obtain ⟨as, ha⟩ := ih fun p hp => h2 p (by simp [hp])
        exact ⟨(u, q) :: as, .cons h ha⟩
    obtain ⟨as, ha⟩ := this
    refine ⟨as, ha, ?_⟩
    rw [says_last ha] at h1
    exact (nodup_somes as).1 h1
  · rintro ⟨as, ha, hn⟩
    refine ⟨by rw [says_last ha]; exact (nodup_somes as).2 hn, ?_⟩
    intro p hp
    obtain ⟨i, hi⟩ := List.mem_iff_get.1 hp
    have hl := ha.length_eq
    have := (List.forall₂_iff_get.1 ha).2 i.1 i.2 (by rw [← hl]; exact i.2)
    rw [← hi]
    exact ⟨_, _, this⟩

/-- What is collected for a unit is what is given for it. -/
theorem lookup_gives {F : Fl} {l : List Str} {as : Parts} (h : SaysAll F (inked l) as)
    (hn : (as.map Prod.fst).Nodup) (u : Char) (q : ℚ) : as.lookup u = some q ↔ Gives F l u q := by
  unfold Gives
  revert h
  generalize inked l = ps
  intro h
  induction h with
  | nil => simp
  | @cons p a ps as h1 h2 ih =>
    rw [List.map_cons, List.nodup_cons] at hn
    have ih := ih hn.2
    obtain ⟨s, rfl, hq⟩ := h1
    rw [List.lookup_cons]
    by_cases hu : u = a.1
    · subst hu
      simp only [beq_self_eq_true, Option.some.injEq, List.mem_cons, exists_eq_or_imp, says_piece, true_and]
      constructor
      · rintro rfl; exact Or.inl hq
      · rintro (h | h)
        · rw [hq] at h; injection h
        · rw [← ih] at h
          exfalso
          apply hn.1
          by_contra hc
          rw [← lookup_none_iff, h] at hc
          cases hc
    · simp only [beq_eq_false_iff_ne.2 hu, ih, List.mem_cons, exists_eq_or_imp, says_piece, hu, false_and, false_or]

theorem framesOf_units {F : Fl} {fps : Option ℚ} {a b : Parts}
    (h : ∀ u ∈ ['h', 'm', 's', 'f'], a.lookup u = b.lookup u) : framesOf F fps a = framesOf F fps b := by
  have hs : secondsOf F a = secondsOf F b := by
    simp only [secondsOf, addSeconds, h 'h' (by simp), h 'm' (by simp), h 's' (by simp)]
  simp only [framesOf, hs, h 'f' (by simp)]

theorem framesOf_errors {F : Fl} {fps : Option ℚ} {a : Parts} {e : Err} (h : framesOf F fps a = .error e) :
    e = .value := by
  unfold framesOf at h
  simp only at h
  split at h
  · rename_i e' h'
    cases h
    split at h'
    · split at h'
      · cases h'; rfl
      · cases h'
    · cases h'
  · split at h
    · cases h
    · split at h
      · cases h; rfl
      · split at h <;> cases h

theorem parseSpec_cut {F : Fl} {fps : Option ℚ} {s : Str} {l : List Str} (h : Cut (strip s) l) :
    parseSpec F fps s = match collectParts F [] l with
      | .error e => .error e
      | .ok parts => framesOf F fps parts := by
  rw [parseSpec, cut_specSplit h]
  cases collectParts F [] l <;> rfl

theorem new_of_text {F : Fl} {root : Option Attrs} {fps : Option ℚ} (hr : readFps F root = .ok fps) (s : Str) :
    T.new F root (.str s) = match parseSpec F fps s with
      | .error e => .error e
      | .ok x => .ok ⟨x, fps⟩ := by
  simp only [T.new, hr]
  cases parseSpec F fps s <;> rfl

/-! ## The property -/

/-- C140. Reading text as a time either succeeds or raises `ValueError`, whatever the text is. (Where the model makes no
claim: digits outside ASCII, and words such as `nan`.) -/
theorem c140_only_value_error {F : Fl} {root : Option Attrs} {fps : Option ℚ} (hr : readFps F root = .ok fps)
    {s : Str} {l : List Str} (hc : Cut (strip s) l)
    (hm : ∀ p ∈ inked l, ∀ t u, p = t ++ [u] → pyFloat F t ≠ .error .unmodelled) {e : Err}
    (h : T.new F root (.str s) = .error e) : e = .value := by
  rw [new_of_text hr, parseSpec_cut hc] at h
  cases hp : collectParts F [] l with
  | error e' =>
    rw [hp] at h
    cases h
    rcases collect_errors hp with rfl | ⟨-, p, hp', t, u, rfl, ht⟩
    · rfl
    · exact absurd ht (hm _ hp' t u rfl)
  | ok parts =>
    rw [hp] at h
    simp only at h
    split at h
    · rename_i e' h'
      cases h
      exact framesOf_errors h'
    · cases h

/-- C140. Text is refused if one of its pieces isn't a number followed by one more character, or if two of them
end with the same character. -/
theorem c140_unreadable_refused {F : Fl} {root : Option Attrs} {fps : Option ℚ} (hr : readFps F root = .ok fps)
    {s : Str} {l : List Str} (hc : Cut (strip s) l)
    (hm : ∀ p ∈ inked l, ∀ t u, p = t ++ [u] → pyFloat F t ≠ .error .unmodelled)
    (h : ¬ Readable F l) : T.new F root (.str s) = .error .value := by
  cases hn : T.new F root (.str s) with
  | error e => rw [c140_only_value_error hr hc hm hn]
  | ok t =>
    exfalso
    rw [new_of_text hr, parseSpec_cut hc] at hn
    cases hp : collectParts F [] l with
    | error e => rw [hp] at hn; cases hn
    | ok parts =>
      obtain ⟨as, e, ha, hd⟩ := collect_ok (by simp) hp
      rw [List.nil_append] at e
      rw [e] at hd
      exact h ((readable_iff F l).2 ⟨as, ha, hd⟩)

/-- C140. Nothing counts but what is given for h, m, s and f: two readable texts which give the same for these are the
same time, whatever else is in them. -/
theorem c140_nothing_else_counts {F : Fl} (root : Option Attrs) {s s' : Str} {l l' : List Str}
    (hc : Cut (strip s) l) (hc' : Cut (strip s') l') (h : Readable F l) (h' : Readable F l')
    (same : ∀ u ∈ "hmsf".toList, ∀ q, Gives F l u q ↔ Gives F l' u q) :
    T.new F root (.str s) = T.new F root (.str s') := by
  cases hr : readFps F root with
  | error e => rw [T.new, T.new, hr]
  | ok fps =>
    obtain ⟨as, ha, hd⟩ := (readable_iff F l).1 h
    obtain ⟨bs, hb, hd'⟩ := (readable_iff F l').1 h'
    have e1 := collect_of (parts := []) ha (by simpa using hd)
    have e2 := collect_of (parts := []) hb (by simpa using hd')
    simp only [List.nil_append] at e1 e2
    rw [new_of_text hr, new_of_text hr, parseSpec_cut hc, parseSpec_cut hc', e1, e2]
    simp only
    rw [framesOf_units (b := bs)]
    intro u hu
    have hu' : u ∈ "hmsf".toList := by
      have e : "hmsf".toList = ['h', 'm', 's', 'f'] := by decide
      rw [e]; exact hu
    have := same u hu'
    simp only [← lookup_gives ha hd, ← lookup_gives hb hd'] at this
    cases h1 : as.lookup u with
    | none =>
      cases h2 : bs.lookup u with
      | none => rfl
      | some q => rw [(this q).2 h2] at h1; cases h1
    | some q => exact ((this q).1 h1).symm

/-- C140. Readable text which gives no amount for h, m or s is as many frames as it gives for f, or none. -/
theorem c140_frames_alone {F : Fl} (hF : F.Lawful) {root : Option Attrs} {fps : Option ℚ}
    (hr : readFps F root = .ok fps) {s : Str} {l : List Str} (hc : Cut (strip s) l) (h : Readable F l)
    (none : ∀ u ∈ "hms".toList, ∀ q, ¬ Gives F l u q) :
    (∀ q, Gives F l 'f' q → T.new F root (.str s) = .ok ⟨q, fps⟩) ∧
    ((∀ q, ¬ Gives F l 'f' q) → T.new F root (.str s) = .ok ⟨0, fps⟩) := by
  obtain ⟨as, ha, hd⟩ := (readable_iff F l).1 h
  have e1 := collect_of (parts := []) ha (by simpa using hd)
  simp only [List.nil_append] at e1
  have hl : ∀ u ∈ "hms".toList, as.lookup u = Option.none := by
    intro u hu
    cases hq : as.lookup u with
    | none => rfl
    | some q => exact absurd ((lookup_gives ha hd u q).1 hq) (none u hu q)
  have ee : "hms".toList = ['h', 'm', 's'] := by decide
  rw [ee] at hl
  have hs : secondsOf F as = Option.none := by
    simp only [secondsOf, addSeconds, hl 'h' (by simp), hl 'm' (by simp), hl 's' (by simp)]
  constructor
  · intro q hq
    have hf := (lookup_gives ha hd 'f' q).2 hq
    have hrep : F.rnd q = q := by
      obtain ⟨p, -, t, -, ht⟩ := hq
      unfold pyFloat at ht
      simp only at ht
      repeat' split at ht
      all_goals cases ht
      exact hF.idem _
    rw [new_of_text hr, parseSpec_cut hc, e1]
    simp [framesOf, hs, hf, hrep]
  · intro hf'
    have hf : as.lookup 'f' = Option.none := by
      cases hq : as.lookup 'f' with
      | none => rfl
      | some q => exact absurd ((lookup_gives ha hd 'f' q).1 hq) (hf' q)
    rw [new_of_text hr, parseSpec_cut hc, e1]
    simp [framesOf, hs, hf]

theorem gives_rep {F : Fl} (hF : F.Lawful) {l : List Str} {u : Char} {q : ℚ} (h : Gives F l u q) : F.rnd q = q := by
  obtain ⟨p, -, t, -, ht⟩ := h
  unfold pyFloat at ht
  simp only at ht
  repeat' split at ht
  all_goals cases ht
  exact hF.idem _

theorem or0_getD {F : Fl} {l : List Str} {as : Parts} (ha : SaysAll F (inked l) as)
    (hd : (as.map Prod.fst).Nodup) {u : Char} {q : ℚ} (h : GivesOr0 F l u q) : (as.lookup u).getD 0 = q := by
  rcases h with h | ⟨rfl, h⟩
  · rw [(lookup_gives ha hd u q).2 h]; rfl
  · cases hl : as.lookup u with
    | none => rfl
    | some x => exact absurd ((lookup_gives ha hd u x).1 hl) (h x)

theorem or0_rep {F : Fl} (hF : F.Lawful) {l : List Str} {u : Char} {q : ℚ} (h : GivesOr0 F l u q) : F.rnd q = q := by
  rcases h with h | ⟨rfl, -⟩
  · exact gives_rep hF h
  · exact hF.zero

theorem addSeconds_getD {F : Fl} (hF : F.Lawful) (as : Parts) (o : Option ℚ) (u : Char) (k : ℚ)
    (ho : F.rnd (o.getD 0) = o.getD 0) :
    (addSeconds F as o u k).getD 0 = F.rnd (o.getD 0 + F.rnd ((as.lookup u).getD 0 * k)) := by
  unfold addSeconds
  cases as.lookup u with
  | none => simp [ho, hF.zero]
  | some x => rfl

theorem secondsOf_getD {F : Fl} (hF : F.Lawful) (as : Parts)
    (hs : F.rnd ((as.lookup 's').getD 0) = (as.lookup 's').getD 0) :
    (secondsOf F as).getD 0 =
      wholeSeconds F ((as.lookup 'h').getD 0) ((as.lookup 'm').getD 0) ((as.lookup 's').getD 0) := by
  have e1 := addSeconds_getD hF as none 'h' 3600 (by simpa using hF.zero)
  have e2 := addSeconds_getD hF as (addSeconds F as none 'h' 3600) 'm' 60 (by rw [e1]; exact hF.idem _)
  have e3 := addSeconds_getD hF as (addSeconds F as (addSeconds F as none 'h' 3600) 'm' 60) 's' 1
    (by rw [e2]; exact hF.idem _)
  rw [secondsOf, e3, e2, e1, wholeSeconds]
  simp [hs, hF.idem]

theorem framesOf_eq {F : Fl} (hF : F.Lawful) (fps : Option ℚ) {l : List Str} {as : Parts}
    (ha : SaysAll F (inked l) as) (hd : (as.map Prod.fst).Nodup) {h m s f : ℚ}
    (gh : GivesOr0 F l 'h' h) (gm : GivesOr0 F l 'm' m) (gs : GivesOr0 F l 's' s) (gf : GivesOr0 F l 'f' f) :
    framesOf F fps as =
      if wholeSeconds F h m s = 0 then .ok f
      else match fps with
        | none => .error .value
        | some r =>
          if f < 0 then .error .value
          else if wholeSeconds F h m s < 0 then .ok (F.rnd (F.rnd (wholeSeconds F h m s * r) - f))
          else .ok (F.rnd (F.rnd (wholeSeconds F h m s * r) + f)) := by
  have es := secondsOf_getD hF as (by rw [or0_getD ha hd gs]; exact or0_rep hF gs)
  rw [or0_getD ha hd gh, or0_getD ha hd gm, or0_getD ha hd gs] at es
  have hf := or0_getD ha hd gf
  have hfr := or0_rep hF gf
  unfold framesOf
  simp only [es]
  generalize wholeSeconds F h m s = w
  by_cases hw : w = 0
  · subst hw
    cases hl : as.lookup 'f' with
    | none => rw [hl] at hf; simp at hf; simp [hf]
    | some x => rw [hl] at hf; simp at hf; subst hf; simp [hfr]
  · simp only [hw, if_false, ne_eq, not_false_eq_true, if_true, true_and]
    cases fps with
    | none => rfl
    | some r =>
      cases hl : as.lookup 'f' with
      | none =>
        rw [hl] at hf
        simp at hf
        subst hf
        simp [hF.idem]
      | some x => rw [hl] at hf; simp at hf; subst hf; simp [hF.idem]

theorem or0_exists (F : Fl) (l : List Str) (u : Char) : ∃ q, GivesOr0 F l u q := by
  by_cases h : ∃ q, Gives F l u q
  · exact ⟨h.choose, Or.inl h.choose_spec⟩
  · exact ⟨0, Or.inr ⟨rfl, fun q hq => h ⟨q, hq⟩⟩⟩

/-- C140. What a readable text is, in full: without seconds it is as many frames as it says. With seconds, it needs a
frame rate and frames that aren't negative, and the frames go on from the seconds, away from zero. -/
theorem c140_value {F : Fl} (hF : F.Lawful) {root : Option Attrs} {fps : Option ℚ}
    (hr : readFps F root = .ok fps) {text : Str} {l : List Str} (hc : Cut (strip text) l) (hd : Readable F l)
    {h m s f : ℚ} (gh : GivesOr0 F l 'h' h) (gm : GivesOr0 F l 'm' m) (gs : GivesOr0 F l 's' s)
    (gf : GivesOr0 F l 'f' f) :
    T.new F root (.str text) =
      if wholeSeconds F h m s = 0 then .ok ⟨f, fps⟩
      else match fps with
        | none => .error .value
        | some r =>
          if f < 0 then .error .value
          else if wholeSeconds F h m s < 0 then .ok ⟨F.rnd (F.rnd (wholeSeconds F h m s * r) - f), fps⟩
          else .ok ⟨F.rnd (F.rnd (wholeSeconds F h m s * r) + f), fps⟩ := by
  obtain ⟨as, ha, hn⟩ := (readable_iff F l).1 hd
  have e1 := collect_of (parts := []) ha (by simpa using hn)
  simp only [List.nil_append] at e1
  rw [new_of_text hr, parseSpec_cut hc, e1]
  simp only
  rw [framesOf_eq hF fps ha hn gh gm gs gf]
  by_cases hw : wholeSeconds F h m s = 0
  · simp [hw]
  · cases fps with
    | none => simp [hw]
    | some r =>
      by_cases h1 : f < 0
      · simp [hw, h1]
      · by_cases h2 : wholeSeconds F h m s < 0
        · simp [hw, h1, h2]
        · simp [hw, h1, h2]

/-- C140. Exactly which texts are accepted: the readable ones, but for those with seconds where there is no frame
rate, and those with both seconds and negative frames. -/
theorem c140_accepted_iff {F : Fl} (hF : F.Lawful) {root : Option Attrs} {fps : Option ℚ}
    (hr : readFps F root = .ok fps) {text : Str} {l : List Str} (hc : Cut (strip text) l) :
    (∃ t, T.new F root (.str text) = .ok t) ↔
      Readable F l ∧ ∀ h m s f, GivesOr0 F l 'h' h → GivesOr0 F l 'm' m → GivesOr0 F l 's' s → GivesOr0 F l 'f' f →
        wholeSeconds F h m s ≠ 0 → fps ≠ none ∧ 0 ≤ f := by
  constructor
  · rintro ⟨t, ht⟩
    have hd : Readable F l := by
      have hn := ht
      rw [new_of_text hr, parseSpec_cut hc] at hn
      cases hp : collectParts F [] l with
      | error e => rw [hp] at hn; cases hn
      | ok parts =>
        obtain ⟨as, e, ha, hd⟩ := collect_ok (by simp) hp
        rw [List.nil_append] at e
        rw [e] at hd
        exact (readable_iff F l).2 ⟨as, ha, hd⟩
    refine ⟨hd, fun h m s f gh gm gs gf hw => ?_⟩
    rw [c140_value hF hr hc hd gh gm gs gf, if_neg hw] at ht
    cases fps with
    | none => cases ht
    | some r =>
      refine ⟨by simp, ?_⟩
      by_contra hf
      simp only [if_pos (not_le.1 hf)] at ht
      cases ht
  · rintro ⟨hd, hh⟩
    obtain ⟨h, gh⟩ := or0_exists F l 'h'
    obtain ⟨m, gm⟩ := or0_exists F l 'm'
    obtain ⟨s, gs⟩ := or0_exists F l 's'
    obtain ⟨f, gf⟩ := or0_exists F l 'f'
    rw [c140_value hF hr hc hd gh gm gs gf]
    by_cases hw : wholeSeconds F h m s = 0
    · exact ⟨_, if_pos hw⟩
    · obtain ⟨h1, h2⟩ := hh h m s f gh gm gs gf hw
      rw [if_neg hw]
      cases fps with
      | none => exact absurd rfl h1
      | some r =>
        simp only [if_neg (not_lt.2 h2)]
        split
        · exact ⟨_, rfl⟩
        · exact ⟨_, rfl⟩

/-! ## A number with no unit -/

theorem cut_digits {ds : Str} (h : ∀ c ∈ ds, isDig c = true) : Cut ds [ds] := by
  refine .rest fun a p b e hp => ?_
  obtain ⟨sign, num, u, rfl, -, -, -, hu⟩ := hp
  have h1 := h u (by rw [e]; simp)
  have h2 := unit_not_num ((unit_iff u).2 hu)
  simp [isNumDot, h1] at h2

theorem strip_digits {ds : Str} (h : ∀ c ∈ ds, isDig c = true) : strip ds = ds :=
  strip_noSpace fun c hc => numCh_not_space (numCh_of_isDig (h c hc))

theorem inked_digits {ds : Str} (h : ∀ c ∈ ds, isDig c = true) (hn : ds ≠ []) : inked [ds] = [ds] := by
  rw [inked_cons, if_pos]
  · rfl
  · obtain ⟨c, r, rfl⟩ := List.exists_cons_of_ne_nil hn
    simp only [List.any_cons, numCh_not_space (numCh_of_isDig (h c (by simp)))]
    rfl

/-- C140, where it fails. A number of two digits or more, with no unit, is accepted, and is no frames at all, whatever
the number is: `T("12")`, `T("48")` and `T("1000")` are all zero. -/
theorem c140_fails_number_is_zero {F : Fl} (hF : F.Lawful) {root : Option Attrs} {fps : Option ℚ}
    (hr : readFps F root = .ok fps) {ds : Str} (h : ∀ c ∈ ds, isDig c = true) (hl : 2 ≤ ds.length) :
    T.new F root (.str ds) = .ok ⟨0, fps⟩ := by
  have hne : ds ≠ [] := by rintro rfl; simp at hl
  have hc : Cut (strip ds) [ds] := by rw [strip_digits h]; exact cut_digits h
  rcases List.eq_nil_or_concat ds with rfl | ⟨s, u, e⟩
  · exact absurd rfl hne
  rw [List.concat_eq_append] at e
  have hs : s ≠ [] := by rintro rfl; simp [e] at hl
  have hsd : ∀ c ∈ s, isDig c = true := fun c hc => h c (by rw [e]; simp [hc])
  have hu : isDig u = true := h u (by rw [e]; simp)
  have hq : ∃ q, pyFloat F s = .ok q := by
    rw [pyFloat_plain F (fun c hc => numCh_of_isDig (hsd c hc)), parse_digits (digits_takeSign hsd) hsd hs]
    exact ⟨_, rfl⟩
  obtain ⟨q, hq⟩ := hq
  have hi := inked_digits h hne
  have no : ∀ v ∈ "hmsf".toList, ∀ q, ¬ Gives F [ds] v q := by
    rintro v hv q ⟨p, hp, hs⟩
    rw [hi, List.mem_singleton] at hp
    rw [hp, e, says_piece] at hs
    have h2 := unit_not_num ((unit_iff v).2 hv)
    rw [hs.1] at h2
    simp [isNumDot, hu] at h2
  refine (c140_frames_alone hF hr hc ⟨by rw [hi]; simp, ?_⟩ ?_).2 ?_
  · intro p hp
    rw [hi, List.mem_singleton] at hp
    exact ⟨u, q, s, hp.trans e, hq⟩
  · intro v hv
    refine no v ?_
    have e1 : "hms".toList = ['h', 'm', 's'] := by decide
    have e2 : "hmsf".toList = ['h', 'm', 's', 'f'] := by decide
    rw [e1] at hv
    rw [e2]
    simp at hv ⊢
    tauto
  · exact no 'f' (by decide)

/-- C140. But a single digit with no unit is refused. -/
theorem c140_digit_refused {F : Fl} {root : Option Attrs} {fps : Option ℚ}
    (hr : readFps F root = .ok fps) {d : Char} (h : isDig d = true) :
    T.new F root (.str [d]) = .error .value := by
  have h' : ∀ c ∈ [d], isDig c = true := by simpa using h
  have hc : Cut (strip [d]) [[d]] := by rw [strip_digits h']; exact cut_digits h'
  have hi := inked_digits h' (by simp)
  have hnil : pyFloat F [] = .error .value := rfl
  refine c140_unreadable_refused hr hc ?_ ?_
  · intro p hp t u e
    rw [hi, List.mem_singleton] at hp
    rw [hp] at e
    have : t = [] := by
      rcases t with _ | ⟨x, t⟩
      · rfl
      · simp at e
    rw [this, hnil]
    simp
  · rintro ⟨-, h2⟩
    obtain ⟨u, q, s, e, hq⟩ := h2 [d] (by rw [hi]; simp)
    have : s = [] := by
      rcases s with _ | ⟨x, s⟩
      · rfl
      · simp at e
    rw [this, hnil] at hq
    cases hq

/-! ## The hypotheses are met -/

/-- `5s 3f 7x` is readable: it says 5 for s, 3 for f, and 7 for x, of which nothing comes. -/
theorem timeText_sample : Cut (strip "5s 3f 7x".toList)
      ["".toList, "5s".toList, " ".toList, "3f".toList, " 7x".toList] ∧
    Readable double ["".toList, "5s".toList, " ".toList, "3f".toList, " 7x".toList] := by
  have h5 : pyFloat double "5".toList = .ok 5 := by decide +kernel
  have h3 : pyFloat double "3".toList = .ok 3 := by decide +kernel
  have h7 : pyFloat double " 7".toList = .ok 7 := by decide +kernel
  refine ⟨cut_of (by decide +kernel), by decide +kernel, ?_⟩
  intro p hp
  have hi : inked ["".toList, "5s".toList, " ".toList, "3f".toList, " 7x".toList] =
    ["5s".toList, "3f".toList, " 7x".toList] := by decide +kernel
  rw [hi] at hp
  simp only [List.mem_cons, List.not_mem_nil, or_false] at hp
  rcases hp with rfl | rfl | rfl
  · exact ⟨'s', 5, "5".toList, by decide, h5⟩
  · exact ⟨'f', 3, "3".toList, by decide, h3⟩
  · exact ⟨'x', 7, " 7".toList, by decide, h7⟩

/-- `c140_nothing_else_counts`, `c140_value` and `c140_accepted_iff`: without the last piece it is the same. -/
example : T.new double (some [("fps", .str "24".toList)]) (.str "5s 3f 7x".toList) = .ok ⟨123, some 24⟩ ∧
    T.new double (some [("fps", .str "24".toList)]) (.str "5s 3f".toList) = .ok ⟨123, some 24⟩ := by
  decide +kernel

/-- `c140_frames_alone`: no h, m or s. -/
example : T.new double none (.str "3f 7x".toList) = .ok ⟨3, none⟩ ∧ T.new double none (.str "7x".toList) = .ok ⟨0, none⟩ := by
  decide +kernel

/-- `c140_unreadable_refused` and `c140_only_value_error`: a word, a unit given twice, and no number. -/
example : T.new double none (.str "soon".toList) = .error .value ∧
    T.new double none (.str "3f 3f".toList) = .error .value ∧
    T.new double none (.str "f".toList) = .error .value := by
  decide +kernel

/-- `c140_fails_number_is_zero` and `c140_digit_refused`. -/
example : T.new double none (.str "12".toList) = .ok ⟨0, none⟩ ∧ T.new double none (.str "48".toList) = .ok ⟨0, none⟩ ∧
    T.new double none (.str "5".toList) = .error .value := by
  decide +kernel

end Sang
