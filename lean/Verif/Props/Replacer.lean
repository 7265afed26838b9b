import Verif.Lemmas.Replacer
import Verif.Lemmas.Reload

/-! # Block replacement: C62, C63, C64, C91 -/

namespace Sang
open Spec

/-! ## Running over lines -/

theorem replaceLines_append (fields : RFields) (st st' : RState) (a b : List Str)
    (h : replaceLines fields st a = (st', .ok ())) :
    replaceLines fields st (a ++ b) = replaceLines fields st' b := by
  induction a generalizing st with
  | nil => simp only [replaceLines] at h; injection h with h; rw [h]; rfl
  | cons l r ih =>
    rw [List.cons_append]
    simp only [replaceLines] at h ⊢
    match hl : replaceLine fields st l, h with
    | (st1, .error e), h => simp at h
    | (st1, .ok ()), h => exact ih st1 h

theorem replaceLines_error (fields : RFields) (st st' : RState) (e : Err) (a b : List Str)
    (h : replaceLines fields st a = (st', .error e)) :
    replaceLines fields st (a ++ b) = (st', .error e) := by
  induction a generalizing st with
  | nil => simp [replaceLines] at h
  | cons l r ih =>
    rw [List.cons_append]
    simp only [replaceLines] at h ⊢
    match hl : replaceLine fields st l, h with
    | (st1, .error e), h => simpa using h
    | (st1, .ok ()), h => exact ih st1 h

theorem replaceLine_ordinary (fields : RFields) (st : RState) (l : Str) (h : Ordinary l) :
    replaceLine fields st l =
      ({ st with result := st.result ++ (if st.ignore then [] else l),
                 latest := latestAfter st.latest [l] }, .ok ()) := by
  simp only [replaceLine, ordinary_startMark h, ordinary_endMark h, latestAfter, List.foldl_cons,
    List.foldl_nil, if_neg Bool.false_ne_true]
  cases st.ignore <;> simp <;> rfl

theorem replaceLines_ordinary (fields : RFields) (st : RState) (ls : List Str)
    (h : ∀ l ∈ ls, Ordinary l) :
    replaceLines fields st ls =
      ({ st with result := st.result ++ (if st.ignore then [] else ls.flatten),
                 latest := latestAfter st.latest ls }, .ok ()) := by
  induction ls generalizing st with
  | nil => simp [replaceLines, latestAfter]
  | cons l r ih =>
    simp only [replaceLines, replaceLine_ordinary fields st l (h l (by simp))]
    rw [ih _ fun m hm => h m (by simp [hm])]
    cases st.ignore <;> simp [latestAfter]

theorem replaceLine_end (fields : RFields) (st : RState) (z rest : Str) (h : IsEnd z rest) (nm : Str)
    (hb : st.block = some nm) :
    replaceLine fields st z =
      ({ st with result := st.result ++ (if st.ignore then ['\n'] else []) ++ endLine st.indent rest,
                 block := none, ignore := false }, .ok ()) := by
  have h1 := (endMark_iff z).2 ⟨rest, h⟩
  simp only [replaceLine, isEnd_startMark h, isEnd_className h, h1, hb, strip_end h, if_true]
  simp [endLine, blanks, spaces]

/-- Which class name a block uses, and what is left. -/
def Named (cls : Option Str) (written name : Str) (cls1 : Option Str) : Prop :=
  written = [] ∧ cls = some name ∧ cls1 = none ∨ written ≠ [] ∧ name = written ∧ cls1 = cls

theorem replaceLine_start (fields : RFields) (st : RState) (a : Str) (k : ℕ) (written name : Str)
    (cls1 : Option Str) (h : IsStart a k written) (hn : Named st.latest written name cls1) :
    replaceLine fields st a = (enterBlock fields a k name cls1 st, .ok ()) := by
  have h1 := (startMark_iff a k written).2 h
  simp only [replaceLine, h1, isStart_className h]
  rcases hn with ⟨rfl, h2, rfl⟩ | ⟨h2, rfl, rfl⟩
  · simp only [h2]
  · cases name with
    | nil => exact absurd rfl h2
    | cons c r => rfl

theorem lastClass_single {cls cls' : Option Str} {l : Str} (h : LastClass cls [l] cls') :
    cls' = latestAfter cls [l] := (latestAfter_iff _ _ _).1 h

theorem run_segs (fields : RFields) {cls : Option Str} {segs out : List Seg} {b : Bool}
    {names : List Str} (h : Outcome fields cls segs out b names) (hok : ∀ s ∈ segs, s.Ok) (st : RState)
    (hb : st.block = none) (hi : st.ignore = false) (hl : st.latest = cls) :
    ∃ st', replaceLines fields st (segLines segs) = (st', .ok ()) ∧ st'.block = none ∧
      st'.ignore = false ∧ st'.result = st.result ++ segText out ∧
      st'.changed = (st.changed || b) ∧ st'.seen = names.reverse ++ st.seen := by
  induction h generalizing st with
  | nil => exact ⟨st, rfl, hb, hi, by simp [segText, segLines], by simp, by simp⟩
  | @line cls cls' l r out b ns h1 _ ih =>
    have ho : Ordinary l := hok (.line l) (by simp)
    obtain ⟨st', e1, e2, e3, e4, e5, e6⟩ := ih (fun s hs => hok s (by simp [hs]))
      { st with result := st.result ++ l, latest := latestAfter st.latest [l] } hb hi
      (by rw [lastClass_single h1, hl])
    refine ⟨st', ?_, e2, e3, ?_, e5, e6⟩
    · have : segLines (.line l :: r) = l :: segLines r := rfl
      rw [this]
      simp only [replaceLines, replaceLine_ordinary fields st l ho]
      simp only [hi] at e1 ⊢
      exact e1
    · rw [e4]; simp [segText, segLines, Seg.lines]
  | @kept cls cls1 cls2 k written name a body z rest r out b ns h1 h2 h3 h4 h5 _ ih =>
    have ho := (hok (.block a body z) (by simp)).2.1
    obtain ⟨st', e1, e2, e3, e4, e5, e6⟩ := ih (fun s hs => hok s (by simp [hs]))
      { st with result := st.result ++ a ++ body.flatten ++ endLine k rest, latest := cls2,
                indent := k, seen := name :: st.seen } hb hi rfl
    refine ⟨st', ?_, e2, e3, ?_, e5, ?_⟩
    · have : segLines (.block a body z :: r) = a :: (body ++ (z :: segLines r)) := by
        simp [segLines, Seg.lines]
      rw [this, replaceLines, replaceLine_start fields st a k written name cls1 h1 (by rw [hl]; exact h2)]
      simp only [enterBlock, h3]
      rw [replaceLines_append _ _ _ _ _ (replaceLines_ordinary fields _ body ho)]
      rw [replaceLines, replaceLine_end fields _ z rest h4 name rfl]
      rw [← (latestAfter_iff _ _ _).1 h5]
      simp only [if_neg Bool.false_ne_true, List.append_nil]
      simp only [hb, hi] at e1
      exact e1
    · rw [e4]; simp [segText, segLines, Seg.lines]
    · rw [e6]; simp
  | @replaced cls cls1 cls2 k written name a body z rest v ws r out b ns h1 h2 h3 h3' h4 h5 _ ih =>
    have ho := (hok (.block a body z) (by simp)).2.1
    obtain ⟨st', e1, e2, e3, e4, e5, e6⟩ := ih (fun s hs => hok s (by simp [hs]))
      { st with result := st.result ++ a ++ blockText k v ++ ['\n'] ++ endLine k rest, latest := cls2,
                indent := k, seen := name :: st.seen, changed := true } hb hi rfl
    refine ⟨st', ?_, e2, e3, ?_, ?_, ?_⟩
    · have : segLines (.block a body z :: r) = a :: (body ++ (z :: segLines r)) := by
        simp [segLines, Seg.lines]
      rw [this, replaceLines, replaceLine_start fields st a k written name cls1 h1 (by rw [hl]; exact h2)]
      simp only [enterBlock, h3]
      rw [replaceLines_append _ _ _ _ _ (replaceLines_ordinary fields _ body ho)]
      rw [replaceLines, replaceLine_end fields _ z rest h4 name rfl]
      rw [← (latestAfter_iff _ _ _).1 h5]
      simp only [if_true, List.append_nil]
      simp only [hb, hi] at e1
      exact e1
    · rw [e4]
      have := blockText_newline k h3'
      simp only [segText, segLines, Seg.lines, List.flatMap_cons, List.flatten_append, List.flatten_cons,
        List.flatten_nil, List.append_nil]
      rw [← this]
      simp
    · rw [e5]; simp
    · rw [e6]; simp

/-! ## C63: what changes -/

/-- C63. A well-marked file is rewritten as the specification says: lines outside blocks, and the contents
of blocks without a replacement, are kept; the others get their replacement; end markers are indented as
their start markers. It is written only if some block had a replacement. -/
theorem c63_only_named_blocks_change (fields : RFields) (hf : fields ≠ []) (seen : List Str) (text : Str)
    (segs out : List Seg) (b : Bool) (names : List Str) (hok : ∀ s ∈ segs, s.Ok)
    (hfile : IsFile (segLines segs)) (htext : newlines text = segText segs)
    (h : Outcome fields none segs out b names) :
    handleText fields seen text =
      (names.reverse ++ seen, .ok (if b then some (segText out) else none)) := by
  obtain ⟨st', e1, e2, -, e4, e5, e6⟩ := run_segs fields h hok (.start seen) rfl rfl rfl
  rw [handleText, if_neg hf, htext, segText, fileLines_flatten _ hfile, e1]
  simp only [e2, Option.isSome_none, if_neg Bool.false_ne_true, e4, e5, e6]
  simp [RState.start]


/-- Making the specification's outcome from the code's. -/
theorem outcome_exists (fields : RFields) (segs : List Seg) (hok : ∀ s ∈ segs, s.Ok) (st st' : RState)
    (hb : st.block = none) (hi : st.ignore = false)
    (h : replaceLines fields st (segLines segs) = (st', .ok ())) :
    ∃ out b names, Outcome fields st.latest segs out b names := by
  induction segs generalizing st with
  | nil => exact ⟨_, _, _, .nil⟩
  | cons s r ih =>
    cases s with
    | line l =>
      have ho : Ordinary l := hok (.line l) (by simp)
      have e : segLines (.line l :: r) = l :: segLines r := rfl
      rw [e] at h
      simp only [replaceLines, replaceLine_ordinary fields st l ho] at h
      obtain ⟨out, b, names, H⟩ := ih (fun s hs => hok s (by simp [hs])) _ (by exact hb) (by exact hi) h
      exact ⟨_, _, _, .line ((latestAfter_iff _ _ _).2 rfl) H⟩
    | block a body z =>
      obtain ⟨⟨k, w, h1⟩, ho, rest, h4⟩ := hok (.block a body z) (by simp)
      have e : segLines (.block a body z :: r) = a :: (body ++ (z :: segLines r)) := by
        simp [segLines, Seg.lines]
      rw [e] at h
      have hname : ∃ name cls1, Named st.latest w name cls1 := by
        cases hw : w with
        | cons c v => exact ⟨_, _, Or.inr ⟨by simp, rfl, rfl⟩⟩
        | nil =>
          cases hl : st.latest with
          | some c => exact ⟨c, none, Or.inl ⟨rfl, rfl, rfl⟩⟩
          | none =>
            have hm := (startMark_iff a k w).2 h1
            rw [hw] at hm
            simp [replaceLines, replaceLine, hm, isStart_className h1, hl] at h
      obtain ⟨name, cls1, hn⟩ := hname
      rw [replaceLines, replaceLine_start fields st a k w name cls1 h1 hn] at h
      simp only [enterBlock] at h
      cases hv : fields.lookup name with
      | none =>
        simp only [hv] at h
        rw [replaceLines_append _ _ _ _ _ (replaceLines_ordinary fields _ body ho), replaceLines,
          replaceLine_end fields _ z rest h4 name rfl] at h
        obtain ⟨out, b, names, H⟩ := ih (fun s hs => hok s (by simp [hs])) _ rfl rfl h
        exact ⟨_, _, _, .kept h1 hn hv h4 ((latestAfter_iff _ _ _).2 rfl) H⟩
      | some v =>
        simp only [hv] at h
        rw [replaceLines_append _ _ _ _ _ (replaceLines_ordinary fields _ body ho), replaceLines,
          replaceLine_end fields _ z rest h4 name rfl] at h
        obtain ⟨out, b, names, H⟩ := ih (fun s hs => hok s (by simp [hs])) _ rfl rfl h
        exact ⟨_, _, _, .replaced h1 hn hv (isLines_splitNl v) h4 ((latestAfter_iff _ _ _).2 rfl) H⟩

/-- C63. And every well-marked file that isn't refused has such an outcome. -/
theorem c63_outcome_exists (fields : RFields) (hf : fields ≠ []) (seen : List Str) (text : Str)
    (segs : List Seg) (hok : ∀ s ∈ segs, s.Ok) (hfile : IsFile (segLines segs))
    (htext : newlines text = segText segs) (r : Option Str)
    (h : (handleText fields seen text).2 = .ok r) :
    ∃ out b names, Outcome fields none segs out b names := by
  rw [handleText, if_neg hf, htext, segText, fileLines_flatten _ hfile] at h
  match hr : replaceLines fields (.start seen) (segLines segs) with
  | (st', .error e) => rw [hr] at h; simp at h
  | (st', .ok ()) => exact outcome_exists fields segs hok (.start seen) st' rfl rfl hr

/-! ## C63: what is refused -/

theorem inBlock_append (ls : List Str) (l : Str) :
    InBlock (ls ++ [l]) ↔ (∃ k name, IsStart l k name) ∨ (Ordinary l ∧ InBlock ls) := by
  constructor
  · rintro ⟨pre, m, post, e, h1, h2⟩
    rcases List.eq_nil_or_concat post with rfl | ⟨post', c, rfl⟩
    · have := List.append_inj_right' e rfl
      injection this with this
      exact Or.inl (this ▸ h1)
    · rw [List.concat_eq_append] at e h2
      have e' : ls ++ [l] = (pre ++ m :: post') ++ [c] := by rw [e]; simp
      obtain ⟨e1, e2⟩ := List.append_inj' e' rfl
      injection e2 with e2
      subst e2
      exact Or.inr ⟨h2 l (by simp), pre, m, post', e1, h1, fun x hx => h2 x (by simp [hx])⟩
  · rintro (h | ⟨h, pre, m, post, rfl, h1, h2⟩)
    · exact ⟨ls, l, [], rfl, h, by simp⟩
    · refine ⟨pre, m, post ++ [l], by simp, h1, fun x hx => ?_⟩
      rw [List.mem_append, List.mem_singleton] at hx
      rcases hx with hx | rfl
      · exact h2 x hx
      · exact h

theorem available_append_start (ls : List Str) (l : Str) (k : ℕ) (h : IsStart l k []) (c : Str) :
    ¬ Available (ls ++ [l]) c := by
  rintro ⟨pre, post, e, h1, h2, h3⟩
  rcases List.eq_nil_or_concat post with rfl | ⟨post', d, rfl⟩
  · rw [latestAfter_iff] at h3; cases h3
  · rw [List.concat_eq_append, ← List.append_assoc] at e
    obtain ⟨-, e2⟩ := List.append_inj' e rfl
    injection e2 with e2
    subst e2
    exact h2 l (by simp) ⟨k, h⟩

theorem latestAfter_append (cls : Option Str) (ls : List Str) (l : Str) :
    latestAfter cls (ls ++ [l]) = match className l with
      | some d => some d
      | none => latestAfter cls ls := by
  rw [latestAfter, List.foldl_append]; rfl

theorem available_append (ls : List Str) (l : Str) (h : ¬ ∃ k, IsStart l k []) (c : Str) :
    Available (ls ++ [l]) c ↔ (match className l with
      | some d => c = d
      | none => Available ls c) := by
  constructor
  · rintro ⟨pre, post, e, h1, h2, h3⟩
    rcases List.eq_nil_or_concat post with rfl | ⟨post', d, rfl⟩
    · rw [latestAfter_iff] at h3; cases h3
    · rw [List.concat_eq_append, ← List.append_assoc] at e
      obtain ⟨e1, e2⟩ := List.append_inj' e rfl
      injection e2 with e2
      subst e2
      rw [List.concat_eq_append] at h2 h3
      rw [latestAfter_iff, latestAfter_append] at h3
      cases hc : className l with
      | some d => rw [hc] at h3; injection h3
      | none =>
        rw [hc] at h3
        exact ⟨pre, post', e1, h1, fun x hx => h2 x (by simp [hx]), (latestAfter_iff _ _ _).2 h3⟩
  · intro h3
    cases hc : className l with
    | some d =>
      rw [hc] at h3
      simp only at h3
      subst h3
      obtain ⟨pre, post, e, h1, h2⟩ : ∃ pre post, ls = pre ++ post ∧
          (pre = [] ∨ ∃ a l k, pre = a ++ [l] ∧ IsStart l k []) ∧ (∀ l ∈ post, ¬ ∃ k, IsStart l k []) := by
        clear h hc
        induction ls using List.reverseRecOn with
        | nil => exact ⟨[], [], rfl, Or.inl rfl, by simp⟩
        | append_singleton r m ih =>
          by_cases hm : ∃ k, IsStart m k []
          · obtain ⟨k, hk⟩ := hm
            exact ⟨r ++ [m], [], by simp, Or.inr ⟨r, m, k, rfl, hk⟩, by simp⟩
          · obtain ⟨pre, post, e, h1, h2⟩ := ih
            refine ⟨pre, post ++ [m], by simp [e], h1, fun x hx => ?_⟩
            rw [List.mem_append, List.mem_singleton] at hx
            rcases hx with hx | rfl
            · exact h2 x hx
            · exact hm
      refine ⟨pre, post ++ [l], by simp [e], h1, fun x hx => ?_, ?_⟩
      · rw [List.mem_append, List.mem_singleton] at hx
        rcases hx with hx | rfl
        · exact h2 x hx
        · exact h
      · rw [latestAfter_iff, latestAfter_append, hc]
    | none =>
      rw [hc] at h3
      obtain ⟨pre, post, e, h1, h2, h4⟩ := h3
      refine ⟨pre, post ++ [l], by simp [e], h1, fun x hx => ?_, ?_⟩
      · rw [List.mem_append, List.mem_singleton] at hx
        rcases hx with hx | rfl
        · exact h2 x hx
        · exact h
      · rw [latestAfter_iff] at h4 ⊢
        rw [latestAfter_append, hc]
        exact h4

/-- What one line does to the variables that decide about errors. -/
theorem replaceLine_cases (fields : RFields) (st : RState) (l : Str) :
    (Ordinary l ∧ ∃ st', replaceLine fields st l = (st', .ok ()) ∧ st'.block = st.block ∧
      st'.latest = latestAfter st.latest [l]) ∨
    ((∃ rest, IsEnd l rest) ∧ ∃ st', (st.block = none ∧ replaceLine fields st l = (st', .error .value)) ∨
      (st.block ≠ none ∧ replaceLine fields st l = (st', .ok ()) ∧ st'.block = none ∧
        st'.latest = st.latest)) ∨
    ((∃ k, IsStart l k []) ∧ ∃ st',
      (st.latest = none ∧ replaceLine fields st l = (st', .error .value)) ∨
      (st.latest ≠ none ∧ replaceLine fields st l = (st', .ok ()) ∧ st'.block ≠ none ∧
        st'.latest = none)) ∨
    ((∃ k name, name ≠ [] ∧ IsStart l k name) ∧ ∃ st', replaceLine fields st l = (st', .ok ()) ∧
      st'.block ≠ none ∧ st'.latest = st.latest) := by
  have henter : ∀ k name cls, (enterBlock fields l k name cls st).block ≠ none ∧
      (enterBlock fields l k name cls st).latest = cls := by
    intro k name cls
    rw [enterBlock]
    split <;> exact ⟨by simp, rfl⟩
  cases hs : startMark l with
  | some p =>
    obtain ⟨k, name⟩ := p
    have h1 := (startMark_iff l k name).1 hs
    cases name with
    | nil =>
      refine Or.inr (Or.inr (Or.inl ⟨⟨k, h1⟩, ?_⟩))
      cases hl : st.latest with
      | none => exact ⟨_, Or.inl ⟨rfl, by simp [replaceLine, hs, isStart_className h1, hl]; rfl⟩⟩
      | some c =>
        refine ⟨_, Or.inr ⟨by simp, replaceLine_start fields st l k [] c none h1
          (Or.inl ⟨rfl, hl, rfl⟩), (henter k c none).1, (henter k c none).2⟩⟩
    | cons c w =>
      exact Or.inr (Or.inr (Or.inr ⟨⟨k, c :: w, by simp, h1⟩, _,
        replaceLine_start fields st l k (c :: w) (c :: w) st.latest h1 (Or.inr ⟨by simp, rfl, rfl⟩),
        (henter _ _ _).1, (henter _ _ _).2⟩))
  | none =>
    by_cases he : endMark l = true
    · obtain ⟨rest, h1⟩ := (endMark_iff l).1 he
      refine Or.inr (Or.inl ⟨⟨rest, h1⟩, ?_⟩)
      cases hb : st.block with
      | none => exact ⟨_, Or.inl ⟨rfl, by simp [replaceLine, hs, he, hb]; rfl⟩⟩
      | some nm => exact ⟨_, Or.inr ⟨by simp, replaceLine_end fields st l rest h1 nm hb, rfl, rfl⟩⟩
    · have ho : Ordinary l := by
        refine ⟨?_, fun h => he ((endMark_iff l).2 h)⟩
        rintro ⟨k, name, h⟩
        rw [(startMark_iff l k name).2 h] at hs
        cases hs
      exact Or.inl ⟨ho, _, replaceLine_ordinary fields st l ho, rfl, rfl⟩

theorem ordinary_not {l : Str} (h : Ordinary l) (k : ℕ) (name : Str) : ¬ IsStart l k name :=
  fun hs => h.1 ⟨k, name, hs⟩

theorem isEnd_not_start {l rest : Str} (h : IsEnd l rest) (k : ℕ) (name : Str) : ¬ IsStart l k name := by
  intro hs
  rw [← startMark_iff, isEnd_startMark h] at hs
  cases hs

theorem isStart_unique {l : Str} {k k' : ℕ} {n n' : Str} (h : IsStart l k n) (h' : IsStart l k' n') :
    n = n' := by
  rw [← startMark_iff] at h h'
  rw [h] at h'
  injection h' with h'
  injection h'

/-- The variables say what the specification says. -/
theorem run_invariant (fields : RFields) (seen : List Str) (ls : List Str) (st : RState)
    (h : replaceLines fields (.start seen) ls = (st, .ok ())) :
    (st.block ≠ none ↔ InBlock ls) ∧ ∀ c, st.latest = some c ↔ Available ls c := by
  induction ls using List.reverseRecOn generalizing st with
  | nil =>
    simp only [replaceLines] at h
    injection h with h
    subst h
    constructor
    · simp only [RState.start, ne_eq, not_true_eq_false, false_iff]
      rintro ⟨pre, l, post, e, -⟩
      simp at e
    · intro c
      simp only [RState.start, reduceCtorEq, false_iff]
      rintro ⟨pre, post, e, -, -, h3⟩
      simp only [List.nil_eq, List.append_eq_nil_iff] at e
      rw [e.2, latestAfter_iff] at h3
      cases h3
  | append_singleton r l ih =>
    match hr : replaceLines fields (.start seen) r with
    | (s0, .error e) => rw [replaceLines_error _ _ _ _ _ _ hr] at h; simp at h
    | (s0, .ok ()) =>
      obtain ⟨i1, i2⟩ := ih s0 hr
      rw [replaceLines_append _ _ _ _ _ hr] at h
      have h' : replaceLine fields s0 l = (st, .ok ()) := by
        simp only [replaceLines] at h
        split at h
        · simp at h
        · next s1 e => rw [e, h]
      rw [inBlock_append]
      rcases replaceLine_cases fields s0 l with ⟨ho, s1, e1, e2, e3⟩ | ⟨⟨rest, he⟩, s1, ⟨-, e1⟩ | ⟨e0, e1, e2, e3⟩⟩ |
        ⟨⟨k, hk⟩, s1, ⟨-, e1⟩ | ⟨e0, e1, e2, e3⟩⟩ | ⟨⟨k, name, hne, hk⟩, s1, e1, e2, e3⟩
      · rw [e1] at h'; injection h' with h'; subst h'
        refine ⟨?_, fun c => ?_⟩
        · rw [e2, i1]
          exact ⟨fun h => Or.inr ⟨ho, h⟩, fun h => h.elim (fun ⟨k, n, h⟩ => absurd h (ordinary_not ho k n))
            (fun h => h.2)⟩
        · rw [e3, available_append r l (fun ⟨k, h⟩ => ordinary_not ho k [] h)]
          have : latestAfter s0.latest [l] = match className l with
              | some d => some d
              | none => s0.latest := rfl
          rw [this]
          cases className l with
          | some d => simp only [Option.some.injEq]; exact eq_comm
          | none => exact i2 c
      · rw [e1] at h'; simp at h'
      · rw [e1] at h'; injection h' with h'; subst h'
        refine ⟨?_, fun c => ?_⟩
        · rw [e2]
          simp only [ne_eq, not_true_eq_false, false_iff, not_or]
          exact ⟨fun ⟨k, n, h⟩ => isEnd_not_start he k n h, fun h => h.1.2 ⟨rest, he⟩⟩
        · rw [e3, available_append r l (fun ⟨k, h⟩ => isEnd_not_start he k [] h), isEnd_className he]
          exact i2 c
      · rw [e1] at h'; simp at h'
      · rw [e1] at h'; injection h' with h'; subst h'
        refine ⟨⟨fun _ => Or.inl ⟨k, [], hk⟩, fun _ => e2⟩, fun c => ?_⟩
        rw [e3]
        simp only [reduceCtorEq, false_iff]
        exact available_append_start r l k hk c
      · rw [e1] at h'; injection h' with h'; subst h'
        refine ⟨⟨fun _ => Or.inl ⟨k, name, hk⟩, fun _ => e2⟩, fun c => ?_⟩
        rw [e3, available_append r l (fun ⟨k', h⟩ => hne (isStart_unique hk h)), isStart_className hk]
        exact i2 c

/-- C63. A file is refused, with `ValueError`, exactly if its markers are malformed; then nothing is
written. -/
theorem c63_refused_iff (fields : RFields) (hf : fields ≠ []) (seen : List Str) (text : Str)
    (ls : List Str) (hfile : IsFile ls) (htext : newlines text = ls.flatten) :
    ((handleText fields seen text).2 = .error .value ↔ Malformed ls) ∧
    (∀ e, (handleText fields seen text).2 = .error e → e = .value) := by
  have hrun : handleText fields seen text =
      match replaceLines fields (.start seen) ls with
      | (st, .error e) => (st.seen, .error e)
      | (st, .ok ()) =>
        if st.block.isSome then (st.seen, .error .value)
        else (st.seen, .ok (if st.changed then some st.result else none)) := by
    rw [handleText, if_neg hf, htext, fileLines_flatten _ hfile]
    rcases replaceLines fields (.start seen) ls with ⟨st, _ | _⟩ <;> rfl
  -- where an exception is raised
  have herr : ∀ (ls : List Str) st e, replaceLines fields (.start seen) ls = (st, .error e) →
      e = .value ∧ ∃ pre l post, ls = pre ++ l :: post ∧
        (((∃ rest, IsEnd l rest) ∧ ¬ InBlock pre) ∨ ∃ k, IsStart l k [] ∧ ¬ ∃ c, Available pre c) := by
    intro ls
    induction ls using List.reverseRecOn with
    | nil => intro st e h; simp [replaceLines] at h
    | append_singleton r l ih =>
      intro st e h
      match hr : replaceLines fields (.start seen) r with
      | (s0, .error e') =>
        rw [replaceLines_error _ _ _ _ _ _ hr] at h
        injection h with _ h
        injection h with h
        subst h
        obtain ⟨h1, pre, m, post, h2, h3⟩ := ih s0 e' hr
        exact ⟨h1, pre, m, post ++ [l], by simp [h2], h3⟩
      | (s0, .ok ()) =>
        obtain ⟨i1, i2⟩ := run_invariant fields seen r s0 hr
        rw [replaceLines_append _ _ _ _ _ hr] at h
        have h' : replaceLine fields s0 l = (st, .error e) := by
          simp only [replaceLines] at h
          split at h
          · next s1 e1 h1 => rw [h1, h]
          · simp at h
        rcases replaceLine_cases fields s0 l with ⟨ho, s1, e1, e2, e3⟩ | ⟨⟨rest, he⟩, s1, ⟨e0, e1⟩ | ⟨e0, e1, e2, e3⟩⟩ |
          ⟨⟨k, hk⟩, s1, ⟨e0, e1⟩ | ⟨e0, e1, e2, e3⟩⟩ | ⟨⟨k, name, hne, hk⟩, s1, e1, e2, e3⟩
        · rw [e1] at h'; simp at h'
        · rw [e1] at h'; simp only [Prod.mk.injEq, Except.error.injEq] at h'
          exact ⟨h'.2.symm, r, l, [], rfl, Or.inl ⟨⟨rest, he⟩, fun h => i1.2 h e0⟩⟩
        · rw [e1] at h'; simp at h'
        · rw [e1] at h'; simp only [Prod.mk.injEq, Except.error.injEq] at h'
          refine ⟨h'.2.symm, r, l, [], rfl, Or.inr ⟨k, hk, ?_⟩⟩
          rintro ⟨c, hc⟩
          rw [← i2, e0] at hc
          cases hc
        · rw [e1] at h'; simp at h'
        · rw [e1] at h'; simp at h'
  constructor
  · constructor
    · intro h
      rw [hrun] at h
      match hr : replaceLines fields (.start seen) ls with
      | (st, .error e) =>
        obtain ⟨-, pre, l, post, h2, h3 | ⟨k, h3, h4⟩⟩ := herr ls st e hr
        · exact Or.inl ⟨pre, l, post, h2, h3⟩
        · exact Or.inr (Or.inr ⟨pre, l, post, k, h2, h3, h4⟩)
      | (st, .ok ()) =>
        rw [hr] at h
        by_cases hb : st.block.isSome = true
        · refine Or.inr (Or.inl ((run_invariant fields seen ls st hr).1.1 ?_))
          intro e
          rw [e] at hb
          cases hb
        · simp [hb] at h
    · intro h
      rw [hrun]
      match hr : replaceLines fields (.start seen) ls with
      | (st, .error e) => simp [(herr ls st e hr).1]
      | (st, .ok ()) =>
        have hsplit : ∀ pre l post, ls = pre ++ l :: post → ∃ s0 s1,
            replaceLines fields (.start seen) pre = (s0, .ok ()) ∧
            replaceLine fields s0 l = (s1, .ok ()) := by
          intro pre l post e
          rw [e] at hr
          match hp : replaceLines fields (.start seen) pre with
          | (s0, .error e') => rw [replaceLines_error _ _ _ _ _ _ hp] at hr; simp at hr
          | (s0, .ok ()) =>
            rw [replaceLines_append _ _ _ _ _ hp, replaceLines] at hr
            match hl : replaceLine fields s0 l with
            | (s1, .error e') => rw [hl] at hr; simp at hr
            | (s1, .ok ()) => exact ⟨s0, s1, rfl, hl⟩
        rcases h with ⟨pre, l, post, e, ⟨rest, he⟩, hb⟩ | h | ⟨pre, l, post, k, e, hk, ha⟩
        · exfalso
          obtain ⟨s0, s1, g1, g2⟩ := hsplit pre l post e
          obtain ⟨i1, -⟩ := run_invariant fields seen pre s0 g1
          have : s0.block = none := by
            by_contra h
            exact hb (i1.1 h)
          have hm := (endMark_iff l).2 ⟨rest, he⟩
          simp [replaceLine, isEnd_startMark he, hm, this] at g2
        · have := (run_invariant fields seen ls st hr).1.2 h
          simp only
          rw [if_pos (Option.isSome_iff_ne_none.2 this)]
        · exfalso
          obtain ⟨s0, s1, g1, g2⟩ := hsplit pre l post e
          obtain ⟨-, i2⟩ := run_invariant fields seen pre s0 g1
          have : s0.latest = none := by
            cases hl : s0.latest with
            | none => rfl
            | some c => exact absurd ⟨c, (i2 c).1 hl⟩ ha
          simp [replaceLine, (startMark_iff l k []).2 hk, isStart_className hk, this] at g2
  · intro e h
    rw [hrun] at h
    match hr : replaceLines fields (.start seen) ls with
    | (st, .error e') =>
      rw [hr] at h
      injection h with h
      rw [← h]
      exact (herr ls st e' hr).1
    | (st, .ok ()) =>
      rw [hr] at h
      by_cases hb : st.block.isSome = true
      · simp only [hb, if_true] at h
        injection h with h
        exact h.symm
      · simp [hb] at h


/-- C63, violated in part: a block that starts inside another is not refused. The outer one's end marker
is lost. -/
theorem c63_nested_start_accepted :
    (handleText [("foo".toList, "x".toList)] [] "### {{{ foo\nold\n### {{{ bar\n### }}}\n".toList).2 =
      .ok (some "### {{{ foo\nx### {{{ bar\n### }}}\n".toList) := by
  decide +kernel

/-! ## C62: doing it twice -/

theorem isStart_iff (l : Str) : (∃ k name, IsStart l k name) ↔ ∃ k, blanks k ++ "### {{{".toList <+: l := by
  constructor
  · rintro ⟨k, name, gap, rest, rfl, -⟩
    exact ⟨k, by simp [List.append_assoc]⟩
  · rintro ⟨k, r, rfl⟩
    have : startMark (blanks k ++ "### {{{".toList ++ r) ≠ none := by
      have e : (blanks k ++ "### {{{".toList ++ r).dropWhile isSp = "### {{{".toList ++ r := by
        rw [List.append_assoc]
        exact (takeWhile_append_cons (r := "## {{{".toList ++ r) (isSp_spaces k)
          (by decide : isSp '#' = false)).2
      simp only [startMark]
      rw [e, if_pos (by rw [List.isPrefixOf_iff_prefix]; exact ⟨r, rfl⟩)]
      simp
    obtain ⟨⟨k', name⟩, h⟩ := Option.ne_none_iff_exists'.1 this
    exact ⟨k', name, (startMark_iff _ _ _).1 h⟩

theorem isEnd_iff (l : Str) : (∃ rest, IsEnd l rest) ↔ ∃ k, blanks k ++ "### }}}".toList <+: l := by
  constructor
  · rintro ⟨rest, k, rfl⟩
    exact ⟨k, ⟨rest, rfl⟩⟩
  · rintro ⟨k, r, rfl⟩
    exact ⟨r, k, rfl⟩

theorem namesClass_iff (l : Str) :
    (∃ c, NamesClass l c) ↔ ∃ x, IsWordChar x ∧ "class ".toList ++ [x] <+: l := by
  constructor
  · rintro ⟨c, rest, rfl, hne, hw, -⟩
    cases c with
    | nil => exact absurd rfl hne
    | cons x w => exact ⟨x, hw x (by simp), ⟨w ++ rest, by simp⟩⟩
  · rintro ⟨x, hx, r, rfl⟩
    refine ⟨x :: r.takeWhile isWordC, r.dropWhile isWordC, ?_, by simp, ?_, ?_⟩
    · simp [List.takeWhile_append_dropWhile]
    · intro c hc
      rcases List.mem_cons.1 hc with rfl | hc
      · exact hx
      · exact (isWordC_iff c).1 (List.all_eq_true.1 List.all_takeWhile c hc)
    · intro c hc
      rw [← isWordC_iff, dropWhile_head r c hc]
      simp

theorem trimEnd_prefix (s : Str) : trimEnd s <+: s := by
  have h : s.reverse.dropWhile isSpace <:+ s.reverse := List.dropWhile_suffix _
  have := List.reverse_prefix.2 h
  rwa [List.reverse_reverse] at this

theorem trimEnd_newline (s : Str) : trimEnd (s ++ ['\n']) = trimEnd s := by
  have : isSpace '\n' = true := by decide
  simp [trimEnd, this]

theorem trimEnd_idem (s : Str) : trimEnd (trimEnd s) = trimEnd s := by
  rw [trimEnd, trimEnd, List.reverse_reverse]
  congr 1
  cases h : s.reverse.dropWhile isSpace with
  | nil => rfl
  | cons c r =>
    have := dropWhile_head (p := isSpace) s.reverse c (by rw [h]; rfl)
    rw [List.dropWhile_cons, this]
    rfl

/-- A beginning without a newline is a beginning of the line before it was trimmed. -/
theorem prefix_inserted {p s : Str} (hp : '\n' ∉ p) (h : p <+: trimEnd s ++ ['\n']) : p <+: s := by
  refine List.IsPrefix.trans ?_ (trimEnd_prefix s)
  rcases List.prefix_concat_iff.1 h with h | h
  · exact absurd (h ▸ by simp) hp
  · exact h

theorem blanks_prefix {k j : ℕ} {c : Char} {p w : Str} (hc : c ≠ ' ')
    (h : blanks k ++ c :: p <+: blanks j ++ w) : j ≤ k ∧ blanks (k - j) ++ c :: p <+: w := by
  induction j generalizing k with
  | zero => exact ⟨by omega, by simpa [blanks] using h⟩
  | succ j ih =>
    cases k with
    | zero =>
      simp only [blanks, List.replicate_zero, List.nil_append, List.replicate_succ, List.cons_append,
        List.cons_prefix_cons] at h
      exact absurd h.1 hc
    | succ k =>
      simp only [blanks, List.replicate_succ, List.cons_append, List.cons_prefix_cons] at h
      obtain ⟨h1, h2⟩ := ih h.2
      exact ⟨by omega, by rw [show k + 1 - (j + 1) = k - j by omega]; exact h2⟩

theorem blanks_no_newline (k : ℕ) : '\n' ∉ blanks k := by
  intro h
  exact absurd (List.eq_of_mem_replicate h) (by decide)

theorem inserted_ordinary (k : ℕ) (w : Str) (h : Ordinary w) :
    Ordinary (trimEnd (blanks k ++ w) ++ ['\n']) := by
  constructor
  · intro hs
    obtain ⟨j, hj⟩ := (isStart_iff _).1 hs
    have h1 := prefix_inserted (by
      rw [List.mem_append, not_or]; exact ⟨blanks_no_newline j, by decide⟩) hj
    exact h.1 ((isStart_iff _).2 ⟨_, (blanks_prefix (by decide : ('#' : Char) ≠ ' ') h1).2⟩)
  · intro hs
    obtain ⟨j, hj⟩ := (isEnd_iff _).1 hs
    have h1 := prefix_inserted (by
      rw [List.mem_append, not_or]; exact ⟨blanks_no_newline j, by decide⟩) hj
    exact h.2 ((isEnd_iff _).2 ⟨_, (blanks_prefix (by decide : ('#' : Char) ≠ ' ') h1).2⟩)

theorem inserted_no_class (k : ℕ) (w : Str) (h : ∀ c, ¬ NamesClass w c) (c : Str) :
    ¬ NamesClass (trimEnd (blanks k ++ w) ++ ['\n']) c := by
  intro hc
  obtain ⟨x, hx, hp⟩ := (namesClass_iff _).1 ⟨c, hc⟩
  have hn : '\n' ∉ "class ".toList ++ [x] := by
    rw [List.mem_append, not_or]
    refine ⟨by decide, ?_⟩
    rw [List.mem_singleton]
    rintro rfl
    rw [← isWordC_iff] at hx
    exact absurd hx (by decide)
  have h1 := prefix_inserted hn hp
  obtain ⟨-, h2⟩ := blanks_prefix (k := 0) (by decide : ('c' : Char) ≠ ' ') h1
  obtain ⟨d, hd⟩ := (namesClass_iff w).2 ⟨x, hx, by rw [Nat.zero_sub] at h2; exact h2⟩
  exact h d hd

/-- A whole line. -/
def FileLine (l : Str) : Prop := ∃ w, l = w ++ ['\n'] ∧ '\n' ∉ w

theorem isFile_append {xs ys : List Str} (h : ∀ l ∈ xs, FileLine l) (hy : IsFile ys) :
    IsFile (xs ++ ys) := by
  induction xs with
  | nil => exact hy
  | cons x r ih =>
    have hr := ih fun l hl => h l (by simp [hl])
    rw [List.cons_append]
    cases e : r ++ ys with
    | nil =>
      obtain ⟨w, rfl, hw⟩ := h x (by simp)
      exact ⟨by simp, Or.inl ⟨w, rfl, hw⟩⟩
    | cons m t => rw [e] at hr; exact ⟨h x (by simp), hr⟩

theorem isFile_split {xs ys : List Str} {y : Str} (h : IsFile (xs ++ y :: ys)) :
    (∀ l ∈ xs, FileLine l) ∧ IsFile (y :: ys) := by
  induction xs with
  | nil => exact ⟨by simp, h⟩
  | cons x r ih =>
    rw [List.cons_append] at h
    have hx : FileLine x ∧ IsFile (r ++ y :: ys) := by
      cases e : r ++ y :: ys with
      | nil => simp at e
      | cons m t => rw [e] at h; exact h
    obtain ⟨h1, h2⟩ := ih hx.2
    refine ⟨fun l hl => ?_, h2⟩
    rcases List.mem_cons.1 hl with rfl | hl
    · exact hx.1
    · exact h1 l hl

theorem isFile_tail {l : Str} {r : List Str} (h : IsFile (l :: r)) : IsFile r := by
  cases r with
  | nil => trivial
  | cons m t => exact h.2

theorem isFile_head {l : Str} {r : List Str} (h : IsFile (l :: r)) :
    ∃ w, '\n' ∉ w ∧ (l = w ++ ['\n'] ∨ l = w) := by
  cases r with
  | nil =>
    rcases h.2 with ⟨w, rfl, hw⟩ | hw
    · exact ⟨w, hw, Or.inl rfl⟩
    · exact ⟨l, hw, Or.inr rfl⟩
  | cons m t =>
    obtain ⟨w, rfl, hw⟩ := h.1
    exact ⟨w, hw, Or.inl rfl⟩

theorem endLine_fileLine {z rest : Str} {r : List Str} (k : ℕ) (h : IsFile (z :: r)) (he : IsEnd z rest) :
    FileLine (endLine k rest) := by
  refine ⟨blanks k ++ "### }}}".toList ++ trimEnd rest, rfl, ?_⟩
  simp only [List.mem_append, not_or]
  refine ⟨⟨blanks_no_newline k, by decide⟩, ?_⟩
  obtain ⟨j, rfl⟩ := he
  obtain ⟨w, hw, e | e⟩ := isFile_head h
  · have hr : trimEnd rest = trimEnd w ∨ ∃ u, trimEnd rest <+: u ∧ '\n' ∉ u := by
      rcases List.eq_nil_or_concat rest with rfl | ⟨u, c, rfl⟩
      · exact Or.inr ⟨[], by simp [trimEnd], by simp⟩
      · rw [List.concat_eq_append, ← List.append_assoc] at e
        obtain ⟨e1, e2⟩ := List.append_inj' e rfl
        injection e2 with e2
        subst e2
        rw [List.concat_eq_append, trimEnd_newline]
        exact Or.inr ⟨u, trimEnd_prefix u, fun hu => hw (e1 ▸ by simp [hu])⟩
    rcases hr with hr | ⟨u, hr, hu⟩
    · rw [hr]; exact fun h => hw ((trimEnd_prefix w).subset h)
    · exact fun h => hu (hr.subset h)
  · exact fun h => hw (e ▸ by simp [(trimEnd_prefix rest).subset h])

theorem endLine_cr {z rest : Str} (k : ℕ) (he : IsEnd z rest) (hz : '\r' ∉ z) : '\r' ∉ endLine k rest := by
  obtain ⟨j, rfl⟩ := he
  simp only [List.mem_append, not_or] at hz
  simp only [endLine, List.mem_append, not_or]
  exact ⟨⟨⟨fun h => absurd (List.eq_of_mem_replicate h) (by decide), by decide⟩,
    fun h => hz.2 ((trimEnd_prefix rest).subset h)⟩, by decide⟩

theorem segLines_nil {segs : List Seg} (h : segLines segs = []) : segs = [] := by
  cases segs with
  | nil => rfl
  | cons s r => cases s <;> simp [segLines, Seg.lines] at h

theorem mem_join {sep : Str} {ws : List Str} {w : Str} (h : w ∈ ws) : w ⊆ join sep ws := by
  induction ws with
  | nil => simp at h
  | cons v r ih =>
    cases r with
    | nil => rw [List.mem_singleton] at h; subst h; exact fun _ h => h
    | cons u r =>
      rw [join]
      rcases List.mem_cons.1 h with rfl | h
      · intro x hx; simp [hx]
      · intro x hx; simp [ih h hx]

/-- What a file becomes is itself such a file, and becomes itself. -/
theorem outcome_again (fields : RFields) (hplain : ∀ n v, fields.lookup n = some v → Markerless v)
    {cls : Option Str} {segs out : List Seg} {b : Bool} {names : List Str}
    (h : Outcome fields cls segs out b names) (hok : ∀ s ∈ segs, s.Ok)
    (hfile : IsFile (segLines segs))
    (hcr : ∀ l ∈ segLines segs, '\r' ∉ l)
    (hclass : ∀ a body z, Seg.block a body z ∈ segs → ∀ l ∈ body, ∀ c, ¬ NamesClass l c) :
    Outcome fields cls out out b names ∧ (∀ s ∈ out, s.Ok) ∧ IsFile (segLines out) ∧
      ∀ l ∈ segLines out, '\r' ∉ l := by
  induction h with
  | nil => exact ⟨.nil, by simp, trivial, by simp [segLines]⟩
  | @line cls cls' l r out b ns h1 h2 ih =>
    have e : segLines (.line l :: r) = l :: segLines r := rfl
    have e' : segLines (.line l :: out) = l :: segLines out := rfl
    rw [e] at hfile hcr
    obtain ⟨i1, i2, i3, i4⟩ := ih (fun s hs => hok s (by simp [hs])) (isFile_tail hfile)
      (fun m hm => hcr m (by simp [hm])) (fun a body z hs => hclass a body z (by simp [hs]))
    refine ⟨.line h1 i1, ?_, ?_, ?_⟩
    · intro s hs
      rcases List.mem_cons.1 hs with rfl | hs
      · exact hok (.line l) (by simp)
      · exact i2 s hs
    · rw [e']
      by_cases hr : segLines r = []
      · have := segLines_nil hr
        subst this
        cases h2
        rw [hr] at hfile
        exact hfile
      · obtain ⟨m, t, hm⟩ := List.exists_cons_of_ne_nil hr
        rw [hm] at hfile
        exact isFile_append (xs := [l]) (by
          intro x hx
          rw [List.mem_singleton] at hx
          rw [hx]
          exact hfile.1) i3
    · rw [e']
      intro m hm
      rcases List.mem_cons.1 hm with rfl | hm
      · exact hcr _ (by simp)
      · exact i4 m hm
  | @kept cls cls1 cls2 k written name a body z rest r out b ns h1 h2 h3 h4 h5 _ ih =>
    have e : segLines (.block a body z :: r) = (a :: body) ++ z :: segLines r := by
      simp [segLines, Seg.lines]
    have e' : segLines (.block a body (endLine k rest) :: out) =
        (a :: body ++ [endLine k rest]) ++ segLines out := by
      simp [segLines, Seg.lines]
    rw [e] at hfile hcr
    obtain ⟨f1, f2⟩ := isFile_split hfile
    obtain ⟨i1, i2, i3, i4⟩ := ih (fun s hs => hok s (by simp [hs])) (isFile_tail f2)
      (fun m hm => hcr m (by simp [hm])) (fun a body z hs => hclass a body z (by simp [hs]))
    have hz : IsEnd (endLine k rest) (trimEnd rest ++ ['\n']) := ⟨k, by simp [endLine]⟩
    refine ⟨?_, ?_, ?_, ?_⟩
    · have := Outcome.kept (z := endLine k rest) h1 h2 h3 hz h5 i1
      rwa [show endLine k (trimEnd rest ++ ['\n']) = endLine k rest by
        rw [endLine, trimEnd_newline, trimEnd_idem]; rfl] at this
    · intro s hs
      rcases List.mem_cons.1 hs with rfl | hs
      · exact ⟨⟨k, written, h1⟩, (hok (.block a body z) (by simp)).2.1, _, hz⟩
      · exact i2 s hs
    · rw [e']
      refine isFile_append ?_ i3
      intro l hl
      rcases List.mem_append.1 hl with hl | hl
      · exact f1 l hl
      · rw [List.mem_singleton] at hl
        rw [hl]
        exact endLine_fileLine k f2 h4
    · rw [e']
      intro l hl
      rcases List.mem_append.1 hl with hl | hl
      · rcases List.mem_append.1 hl with hl | hl
        · exact hcr l (List.mem_append_left _ hl)
        · rw [List.mem_singleton] at hl
          rw [hl]
          exact endLine_cr k h4 (hcr z (by simp))
      · exact i4 l hl
  | @replaced cls cls1 cls2 k written name a body z rest v ws r out b ns h1 h2 h3 h3' h4 h5 _ ih =>
    obtain ⟨hvcr, hv⟩ := hplain name v h3
    have e : segLines (.block a body z :: r) = (a :: body) ++ z :: segLines r := by
      simp [segLines, Seg.lines]
    have e' : segLines (.block a (insertedLines k ws) (endLine k rest) :: out) =
        (a :: insertedLines k ws ++ [endLine k rest]) ++ segLines out := by
      simp [segLines, Seg.lines]
    rw [e] at hfile hcr
    obtain ⟨f1, f2⟩ := isFile_split hfile
    obtain ⟨i1, i2, i3, i4⟩ := ih (fun s hs => hok s (by simp [hs])) (isFile_tail f2)
      (fun m hm => hcr m (by simp [hm])) (fun a body z hs => hclass a body z (by simp [hs]))
    have hz : IsEnd (endLine k rest) (trimEnd rest ++ ['\n']) := ⟨k, by simp [endLine]⟩
    have hsame : cls2 = cls1 := by
      rcases h5 with ⟨pre, l, post, c, hl, hc, -⟩ | ⟨-, h⟩
      · exact absurd hc (hclass a body z (by simp) l (by rw [hl]; simp) c)
      · exact h
    refine ⟨?_, ?_, ?_, ?_⟩
    · have := Outcome.replaced (z := endLine k rest) (body := insertedLines k ws) (cls2 := cls2)
        h1 h2 h3 h3' hz (Or.inr ⟨?_, hsame⟩) i1
      · rwa [show endLine k (trimEnd rest ++ ['\n']) = endLine k rest by
          rw [endLine, trimEnd_newline, trimEnd_idem]; rfl] at this
      · intro l hl d
        obtain ⟨w, hw, rfl⟩ := List.mem_map.1 hl
        exact inserted_no_class k w (hv ws h3' w hw).2 d
    · intro s hs
      rcases List.mem_cons.1 hs with rfl | hs
      · refine ⟨⟨k, written, h1⟩, ?_, _, hz⟩
        intro l hl
        obtain ⟨w, hw, rfl⟩ := List.mem_map.1 hl
        exact inserted_ordinary k w (hv ws h3' w hw).1
      · exact i2 s hs
    · rw [e']
      refine isFile_append ?_ i3
      intro l hl
      rcases List.mem_append.1 hl with hl | hl
      · rcases List.mem_cons.1 hl with rfl | hl
        · exact f1 _ (by simp)
        · obtain ⟨w, hw, rfl⟩ := List.mem_map.1 hl
          refine ⟨_, rfl, fun h => ?_⟩
          rcases List.mem_append.1 ((trimEnd_prefix _).subset h) with h | h
          · exact blanks_no_newline k h
          · exact h3'.2.1 w hw h
      · rw [List.mem_singleton] at hl
        rw [hl]
        exact endLine_fileLine k f2 h4
    · rw [e']
      intro l hl
      rcases List.mem_append.1 hl with hl | hl
      · rcases List.mem_append.1 hl with hl | hl
        · rcases List.mem_cons.1 hl with rfl | hl
          · exact hcr _ (by simp)
          · obtain ⟨w, hw, rfl⟩ := List.mem_map.1 hl
            intro h
            rcases List.mem_append.1 h with h | h
            · rcases List.mem_append.1 ((trimEnd_prefix _).subset h) with h | h
              · exact absurd (List.eq_of_mem_replicate h) (by decide)
              · exact hvcr (h3'.2.2 ▸ mem_join hw h)
            · exact absurd h (by decide)
        · rw [List.mem_singleton] at hl
          rw [hl]
          exact endLine_cr k h4 (hcr z (by simp))
      · exact i4 l hl


theorem tempName_ne (p : Str) : tempName p ≠ p := by
  intro h
  have := congrArg List.length h
  simp [tempName] at this

theorem writeTo_self (d : TextDisk) (p s : Str) : writeTo d p s p = some s := by
  simp [writeTo, TextDisk.move, TextDisk.put]

theorem writeTo_again (d : TextDisk) (p s : Str) : writeTo (writeTo d p s) p s = writeTo d p s := by
  funext q
  simp only [writeTo, TextDisk.move, TextDisk.put]
  by_cases h1 : q = p
  · simp [h1]
  · by_cases h2 : q = tempName p
    · simp [h2, tempName_ne]
    · simp [h1, h2]

/-- C62, in part. Running the replacer on a well-marked file, and then again with the same fields, leaves
the disk as running it once does, provided the replacement texts have no markers or carriage returns. What
is missing from the English claim: no block may have a line naming a class in it, and no block may start
inside another (see `c62_class_in_block_fails` and `c62_nested_fails`). -/
theorem c62_idempotent_partial (fields : RFields) (hplain : ∀ n v, fields.lookup n = some v → Markerless v)
    (seen seen' : List Str) (d : TextDisk) (p text : Str) (hd : d p = some text)
    (segs : List Seg) (hok : ∀ s ∈ segs, s.Ok) (hfile : IsFile (segLines segs))
    (htext : newlines text = segText segs)
    (hclass : ∀ a body z, Seg.block a body z ∈ segs → ∀ l ∈ body, ∀ c, ¬ NamesClass l c)
    (h : (handleFile fields seen d p).2.2 = .ok ()) :
    (handleFile fields seen' (handleFile fields seen d p).2.1 p).2 =
      (handleFile fields seen d p).2 := by
  by_cases hf : fields = []
  · simp [handleFile, hf]
  have hr : ∃ r, (handleText fields seen text).2 = .ok r := by
    simp only [handleFile, if_neg hf, hd] at h
    match ht : handleText fields seen text with
    | (_, .error e) => rw [ht] at h; simp at h
    | (_, .ok r) => exact ⟨r, rfl⟩
  obtain ⟨r, hr⟩ := hr
  obtain ⟨out, b, names, H⟩ := c63_outcome_exists fields hf seen text segs hok hfile htext r hr
  have hcr : ∀ l ∈ segLines segs, '\r' ∉ l := by
    intro l hl hc
    refine newlines_no_cr text ?_
    rw [htext]
    exact List.mem_flatten.2 ⟨l, hl, hc⟩
  obtain ⟨o1, o2, o3, o4⟩ := outcome_again fields hplain H hok hfile hcr hclass
  have hout : newlines (segText out) = segText out := by
    refine newlines_id fun hc => ?_
    obtain ⟨l, hl, hc⟩ := List.mem_flatten.1 hc
    exact o4 l hl hc
  have t1 := c63_only_named_blocks_change fields hf seen text segs out b names hok hfile htext H
  have t1' := c63_only_named_blocks_change fields hf seen' text segs out b names hok hfile htext H
  have t2 := c63_only_named_blocks_change fields hf seen' (segText out) out out b names o2 o3 hout o1
  cases b with
  | false =>
    have e : (handleFile fields seen d p).2 = (d, .ok ()) := by
      simp [handleFile, if_neg hf, hd, t1]
    rw [e]
    simp [handleFile, if_neg hf, hd, t1']
  | true =>
    have e : (handleFile fields seen d p).2 = (writeTo d p (segText out), .ok ()) := by
      simp [handleFile, if_neg hf, hd, t1]
    rw [e]
    simp [handleFile, if_neg hf, writeTo_self, t2, writeTo_again]

/-- C62, violated: replacing a block that names a class can make the next block nameless, so that the
second run fails. -/
theorem c62_class_in_block_fails :
    (handleText [("foo".toList, "x".toList)] []
      "### {{{ foo\nclass A:\n### }}}\n### {{{\n### }}}\n".toList).2 =
      .ok (some "### {{{ foo\nx\n### }}}\n### {{{\n### }}}\n".toList) ∧
    (handleText [("foo".toList, "x".toList)] []
      "### {{{ foo\nx\n### }}}\n### {{{\n### }}}\n".toList).2 = .error .value := by
  decide +kernel

/-- C62, violated: with a block that starts inside another, every run writes something else. -/
theorem c62_nested_fails :
    (handleText [("foo".toList, "x".toList)] [] "### {{{ foo\n### {{{ bar\n### }}}\n".toList).2 =
      .ok (some "### {{{ foo\nx### {{{ bar\n### }}}\n".toList) ∧
    (handleText [("foo".toList, "x".toList)] [] "### {{{ foo\nx### {{{ bar\n### }}}\n".toList).2 =
      .ok (some "### {{{ foo\nx\n### }}}\n".toList) := by
  decide +kernel

/-! ## C64: dying in the middle -/

/-- C64. Whenever the process dies while rewriting a file, the file holds its old text or the complete new
text (the one that `handle` leaves when it is not interrupted), and no other file has changed but the
temporary one. -/
theorem c64_crash_safe (fields : RFields) (seen : List Str) (d : TextDisk) (p : Str) (d' : TextDisk)
    (h : d' ∈ handleStates fields seen d p) :
    (d' p = d p ∨ d' p = (handleFile fields seen d p).2.1 p) ∧
    ∀ q, q ≠ p → q ≠ tempName p → d' q = d q := by
  rw [handleStates] at h
  split at h
  · rw [List.mem_singleton] at h; subst h; exact ⟨Or.inl rfl, fun _ _ _ => rfl⟩
  · next hf =>
    split at h
    · rw [List.mem_singleton] at h; subst h; exact ⟨Or.inl rfl, fun _ _ _ => rfl⟩
    · next text hd =>
      split at h
      · next s hs =>
        have hfin : (handleFile fields seen d p).2.1 = writeTo d p s := by
          simp only [handleFile, if_neg hf, hd]
          match ht : handleText fields seen text, hs with
          | (_, .ok (some s')), hs => simp only [Except.ok.injEq, Option.some.injEq] at hs; rw [hs]
        rw [hfin]
        rw [writeToStates, List.cons_append, List.mem_cons, List.mem_append, List.mem_map,
          List.mem_singleton] at h
        rcases h with rfl | ⟨i, -, rfl⟩ | rfl
        · exact ⟨Or.inl rfl, fun _ _ _ => rfl⟩
        · refine ⟨Or.inl ?_, fun q _ hq => ?_⟩
          · simp [TextDisk.put, (tempName_ne p).symm]
          · simp [TextDisk.put, hq]
        · refine ⟨Or.inr rfl, fun q hq hq' => ?_⟩
          simp [TextDisk.move, TextDisk.put, hq, hq']
      · rw [List.mem_singleton] at h; subst h; exact ⟨Or.inl rfl, fun _ _ _ => rfl⟩

/-- C64. When it isn't interrupted, the file has the complete new text, if there is one, and the temporary
file is gone. If there is none, or the file is refused, nothing on the disk has changed. -/
theorem c64_final (fields : RFields) (hf : fields ≠ []) (seen : List Str) (d : TextDisk) (p text : Str)
    (hd : d p = some text) :
    (∀ s, (handleText fields seen text).2 = .ok (some s) →
      (handleFile fields seen d p).2.2 = .ok () ∧ (handleFile fields seen d p).2.1 p = some s ∧
      (handleFile fields seen d p).2.1 (tempName p) = none) ∧
    ((handleText fields seen text).2 = .ok none → (handleFile fields seen d p).2 = (d, .ok ())) ∧
    (∀ e, (handleText fields seen text).2 = .error e → (handleFile fields seen d p).2 = (d, .error e)) := by
  simp only [handleFile, if_neg hf, hd]
  match handleText fields seen text with
  | (_, .error e) => exact ⟨by simp, by simp, by simp⟩
  | (_, .ok none) => exact ⟨by simp, by simp, by simp⟩
  | (_, .ok (some s)) =>
    refine ⟨?_, by simp, by simp⟩
    intro s' hs
    simp only [Except.ok.injEq, Option.some.injEq] at hs
    subst hs
    exact ⟨rfl, writeTo_self d p s, by simp [writeTo, TextDisk.move, tempName_ne]⟩

/-! ## C91: all the files -/

theorem handleFile_other (fields : RFields) (seen : List Str) (d : TextDisk) (p q : Str) (hq : q ≠ p)
    (hq' : q ≠ tempName p) : (handleFile fields seen d p).2.1 q = d q := by
  rw [handleFile]
  split
  · rfl
  · split
    · rfl
    · split
      · rfl
      · rfl
      · simp [writeTo, TextDisk.move, TextDisk.put, hq, hq']

theorem handleFiles_append (fields : RFields) (seen : List Str) (d : TextDisk) (a b : List Str) :
    handleFiles fields seen d (a ++ b) = match handleFiles fields seen d a with
      | (s, d1, .error e) => (s, d1, .error e)
      | (s, d1, .ok ()) => handleFiles fields s d1 b := by
  induction a generalizing seen d with
  | nil => rfl
  | cons p r ih =>
    simp only [List.cons_append, handleFiles]
    match handleFile fields seen d p with
    | (s, d1, .error e) => rfl
    | (s, d1, .ok ()) => exact ih s d1

theorem handleText_text (fields : RFields) (seen seen' : List Str) (text : Str) :
    (handleText fields seen text).2 = (handleText fields seen' text).2 ∧
    ∃ new, (handleText fields seen text).1 = new ++ seen ∧ (handleText fields seen' text).1 = new ++ seen' := by
  have key : ∀ (ls : List Str) (st : RState) (s s' new : List Str), ∃ (st' : RState) (new' : List Str) (e : Res Unit),
      replaceLines fields { st with seen := new ++ s } ls = ({ st' with seen := new' ++ s }, e) ∧
      replaceLines fields { st with seen := new ++ s' } ls = ({ st' with seen := new' ++ s' }, e) := by
    intro ls
    induction ls with
    | nil => intro st s s' new; exact ⟨st, new, .ok (), rfl, rfl⟩
    | cons l r ih =>
      intro st s s' new
      have h1 : ∃ (st' : RState) (new' : List Str) (e : Res Unit),
          replaceLine fields { st with seen := new ++ s } l = ({ st' with seen := new' ++ s }, e) ∧
          replaceLine fields { st with seen := new ++ s' } l = ({ st' with seen := new' ++ s' }, e) := by
        have henter : ∀ k name c, ∃ (st' : RState) (new' : List Str),
            enterBlock fields l k name c { st with seen := new ++ s } = { st' with seen := new' ++ s } ∧
            enterBlock fields l k name c { st with seen := new ++ s' } = { st' with seen := new' ++ s' } := by
          intro k name c
          simp only [enterBlock]
          cases fields.lookup name with
          | none =>
            exact ⟨{ st with result := st.result ++ l, latest := c, block := some name, indent := k,
                             ignore := false }, name :: new, rfl, rfl⟩
          | some v =>
            exact ⟨{ st with result := st.result ++ l ++ blockText k v, latest := c,
                             block := some name, indent := k, ignore := true, changed := true },
              name :: new, rfl, rfl⟩
        simp only [replaceLine]
        cases hs : startMark l with
        | some pr =>
          obtain ⟨k, name⟩ := pr
          cases name with
          | nil =>
            simp only
            split
            · exact ⟨{ st with latest := none, block := none, indent := k }, new, _, rfl, rfl⟩
            · next nm _ =>
              obtain ⟨a, b, h1, h2⟩ := henter k nm none
              exact ⟨a, b, .ok (), by rw [h1], by rw [h2]⟩
          | cons c w =>
            obtain ⟨a, b, h1, h2⟩ := henter k (c :: w) (match className l with
              | some c => some c
              | none => st.latest)
            exact ⟨a, b, .ok (), by simp only; rw [← h1]; cases className l <;> rfl,
              by simp only; rw [← h2]; cases className l <;> rfl⟩
        | none =>
          simp only
          by_cases he : endMark l = true
          · simp only [if_pos he]
            cases hb : st.block with
            | none => exact ⟨{ st with latest := _, block := none }, new, _, rfl, rfl⟩
            | some nm => exact ⟨{ st with result := _, latest := _, block := none, ignore := false }, new, _, rfl, rfl⟩
          · simp only [if_neg he]
            cases hi : st.ignore with
            | true => exact ⟨{ st with latest := _, ignore := true }, new, _, rfl, rfl⟩
            | false => exact ⟨{ st with result := _, latest := _, ignore := false }, new, _, rfl, rfl⟩
      obtain ⟨st1, new1, e, h1, h2⟩ := h1
      cases e with
      | error e => exact ⟨st1, new1, .error e, by simp [replaceLines, h1], by simp [replaceLines, h2]⟩
      | ok u =>
        obtain ⟨st2, new2, e2, h3, h4⟩ := ih st1 s s' new1
        exact ⟨st2, new2, e2, by simp [replaceLines, h1, h3], by simp [replaceLines, h2, h4]⟩
  rw [handleText, handleText]
  split
  · exact ⟨rfl, [], rfl, rfl⟩
  · obtain ⟨st', new, e, h1, h2⟩ := key (fileLines [] (newlines text)) (.start []) seen seen' []
    have e1 : ({ RState.start [] with seen := [] ++ seen } : RState) = .start seen := rfl
    have e2 : ({ RState.start [] with seen := [] ++ seen' } : RState) = .start seen' := rfl
    rw [e1] at h1
    rw [e2] at h2
    rw [h1, h2]
    cases e with
    | error e => exact ⟨rfl, new, rfl, rfl⟩
    | ok u =>
      simp only
      split
      · exact ⟨rfl, new, rfl, rfl⟩
      · exact ⟨rfl, new, rfl, rfl⟩

/-- What happens to a file depends on it alone. -/
theorem handleFile_local (fields : RFields) (seen seen' : List Str) (d d' : TextDisk) (p : Str)
    (h : d p = d' p) : (handleFile fields seen d p).2.2 = (handleFile fields seen' d' p).2.2 ∧
    (handleFile fields seen d p).2.1 p = (handleFile fields seen' d' p).2.1 p := by
  rw [handleFile, handleFile, ← h]
  split
  · exact ⟨rfl, h⟩
  · cases hd : d p with
    | none => exact ⟨rfl, h⟩
    | some text =>
      obtain ⟨ht, -⟩ := handleText_text fields seen seen' text
      simp only
      match h1 : handleText fields seen text, h2 : handleText fields seen' text with
      | (a, .error e), (b, r) =>
        rw [h1, h2] at ht
        simp only at ht
        subst ht
        exact ⟨rfl, h⟩
      | (a, .ok none), (b, r) =>
        rw [h1, h2] at ht
        simp only at ht
        subst ht
        exact ⟨rfl, h⟩
      | (a, .ok (some t)), (b, r) =>
        rw [h1, h2] at ht
        simp only at ht
        subst ht
        exact ⟨rfl, by simp only [writeTo_self]⟩

theorem handleFile_error (fields : RFields) (seen : List Str) (d : TextDisk) (p : Str) (e : Err)
    (h : (handleFile fields seen d p).2.2 = .error e) : (handleFile fields seen d p).2.1 = d := by
  rw [handleFile] at h ⊢
  split
  · rfl
  · next hf =>
    rw [if_neg hf] at h
    split
    · rfl
    · next text hd =>
      rw [hd] at h
      simp only at h
      split
      · rfl
      · rfl
      · next hs => rw [hs] at h; simp at h

/-- C91. Every file is rewritten as if it were the only one: after `handle_all_files()` each named file
holds what `handle` makes of it alone. Files are taken in order; at the first one that is refused it stops,
so that those before it have been rewritten and those after it have not been touched. (The names must be
distinct and none may be another's temporary file.) -/
theorem c91_all_files (fields : RFields) (seen : List Str) (d : TextDisk) (ps : List Str)
    (hnd : ps.Nodup) (htemp : ∀ p ∈ ps, tempName p ∉ ps) :
    (∀ e, (handleFiles fields seen d ps).2.2 = .error e →
      ∃ pre p post, ps = pre ++ p :: post ∧ (∀ q ∈ pre, (handleFile fields [] d q).2.2 = .ok ()) ∧
        (handleFile fields [] d p).2.2 = .error e ∧
        (∀ q ∈ pre, (handleFiles fields seen d ps).2.1 q = (handleFile fields [] d q).2.1 q) ∧
        ∀ q ∈ p :: post, (handleFiles fields seen d ps).2.1 q = d q) ∧
    ((handleFiles fields seen d ps).2.2 = .ok () →
      ∀ q ∈ ps, (handleFile fields [] d q).2.2 = .ok () ∧
        (handleFiles fields seen d ps).2.1 q = (handleFile fields [] d q).2.1 q) ∧
    (∀ q, q ∉ ps → (∀ p ∈ ps, q ≠ tempName p) → (handleFiles fields seen d ps).2.1 q = d q) := by
  induction ps generalizing seen d with
  | nil => exact ⟨by simp [handleFiles], by simp, fun _ _ _ => rfl⟩
  | cons p r ih =>
    obtain ⟨hp, hnd'⟩ := List.nodup_cons.1 hnd
    match hh : handleFile fields seen d p with
    | (s1, d1, .error e) =>
      have hrun : handleFiles fields seen d (p :: r) = (s1, d1, .error e) := by
        rw [handleFiles, hh]
      have hd1 : d1 = d := by
        have := handleFile_error fields seen d p e (by rw [hh])
        rwa [hh] at this
      rw [hrun, hd1]
      refine ⟨?_, by simp, fun _ _ _ => rfl⟩
      intro e' he
      refine ⟨[], p, r, rfl, by simp, ?_, by simp, fun _ _ => rfl⟩
      rw [(handleFile_local fields [] seen d d p rfl).1, hh]
      exact he
    | (s1, d1, .ok ()) =>
      have hrun : handleFiles fields seen d (p :: r) = handleFiles fields s1 d1 r := by
        rw [handleFiles, hh]
      have hd1 : ∀ q, q ≠ p → q ≠ tempName p → d1 q = d q := by
        intro q h1 h2
        have := handleFile_other fields seen d p q h1 h2
        rwa [hh] at this
      have hr1 : ∀ q ∈ r, d1 q = d q := fun q hq => hd1 q (fun h => hp (h ▸ hq))
        (fun h => htemp p (by simp) (h ▸ List.mem_cons_of_mem _ hq))
      have hl : ∀ q ∈ r, (handleFile fields [] d1 q).2.2 = (handleFile fields [] d q).2.2 ∧
          (handleFile fields [] d1 q).2.1 q = (handleFile fields [] d q).2.1 q :=
        fun q hq => handleFile_local fields [] [] d1 d q (hr1 q hq)
      obtain ⟨i1, i2, i3⟩ := ih s1 d1 hnd' (fun q hq h => htemp q (by simp [hq]) (by simp [h]))
      have hpok := (handleFile_local fields [] seen d d p rfl)
      rw [hh] at hpok
      have hpend : (handleFiles fields s1 d1 r).2.1 p = (handleFile fields [] d p).2.1 p := by
        rw [i3 p hp (fun q hq h => htemp q (by simp [hq]) (by simp [← h])), hpok.2]
      rw [hrun]
      refine ⟨?_, ?_, ?_⟩
      · intro e he
        obtain ⟨pre, p', post, h1, h2, h3, h4, h5⟩ := i1 e he
        refine ⟨p :: pre, p', post, by rw [h1]; rfl, ?_, ?_, ?_, ?_⟩
        · intro q hq
          rcases List.mem_cons.1 hq with rfl | hq
          · exact hpok.1
          · rw [← (hl q (by rw [h1]; simp [hq])).1]; exact h2 q hq
        · rw [← (hl p' (by rw [h1]; simp)).1]; exact h3
        · intro q hq
          rcases List.mem_cons.1 hq with rfl | hq
          · exact hpend
          · rw [← (hl q (by rw [h1]; simp [hq])).2]; exact h4 q hq
        · intro q hq
          have hq' : q ∈ r := by rw [h1]; simp only [List.mem_append]; exact Or.inr hq
          rw [h5 q hq, hr1 q hq']
      · intro hok q hq
        rcases List.mem_cons.1 hq with rfl | hq
        · exact ⟨hpok.1, hpend⟩
        · obtain ⟨h1, h2⟩ := i2 hok q hq
          exact ⟨(hl q hq).1 ▸ h1, (hl q hq).2 ▸ h2⟩
      · intro q hq ht
        rw [List.mem_cons, not_or] at hq
        rw [i3 q hq.2 fun p' hp' => ht p' (by simp [hp']), hd1 q hq.1 (ht p (by simp))]

theorem handleFile_seen (fields : RFields) (hf : fields ≠ []) (seen : List Str) (d : TextDisk) (p text : Str)
    (hd : d p = some text) : (handleFile fields seen d p).1 = (handleText fields seen text).1 := by
  simp only [handleFile, if_neg hf, hd]
  rcases handleText fields seen text with ⟨a, _ | _ | _⟩ <;> rfl

theorem isFile_fileLines (acc s : Str) (h : '\n' ∉ acc) : IsFile (fileLines acc s) ∧
    (fileLines acc s).flatten = acc.reverse ++ s := by
  induction s generalizing acc with
  | nil =>
    rw [fileLines]
    split
    · next e => rw [e]; exact ⟨trivial, rfl⟩
    · next e => exact ⟨⟨by simpa using e, Or.inr (by simpa using h)⟩, by simp⟩
  | cons c r ih =>
    rw [fileLines]
    split
    · next e =>
      obtain ⟨h1, h2⟩ := ih [] (by simp)
      refine ⟨isFile_append (xs := [(c :: acc).reverse]) ?_ h1, ?_⟩
      · intro l hl
        rw [List.mem_singleton] at hl
        exact ⟨acc.reverse, by rw [hl, e]; simp, by simpa using h⟩
      · rw [List.flatten_cons, h2]; simp
    · next e =>
      obtain ⟨h1, h2⟩ := ih (c :: acc) (by
        intro hm
        rcases List.mem_cons.1 hm with hm | hm
        · exact e hm.symm
        · exact h hm)
      exact ⟨h1, by rw [h2]; simp⟩

/-- The names noted are those that blocks have. -/
theorem run_seen (fields : RFields) (seen : List Str) (ls : List Str) (st : RState) (n : Str)
    (h : replaceLines fields (.start seen) ls = (st, .ok ())) :
    n ∈ st.seen ↔ n ∈ seen ∨ BlockNamed ls n := by
  have happ : ∀ (r : List Str) (l : Str), BlockNamed (r ++ [l]) n ↔
      BlockNamed r n ∨ ∃ k w, IsStart l k w ∧ (w ≠ [] ∧ w = n ∨ w = [] ∧ Available r n) := by
    intro r l
    constructor
    · rintro ⟨pre, m, post, k, w, e, h1, h2⟩
      rcases List.eq_nil_or_concat post with rfl | ⟨post', c, rfl⟩
      · obtain ⟨e1, e2⟩ := List.append_inj' e rfl
        injection e2 with e2
        subst e1 e2
        exact Or.inr ⟨k, w, h1, h2⟩
      · rw [List.concat_eq_append] at e
        have e' : r ++ [l] = (pre ++ m :: post') ++ [c] := by rw [e]; simp
        obtain ⟨e1, e2⟩ := List.append_inj' e' rfl
        exact Or.inl ⟨pre, m, post', k, w, e1, h1, h2⟩
    · rintro (⟨pre, m, post, k, w, rfl, h1, h2⟩ | ⟨k, w, h1, h2⟩)
      · exact ⟨pre, m, post ++ [l], k, w, by simp, h1, h2⟩
      · exact ⟨r, l, [], k, w, rfl, h1, h2⟩
  induction ls using List.reverseRecOn generalizing st with
  | nil =>
    simp only [replaceLines] at h
    injection h with h
    subst h
    simp only [RState.start]
    constructor
    · exact Or.inl
    · rintro (h | ⟨pre, l, post, k, w, e, -⟩)
      · exact h
      · simp at e
  | append_singleton r l ih =>
    match hr : replaceLines fields (.start seen) r with
    | (s0, .error e) => rw [replaceLines_error _ _ _ _ _ _ hr] at h; simp at h
    | (s0, .ok ()) =>
      have ih' : n ∈ s0.seen ↔ n ∈ seen ∨ BlockNamed r n := ih s0 hr
      obtain ⟨-, i2⟩ := run_invariant fields seen r s0 hr
      rw [replaceLines_append _ _ _ _ _ hr] at h
      have h' : replaceLine fields s0 l = (st, .ok ()) := by
        simp only [replaceLines] at h
        split at h
        · simp at h
        · next s1 e => rw [e, h]
      have henter : ∀ k nm c, (enterBlock fields l k nm c s0).seen = nm :: s0.seen := by
        intro k nm c
        rw [enterBlock]
        split <;> rfl
      rw [happ, ← or_assoc, ← ih']
      cases hs : startMark l with
      | some pr =>
        obtain ⟨k, w⟩ := pr
        have h1 := (startMark_iff l k w).1 hs
        have huniq : (∃ k' w', IsStart l k' w' ∧ (w' ≠ [] ∧ w' = n ∨ w' = [] ∧ Available r n)) ↔
            (w ≠ [] ∧ w = n ∨ w = [] ∧ Available r n) := by
          constructor
          · rintro ⟨k', w', g1, g2⟩
            rw [isStart_unique h1 g1]; exact g2
          · intro g; exact ⟨k, w, h1, g⟩
        rw [huniq]
        cases w with
        | nil =>
          cases hl : s0.latest with
          | none => simp [replaceLine, hs, isStart_className h1, hl] at h'
          | some c =>
            rw [replaceLine_start fields s0 l k [] c none h1 (Or.inl ⟨rfl, hl, rfl⟩)] at h'
            injection h' with h'
            rw [← h', henter, List.mem_cons]
            have := i2 n
            rw [hl, Option.some.injEq] at this
            rw [← this]
            simp only [ne_eq, not_true_eq_false, false_and, true_and, false_or]
            rw [or_comm, eq_comm]
        | cons x w =>
          rw [replaceLine_start fields s0 l k (x :: w) (x :: w) s0.latest h1
            (Or.inr ⟨by simp, rfl, rfl⟩)] at h'
          injection h' with h'
          rw [← h', henter, List.mem_cons]
          simp only [ne_eq, reduceCtorEq, not_false_eq_true, true_and, false_and, or_false]
          rw [or_comm, eq_comm]
      | none =>
        have hno : ¬ ∃ k w, IsStart l k w ∧ (w ≠ [] ∧ w = n ∨ w = [] ∧ Available r n) := by
          rintro ⟨k, w, g1, -⟩
          rw [(startMark_iff l k w).2 g1] at hs
          cases hs
        have hseen : st.seen = s0.seen := by
          simp only [replaceLine, hs] at h'
          split at h'
          · split at h'
            · simp at h'
            · injection h' with h'; rw [← h']
          · split at h' <;> (injection h' with h'; rw [← h'])
        rw [hseen, or_iff_left hno]

/-- C91. `check_everything_was_seen()` complains about exactly the fields that no block is called after,
in any of the files. -/
theorem c91_unseen (fields : RFields) (d : TextDisk) (ps : List Str) (n : Str)
    (hnd : ps.Nodup) (htemp : ∀ p ∈ ps, tempName p ∉ ps)
    (hok : (handleFiles fields [] d ps).2.2 = .ok ()) :
    n ∈ unseenFields fields (handleFiles fields [] d ps).1 ↔
      (∃ v, (n, v) ∈ fields) ∧ ∀ p ∈ ps, ∀ text ls, d p = some text → newlines text = ls.flatten →
        IsFile ls → ¬ BlockNamed ls n := by
  by_cases hf : fields = []
  · simp [hf, unseenFields]
  have key : ∀ (ps : List Str) (seen : List Str) (d : TextDisk), ps.Nodup → (∀ p ∈ ps, tempName p ∉ ps) →
      (handleFiles fields seen d ps).2.2 = .ok () →
      (n ∈ (handleFiles fields seen d ps).1 ↔
        n ∈ seen ∨ ∃ p ∈ ps, ∃ text ls, d p = some text ∧ newlines text = ls.flatten ∧ IsFile ls ∧
          BlockNamed ls n) := by
    intro ps
    induction ps with
    | nil => intro seen d _ _ _; simp [handleFiles]
    | cons p r ih =>
      intro seen d hnd htemp hok
      obtain ⟨hp, hnd'⟩ := List.nodup_cons.1 hnd
      match hh : handleFile fields seen d p with
      | (s1, d1, .error e) => rw [handleFiles, hh] at hok; simp at hok
      | (s1, d1, .ok ()) =>
        have hrun : handleFiles fields seen d (p :: r) = handleFiles fields s1 d1 r := by
          rw [handleFiles, hh]
        rw [hrun] at hok ⊢
        rw [ih s1 d1 hnd' (fun q hq h => htemp q (by simp [hq]) (by simp [h])) hok]
        have hr1 : ∀ q ∈ r, d1 q = d q := by
          intro q hq
          have := handleFile_other fields seen d p q (fun h => hp (h ▸ hq))
            (fun h => htemp p (by simp) (h ▸ List.mem_cons_of_mem _ hq))
          rwa [hh] at this
        have hs1 : n ∈ s1 ↔ n ∈ seen ∨ ∃ text ls, d p = some text ∧ newlines text = ls.flatten ∧
            IsFile ls ∧ BlockNamed ls n := by
          cases hd : d p with
          | none => simp [handleFile, hf, hd] at hh
          | some text =>
            have e := handleFile_seen fields hf seen d p text hd
            rw [hh] at e
            simp only at e
            have hbn : ∀ st, replaceLines fields (.start seen) (fileLines [] (newlines text)) = (st, .ok ()) →
                (n ∈ st.seen ↔ n ∈ seen ∨ ∃ text' ls, some text = some text' ∧
                  newlines text' = ls.flatten ∧ IsFile ls ∧ BlockNamed ls n) := by
              intro st hst
              rw [run_seen fields seen _ st n hst]
              obtain ⟨g1, g2⟩ := isFile_fileLines [] (newlines text) (by simp)
              refine or_congr Iff.rfl ⟨fun h => ⟨text, _, rfl, g2.symm, g1, h⟩, ?_⟩
              rintro ⟨text', ls, g3, g4, g5, g6⟩
              injection g3 with g3
              subst g3
              rw [g4, fileLines_flatten ls g5]
              exact g6
            rw [e, handleText, if_neg hf]
            match hst : replaceLines fields (.start seen) (fileLines [] (newlines text)) with
            | (st, .error e) =>
              simp only [handleFile, if_neg hf, hd, handleText, hst] at hh
              simp at hh
            | (st, .ok ()) =>
              simp only
              rw [← hbn st hst]
              split <;> rfl
        rw [hs1]
        simp only [List.mem_cons, exists_eq_or_imp]
        rw [or_assoc]
        refine or_congr Iff.rfl (or_congr Iff.rfl ?_)
        exact ⟨fun ⟨q, hq, t, ls, h1, h2⟩ => ⟨q, hq, t, ls, by rw [← hr1 q hq]; exact h1, h2⟩,
          fun ⟨q, hq, t, ls, h1, h2⟩ => ⟨q, hq, t, ls, by rw [hr1 q hq]; exact h1, h2⟩⟩
  have hk := key ps [] d hnd htemp hok
  rw [unseenFields, List.mem_filter]
  refine and_congr (by simp) ?_
  simp only [Bool.not_eq_true', List.contains_eq_mem, decide_eq_false_iff_not]
  rw [hk]
  constructor
  · intro h p hp text ls h1 h2 h3 h4
    exact h (Or.inr ⟨p, hp, text, ls, h1, h2, h3, h4⟩)
  · rintro h (h' | ⟨p, hp, text, ls, h1, h2, h3, h4⟩)
    · simp at h'
    · exact h p hp text ls h1 h2 h3 h4

/-! ## The hypotheses are met -/

/-- A file for the examples: a class whose block is nameless, then a block that has no replacement. -/
def exSegs : List Seg :=
  [.line "class A(B):\n".toList,
   .block "    ### {{{\n".toList ["    old = 1\n".toList] "  ### }}}  \n".toList,
   .line "x = 2\n".toList,
   .block "### {{{ keep # why\n".toList ["y = 3\n".toList] "### }}}".toList]

def exFields : RFields := [("A".toList, "new = 4\n\nnewer = 5\n".toList)]

/-- What it should become. -/
def exOut : List Seg :=
  [.line "class A(B):\n".toList,
   .block "    ### {{{\n".toList ["    new = 4\n".toList, "\n".toList, "    newer = 5\n".toList, "\n".toList]
     "    ### }}}\n".toList,
   .line "x = 2\n".toList,
   .block "### {{{ keep # why\n".toList ["y = 3\n".toList] "### }}}\n".toList]

theorem ordinary_of {l : Str} (h1 : startMark l = none) (h2 : endMark l = false) : Ordinary l := by
  constructor
  · rintro ⟨k, name, h⟩
    rw [(startMark_iff l k name).2 h] at h1
    cases h1
  · intro h
    rw [(endMark_iff l).2 h] at h2
    cases h2

theorem noClass_of {l : Str} (h : className l = none) (c : Str) : ¬ NamesClass l c := by
  intro hc
  rw [(className_iff l c).2 hc] at h
  cases h

theorem exSegs_ok : ∀ s ∈ exSegs, s.Ok := by
  intro s hs
  simp only [exSegs, List.mem_cons, List.not_mem_nil, or_false] at hs
  rcases hs with rfl | rfl | rfl | rfl
  · exact ordinary_of (by decide +kernel) (by decide +kernel)
  · refine ⟨⟨4, [], (startMark_iff _ _ _).1 (by decide +kernel)⟩, ?_, (endMark_iff _).1 (by decide +kernel)⟩
    intro l hl
    rw [List.mem_singleton] at hl
    subst hl
    exact ordinary_of (by decide +kernel) (by decide +kernel)
  · exact ordinary_of (by decide +kernel) (by decide +kernel)
  · refine ⟨⟨0, "keep".toList, (startMark_iff _ _ _).1 (by decide +kernel)⟩, ?_,
      (endMark_iff _).1 (by decide +kernel)⟩
    intro l hl
    rw [List.mem_singleton] at hl
    subst hl
    exact ordinary_of (by decide +kernel) (by decide +kernel)

theorem exSegs_file : IsFile (segLines exSegs) := by
  have e : fileLines [] (segText exSegs) = segLines exSegs := by decide +kernel
  rw [← e]
  exact (isFile_fileLines [] (segText exSegs) (by simp)).1

theorem exFields_markerless : ∀ n v, exFields.lookup n = some v → Markerless v := by
  intro n v h
  have hv : v = "new = 4\n\nnewer = 5\n".toList := by
    simp only [exFields, List.lookup] at h
    split at h
    · injection h with h; exact h.symm
    · cases h
  subst hv
  refine ⟨by decide, ?_⟩
  rintro ws ⟨h1, h2, h3⟩ w hw
  have e := splitNl_join ws h1 h2
  rw [← h3] at e
  have e' : splitNl [] "new = 4\n\nnewer = 5\n".toList =
      ["new = 4".toList, [], "newer = 5".toList, []] := by decide +kernel
  rw [← e, e'] at hw
  simp only [List.mem_cons, List.not_mem_nil, or_false] at hw
  rcases hw with rfl | rfl | rfl | rfl <;>
    exact ⟨ordinary_of (by decide +kernel) (by decide +kernel), noClass_of (by decide +kernel)⟩

/-- The outcome that the specification asks for in the example. -/
theorem exOutcome : Outcome exFields none exSegs exOut true ["A".toList, "keep".toList] := by
  have hl : ∀ cls l, className l = none → LastClass cls [l] cls := by
    intro cls l h
    rw [latestAfter_iff, latestAfter, List.foldl_cons, h]
    rfl
  refine .line (cls' := some "A".toList) ?_ (.replaced (k := 4) (written := []) (cls1 := none)
    (cls2 := none) (rest := "  \n".toList) (v := "new = 4\n\nnewer = 5\n".toList)
    (ws := ["new = 4".toList, [], "newer = 5".toList, []]) ?_ (Or.inl ⟨rfl, rfl, rfl⟩) (by decide +kernel)
    ?_ ⟨2, by decide +kernel⟩ (hl _ _ (by decide +kernel)) (.line (cls' := none) (hl _ _ (by decide +kernel))
    (.kept (k := 0) (written := "keep".toList) (cls1 := none) (cls2 := none) (rest := []) ?_
      (Or.inr ⟨by decide, rfl, rfl⟩) (by decide +kernel) ⟨0, by decide +kernel⟩
      (hl _ _ (by decide +kernel)) .nil)))
  · rw [latestAfter_iff]; decide +kernel
  · exact (startMark_iff _ _ _).1 (by decide +kernel)
  · exact ⟨by simp, by decide +kernel, by decide +kernel⟩
  · exact (startMark_iff _ _ _).1 (by decide +kernel)

/-- C63 applies to the example. -/
example : handleText exFields [] (segText exSegs) =
    (["keep".toList, "A".toList], .ok (some (segText exOut))) :=
  c63_only_named_blocks_change exFields (by decide) [] (segText exSegs) exSegs exOut true _ exSegs_ok
    exSegs_file (newlines_id (by decide +kernel)) exOutcome

/-- C62 applies to the example. -/
example (p : Str) (d : TextDisk) (hd : d p = some (segText exSegs)) :
    (handleFile exFields [] (handleFile exFields [] d p).2.1 p).2 = (handleFile exFields [] d p).2 := by
  refine c62_idempotent_partial exFields exFields_markerless [] [] d p _ hd exSegs exSegs_ok exSegs_file
    (newlines_id (by decide +kernel)) ?_ ?_
  · intro a body z h l hl
    simp only [exSegs, List.mem_cons, List.not_mem_nil, or_false, reduceCtorEq, false_or,
      Seg.block.injEq] at h
    rcases h with ⟨-, rfl, -⟩ | ⟨-, rfl, -⟩ <;>
      (rw [List.mem_singleton] at hl; subst hl; exact noClass_of (by decide +kernel))
  · have : (handleText exFields [] (segText exSegs)).2 = .ok (some (segText exOut)) := by decide +kernel
    exact ((c64_final exFields (by decide) [] d p _ hd).1 _ this).1

/-- C63: a file that ends in the middle of a block is refused. -/
example : (handleText exFields [] "### {{{ A\n".toList).2 = .error .value := by
  have hs : IsStart "### {{{ A\n".toList 0 "A".toList := (startMark_iff _ _ _).1 (by decide +kernel)
  refine (c63_refused_iff exFields (by decide) [] _ ["### {{{ A\n".toList] ?_
    (newlines_id (by decide +kernel))).1.2 (Or.inr (Or.inl ⟨[], _, [], rfl, ⟨_, _, hs⟩, by simp⟩))
  exact ⟨by decide, Or.inl ⟨"### {{{ A".toList, by decide +kernel, by decide +kernel⟩⟩

/-- C64: the moment between writing the temporary file and renaming it. -/
example : let d : TextDisk := fun q => if q = "f".toList then some (segText exSegs) else none
    d.put "f.1".toList (segText exOut) ∈ handleStates exFields [] d "f".toList := by
  intro d
  have h1 : (handleText exFields [] (segText exSegs)).2 = .ok (some (segText exOut)) := by decide +kernel
  have h2 : d "f".toList = some (segText exSegs) := by simp [d]
  simp only [handleStates, h2, h1]
  rw [if_neg (by decide), writeToStates]
  refine List.mem_append_left _ (List.mem_cons_of_mem _ (List.mem_map.2 ⟨(segText exOut).length, ?_, ?_⟩))
  · rw [List.mem_range]; omega
  · rw [List.take_length]; rfl

/-- C91: the first file is rewritten, the second refused, the third untouched. -/
example : let d : TextDisk := fun q => if q = "a".toList then some "### {{{ A\n### }}}\n".toList
      else if q = "b".toList then some "### }}}\n".toList
      else if q = "c".toList then some "### {{{ A\n### }}}\n".toList else none
    (handleFiles [("A".toList, "x".toList)] [] d ["a".toList, "b".toList, "c".toList]).2.2 = .error .value ∧
    (handleFiles [("A".toList, "x".toList)] [] d ["a".toList, "b".toList, "c".toList]).2.1 "a".toList =
      some "### {{{ A\nx\n### }}}\n".toList ∧
    (handleFiles [("A".toList, "x".toList)] [] d ["a".toList, "b".toList, "c".toList]).2.1 "c".toList =
      some "### {{{ A\n### }}}\n".toList := by
  decide +kernel

end Sang
