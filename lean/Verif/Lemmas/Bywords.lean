import Verif.Bywords
import Verif.Spec.Bywords
import Verif.Lemmas.Num
import Verif.Lemmas.Double
import Mathlib.Tactic.Linarith
import Mathlib.Tactic.FieldSimp
import Mathlib.Tactic.Ring
import Mathlib.Tactic.NormNum
import Mathlib.Tactic.Positivity
import Mathlib.Data.List.DropRight
import Mathlib.Algebra.Order.Ring.Pow

/-!
# Lemmas about bywords
-/

namespace Sang

open Spec

theorem bwBlank_iff (c : Char) : bwBlank c = true ↔ Blank c := by
  simp [bwBlank, Blank, or_assoc]

theorem bwBlank_space {c : Char} (h : bwBlank c = true) : isSpace c = true := by
  rcases (bwBlank_iff c).1 h with rfl | rfl | rfl <;> rfl

/-! ## Runs -/

theorem runs_cons (c : Char) (r : Str) :
    runs (c :: r) = (c :: r.takeWhile fun d => bwBlank d = bwBlank c) ::
      runs (r.dropWhile fun d => bwBlank d = bwBlank c) := by
  induction r generalizing c with
  | nil => rfl
  | cons d r ih =>
    rw [runs, ih d]
    by_cases h : bwBlank c = bwBlank d
    · simp [h]
    · have h' : ¬ bwBlank d = bwBlank c := fun e => h e.symm
      simp only [h, if_false, List.takeWhile_cons, List.dropWhile_cons, h', decide_false,
        Bool.false_eq_true]
      rw [ih d]

theorem runs_length (s : Str) : ((runs s).map List.length).sum = s.length := by
  induction s with
  | nil => rfl
  | cons c r ih =>
    rw [runs]
    split
    · next d w ws h =>
      rw [h] at ih
      simp only [List.map_cons, List.sum_cons, List.length_cons] at ih
      split <;> simp only [List.map_cons, List.sum_cons, List.length_cons, List.length_nil] <;> omega
    · simp only [List.map_cons, List.sum_cons, List.length_cons, List.length_nil]; omega

theorem runs_ne_nil (s : Str) : ∀ w ∈ runs s, w ≠ [] := by
  induction s with
  | nil => simp [runs]
  | cons c r ih =>
    rw [runs]
    split
    · next d w ws h =>
      rw [h] at ih
      split
      · intro x hx
        rcases List.mem_cons.1 hx with rfl | hx
        · simp
        · exact ih x (by simp [hx])
      · intro x hx
        rcases List.mem_cons.1 hx with rfl | hx
        · simp
        · exact ih x hx
    · intro x hx
      rcases List.mem_cons.1 hx with rfl | hx
      · simp
      · exact ih x hx

theorem pieces_ne_nil (m : Bool) (s : Str) : ∀ w ∈ pieces m s, w ≠ [] := by
  unfold pieces
  split
  · intro w hw
    obtain ⟨c, _, rfl⟩ := List.mem_map.1 hw
    simp
  · exact runs_ne_nil s

theorem pieces_length (m : Bool) (s : Str) : ((pieces m s).map List.length).sum = s.length := by
  unfold pieces
  split
  · induction s with
    | nil => rfl
    | cons c r ih => simp only [List.map_cons, List.sum_cons, List.length_cons, ih, List.length_nil]; omega
  · exact runs_length s

/-! ## Cuts -/

theorem cuts_range (ps : List Str) (hne : ∀ w ∈ ps, w ≠ []) (i : ℕ) :
    (cuts i ps).Pairwise (· < ·) ∧ ∀ j ∈ cuts i ps, i < j ∧ j ≤ i + (ps.map List.length).sum := by
  induction i, ps using cuts.induct with
  | case1 i => simp [cuts]
  | case2 i w =>
    have : 0 < w.length := List.length_pos_iff.2 (hne w (by simp))
    simp only [cuts, List.pairwise_cons, List.mem_cons, List.not_mem_nil, or_false, forall_eq,
      List.map_cons, List.map_nil, List.sum_cons, List.sum_nil]
    refine ⟨⟨by simp, List.Pairwise.nil⟩, by omega⟩
  | case3 i w v r ih1 ih2 =>
    have hw : 0 < w.length := List.length_pos_iff.2 (hne w (by simp))
    rw [cuts]
    split
    · obtain ⟨h1, h2⟩ := ih1 fun x hx => hne x (by simp [hx])
      simp only [List.pairwise_cons, List.mem_cons, forall_eq_or_imp, List.map_cons, List.sum_cons]
      refine ⟨⟨fun j hj => ?_, h1⟩, by omega, fun j hj => ?_⟩
      · have := h2 j hj; omega
      · have := h2 j hj; omega
    · obtain ⟨h1, h2⟩ := ih2 fun x hx => hne x (by simp at hx ⊢; tauto)
      simp only [List.map_cons, List.sum_cons] at h2
      simp only [List.pairwise_cons, List.mem_cons, forall_eq_or_imp, List.map_cons, List.sum_cons]
      refine ⟨⟨fun j hj => ?_, h1⟩, by omega, fun j hj => ?_⟩
      · have := h2 j hj; omega
      · have := h2 j hj; omega

/-- The ends of words, from left to right; `i` characters come before. -/
def wordEnds : ℕ → Str → List ℕ
  | _, [] => []
  | i, c :: r =>
    if bwBlank c = false ∧ (∀ d ∈ r.head?, bwBlank d = true) then (i + 1) :: wordEnds (i + 1) r
    else wordEnds (i + 1) r

theorem wordEnds_blanks (b : Str) (hb : ∀ c ∈ b, bwBlank c = true) (i : ℕ) (s : Str) :
    wordEnds i (b ++ s) = wordEnds (i + b.length) s := by
  induction b generalizing i with
  | nil => rfl
  | cons c r ih =>
    rw [List.cons_append, wordEnds, if_neg (by simp [hb c (by simp)]),
      ih (fun x hx => hb x (by simp [hx])), List.length_cons]
    congr 1; omega

theorem wordEnds_word (w : Str) (hne : w ≠ []) (hw : ∀ c ∈ w, bwBlank c = false) (i : ℕ) (s : Str)
    (hs : ∀ d ∈ s.head?, bwBlank d = true) :
    wordEnds i (w ++ s) = (i + w.length) :: wordEnds (i + w.length) s := by
  induction w generalizing i with
  | nil => exact absurd rfl hne
  | cons c r ih =>
    rw [List.cons_append, wordEnds]
    by_cases hr : r = []
    · subst hr
      rw [if_pos ⟨hw c (by simp), by simpa using hs⟩]
      rfl
    · rw [if_neg, ih hr (fun x hx => hw x (by simp [hx]))]
      · simp only [List.length_cons]
        have : i + 1 + r.length = i + (r.length + 1) := by omega
        rw [this]
      · rintro ⟨_, h⟩
        obtain ⟨d, r', rfl⟩ := List.exists_cons_of_ne_nil hr
        have h1 := h d (by simp)
        have h2 := hw d (by simp)
        rw [h1] at h2; cases h2

theorem strip_blanks {v : Str} (h : ∀ c ∈ v, bwBlank c = true) : strip v = [] := by
  have : v.dropWhile isSpace = [] := by
    rw [List.dropWhile_eq_nil_iff]
    exact fun c hc => bwBlank_space (h c hc)
  simp [strip, this]

theorem takeWhile_mem {α : Type} {p : α → Bool} {l : List α} {x : α} (h : x ∈ l.takeWhile p) :
    p x = true := by
  have := List.all_takeWhile (p := p) (l := l)
  exact (List.all_eq_true.1 this) x h

theorem head_dropWhile {α : Type} {p : α → Bool} {l : List α} {x : α}
    (h : x ∈ (l.dropWhile p).head?) : p x = false := by
  induction l with
  | nil => simp at h
  | cons y r ih =>
    rw [List.dropWhile_cons] at h
    split at h
    · exact ih h
    · next hy => simp at h; subst h; simpa using hy

theorem cuts_runs (s : Str) (hs : ∀ c ∈ s.head?, bwBlank c = false) (i : ℕ) :
    cuts i (runs s) = wordEnds i s := by
  induction hn : s.length using Nat.strong_induction_on generalizing s i with
  | _ n ih =>
    cases s with
    | nil => rfl
    | cons c r =>
      have hc : bwBlank c = false := hs c (by simp)
      set p : Char → Bool := fun d => decide (bwBlank d = bwBlank c) with hp
      set w := c :: r.takeWhile p with hw
      set s' := r.dropWhile p with hs'
      have hwall : ∀ x ∈ w, bwBlank x = false := by
        intro x hx
        rcases List.mem_cons.1 hx with rfl | hx
        · exact hc
        · have := takeWhile_mem hx
          simp only [hp, decide_eq_true_eq] at this
          rw [this, hc]
      have hsplit : c :: r = w ++ s' := by
        rw [hw, List.cons_append, hs', List.takeWhile_append_dropWhile]
      have hhead : ∀ d ∈ s'.head?, bwBlank d = true := by
        intro d hd
        have := head_dropWhile hd
        simp only [hp, decide_eq_false_iff_not, hc] at this
        simpa using this
      rw [runs_cons]
      change cuts i (w :: runs s') = _
      rw [hsplit, wordEnds_word w (by simp [hw]) hwall i s' hhead]
      have hlen : s'.length < n := by
        rw [← hn, hsplit, hw]; simp; omega
      cases hs'e : s' with
      | nil => rfl
      | cons d r' =>
        rw [hs'e] at hhead hlen
        have hd : bwBlank d = true := hhead d (by simp)
        set q : Char → Bool := fun x => decide (bwBlank x = bwBlank d) with hq
        set v := d :: r'.takeWhile q with hv
        set s'' := r'.dropWhile q with hs''
        have hvall : ∀ x ∈ v, bwBlank x = true := by
          intro x hx
          rcases List.mem_cons.1 hx with rfl | hx
          · exact hd
          · have := takeWhile_mem hx
            simp only [hq, decide_eq_true_eq] at this
            rw [this, hd]
        have hsplit' : d :: r' = v ++ s'' := by
          rw [hv, List.cons_append, hs'', List.takeWhile_append_dropWhile]
        have hhead' : ∀ x ∈ s''.head?, bwBlank x = false := by
          intro x hx
          have := head_dropWhile hx
          simp only [hq, decide_eq_false_iff_not, hd] at this
          simpa using this
        rw [runs_cons]
        change cuts i (w :: v :: runs s'') = _
        rw [cuts, if_pos (strip_blanks hvall), hsplit', wordEnds_blanks v hvall]
        congr 1
        exact ih s''.length (by
          have : (d :: r').length = v.length + s''.length := by rw [hsplit', List.length_append]
          omega) s'' hhead' _ rfl

theorem wordEnds_spec (s : Str) (i : ℕ) :
    (wordEnds i s).Pairwise (· < ·) ∧ ∀ j, j ∈ wordEnds i s ↔ i < j ∧ WordEnd s (j - i) := by
  induction s generalizing i with
  | nil => simp [wordEnds, WordEnd]
  | cons c r ih =>
    obtain ⟨h1, h2⟩ := ih (i + 1)
    have hstep : ∀ j, i + 1 < j → (WordEnd (c :: r) (j - i) ↔ WordEnd r (j - (i + 1))) := by
      intro j hj
      have e1 : j - i = (j - (i + 1)) + 1 := by omega
      have e2 : j - (i + 1) = (j - (i + 1) - 1) + 1 := by omega
      unfold WordEnd
      rw [e1]
      simp only [Nat.add_sub_cancel, List.getElem?_cons_succ]
      rw [show (c :: r)[j - (i + 1)]? = r[j - (i + 1) - 1]? by
        conv_lhs => rw [e2]
        rw [List.getElem?_cons_succ]]
      constructor
      · rintro ⟨-, h⟩; exact ⟨by omega, h⟩
      · rintro ⟨-, h⟩; exact ⟨by omega, h⟩
    have hfirst : WordEnd (c :: r) 1 ↔ bwBlank c = false ∧ ∀ d ∈ r.head?, bwBlank d = true := by
      unfold WordEnd
      simp only [Nat.sub_self, List.getElem?_cons_zero, Option.some.injEq, exists_eq_left',
        List.getElem?_cons_succ, Option.mem_def, ← bwBlank_iff, Bool.not_eq_true,
        List.head?_eq_getElem?, true_and, Nat.zero_lt_one]
    rw [wordEnds]
    split
    · next h =>
      refine ⟨List.pairwise_cons.2 ⟨fun j hj => ((h2 j).1 hj).1, h1⟩, fun j => ?_⟩
      rw [List.mem_cons, h2]
      constructor
      · rintro (rfl | ⟨hj, hw⟩)
        · refine ⟨by omega, ?_⟩
          rw [show i + 1 - i = 1 by omega]; exact hfirst.2 h
        · exact ⟨by omega, (hstep j hj).2 hw⟩
      · rintro ⟨hj, hw⟩
        by_cases e : j = i + 1
        · exact Or.inl e
        · exact Or.inr ⟨by omega, (hstep j (by omega)).1 hw⟩
    · next h =>
      refine ⟨h1, fun j => ?_⟩
      rw [h2]
      constructor
      · rintro ⟨hj, hw⟩; exact ⟨by omega, (hstep j hj).2 hw⟩
      · rintro ⟨hj, hw⟩
        have e : j ≠ i + 1 := by
          rintro rfl
          rw [show i + 1 - i = 1 by omega] at hw
          exact h (hfirst.1 hw)
        exact ⟨by omega, (hstep j (by omega)).1 hw⟩

/-! ## Letter by letter -/

/-- No two adjacent characters are white space. -/
def SingleSpaced (s : Str) : Prop := s.IsChain fun c d => ¬ (isSpace c = true ∧ isSpace d = true)

/-- The ends of letters. -/
def letterEnds : ℕ → Str → List ℕ
  | _, [] => []
  | i, c :: r => if isSpace c then letterEnds (i + 1) r else (i + 1) :: letterEnds (i + 1) r

theorem strip_single (c : Char) : strip [c] = [] ↔ isSpace c = true := by
  cases h : isSpace c <;> simp [strip, h]

theorem cuts_letters (s : Str) (i : ℕ) (hs : ∀ c ∈ s.head?, isSpace c = false)
    (h1 : SingleSpaced s) : cuts i (s.map fun c => [c]) = letterEnds i s := by
  induction hn : s.length using Nat.strong_induction_on generalizing s i with
  | _ n ih =>
    match s, hn with
    | [], _ => rfl
    | [c], _ =>
      have := hs c (by simp)
      simp [cuts, letterEnds, this]
    | c :: d :: r, hn =>
      have hc := hs c (by simp)
      rw [List.map_cons, List.map_cons, cuts, letterEnds, hc]
      simp only [List.length_singleton, Bool.false_eq_true, if_false]
      congr 1
      unfold SingleSpaced at h1
      rw [List.isChain_cons_cons] at h1
      by_cases hd : isSpace d = true
      · rw [if_pos ((strip_single d).2 hd), letterEnds, if_pos hd]
        apply ih r.length (by simp at hn; omega) r
        · intro e he
          cases r with
          | nil => simp at he
          | cons x r =>
            simp at he; subst he
            have := (List.isChain_cons_cons.1 h1.2).1
            simp only [hd, true_and, Bool.not_eq_true] at this
            exact this
        · cases r with
          | nil => exact List.isChain_nil
          | cons x r => exact (List.isChain_cons_cons.1 h1.2).2
        · rfl
      · rw [if_neg (fun h => hd ((strip_single d).1 h)), ← List.map_cons (f := fun c => [c])]
        exact ih (d :: r).length (by simp at hn ⊢; omega) (d :: r) _ (by simpa using hd) h1.2 rfl

theorem letterEnds_spec (s : Str) (i : ℕ) :
    (letterEnds i s).Pairwise (· < ·) ∧ ∀ j, j ∈ letterEnds i s ↔ i < j ∧ LetterEnd s (j - i) := by
  induction s generalizing i with
  | nil => simp [letterEnds, LetterEnd]
  | cons c r ih =>
    obtain ⟨h1, h2⟩ := ih (i + 1)
    have hstep : ∀ j, i + 1 < j → (LetterEnd (c :: r) (j - i) ↔ LetterEnd r (j - (i + 1))) := by
      intro j hj
      have e1 : j - i = (j - (i + 1)) + 1 := by omega
      have e2 : j - (i + 1) = (j - (i + 1) - 1) + 1 := by omega
      unfold LetterEnd
      rw [e1]
      simp only [Nat.add_sub_cancel]
      rw [show (c :: r)[j - (i + 1)]? = r[j - (i + 1) - 1]? by
        conv_lhs => rw [e2]
        rw [List.getElem?_cons_succ]]
      constructor
      · rintro ⟨-, h⟩; exact ⟨by omega, h⟩
      · rintro ⟨-, h⟩; exact ⟨by omega, h⟩
    have hfirst : LetterEnd (c :: r) 1 ↔ isSpace c = false := by
      unfold LetterEnd
      simp
    rw [letterEnds]
    split
    · next h =>
      refine ⟨h1, fun j => ?_⟩
      rw [h2]
      constructor
      · rintro ⟨hj, hw⟩; exact ⟨by omega, (hstep j hj).2 hw⟩
      · rintro ⟨hj, hw⟩
        have e : j ≠ i + 1 := by
          rintro rfl
          rw [show i + 1 - i = 1 by omega] at hw
          rw [hfirst.1 hw] at h; cases h
        exact ⟨by omega, (hstep j (by omega)).1 hw⟩
    · next h =>
      refine ⟨List.pairwise_cons.2 ⟨fun j hj => ((h2 j).1 hj).1, h1⟩, fun j => ?_⟩
      rw [List.mem_cons, h2]
      constructor
      · rintro (rfl | ⟨hj, hw⟩)
        · refine ⟨by omega, ?_⟩
          rw [show i + 1 - i = 1 by omega]; exact hfirst.2 (by simpa using h)
        · exact ⟨by omega, (hstep j hj).2 hw⟩
      · rintro ⟨hj, hw⟩
        by_cases e : j = i + 1
        · exact Or.inl e
        · exact Or.inr ⟨by omega, (hstep j (by omega)).1 hw⟩

theorem wordEnd_zero (s : Str) (i : ℕ) : (0 < i ∧ WordEnd s (i - 0)) ↔ WordEnd s i := by
  simp only [Nat.sub_zero, and_iff_right_iff_imp]
  exact fun h => h.1

theorem shown_words {desc : Str} (h : ∀ c ∈ desc.head?, ¬ Blank c) :
    InitialParts (WordEnd desc) desc (shownTexts false desc) := by
  have hs : ∀ c ∈ desc.head?, bwBlank c = false := by
    intro c hc
    have := h c hc
    rw [← bwBlank_iff] at this
    simpa using this
  obtain ⟨h1, h2⟩ := wordEnds_spec desc 0
  refine ⟨cuts 0 (runs desc), ?_, ?_, rfl⟩
  · rw [cuts_runs desc hs]; exact h1
  · intro i
    rw [cuts_runs desc hs, h2, wordEnd_zero]

theorem shown_letters {desc : Str} (h : ∀ c ∈ desc.head?, isSpace c = false) (h1 : SingleSpaced desc) :
    InitialParts (LetterEnd desc) desc (shownTexts true desc) := by
  obtain ⟨h2, h3⟩ := letterEnds_spec desc 0
  refine ⟨cuts 0 (desc.map fun c => [c]), ?_, ?_, rfl⟩
  · rw [cuts_letters desc 0 h h1]; exact h2
  · intro i
    rw [cuts_letters desc 0 h h1, h3]
    simp only [Nat.sub_zero, and_iff_right_iff_imp]
    exact fun h => h.1

theorem shown_growing (m : Bool) (desc : Str) :
    ∃ l : List ℕ, l.Pairwise (· < ·) ∧ (∀ i ∈ l, 0 < i ∧ i ≤ desc.length) ∧
      shownTexts m desc = l.map desc.take := by
  obtain ⟨h1, h2⟩ := cuts_range (pieces m desc) (pieces_ne_nil m desc) 0
  refine ⟨_, h1, fun i hi => ?_, rfl⟩
  have := h2 i hi
  rw [pieces_length] at this
  omega

theorem shown_ne_nil (m : Bool) (desc : Str) : ∀ s ∈ shownTexts m desc, s ≠ [] := by
  obtain ⟨l, _, h2, h3⟩ := shown_growing m desc
  rw [h3]
  intro s hs
  obtain ⟨i, hi, rfl⟩ := List.mem_map.1 hs
  have := h2 i hi
  intro e
  have := congrArg List.length e
  rw [List.length_take, List.length_nil] at this
  omega

/-! ## Times -/

theorem rnd_lower {F : Fl} (hF : F.Lawful) {x : ℚ} (hx : 0 ≤ x) : (1 - 1 / 2 ^ 53) * x ≤ F.rnd x := by
  have h := hF.err x
  rw [abs_of_nonneg hx] at h
  have := (abs_le.1 h).1
  linarith

theorem rnd_upper {F : Fl} (hF : F.Lawful) {x : ℚ} (hx : 0 ≤ x) : F.rnd x ≤ (1 + 1 / 2 ^ 53) * x := by
  have h := hF.err x
  rw [abs_of_nonneg hx] at h
  have := (abs_le.1 h).2
  linarith

/-- `y` is `x` up to `a` roundings. -/
def Rounded (a : ℕ) (x y : ℚ) : Prop :=
  (1 - 1 / 2 ^ 53) ^ a * x ≤ y ∧ y ≤ (1 + 1 / 2 ^ 53) ^ a * x

theorem Rounded.refl {x : ℚ} : Rounded 0 x x := by simp [Rounded]

theorem Rounded.nonneg {a : ℕ} {x y : ℚ} (hx : 0 ≤ x) (h : Rounded a x y) : 0 ≤ y :=
  le_trans (mul_nonneg (by norm_num) hx) h.1

theorem Rounded.succ {F : Fl} (hF : F.Lawful) {a : ℕ} {x y : ℚ} (hx : 0 ≤ x) (h : Rounded a x y) :
    Rounded (a + 1) x (F.rnd y) := by
  have hy := h.nonneg hx
  constructor
  · refine le_trans ?_ (rnd_lower hF hy)
    rw [pow_succ' _ a, mul_assoc]
    exact mul_le_mul_of_nonneg_left h.1 (by norm_num)
  · refine le_trans (rnd_upper hF hy) ?_
    rw [pow_succ' _ a, mul_assoc]
    exact mul_le_mul_of_nonneg_left h.2 (by norm_num)

theorem Rounded.mono {a b : ℕ} (hab : a ≤ b) {x y : ℚ} (hx : 0 ≤ x) (h : Rounded a x y) :
    Rounded b x y := by
  constructor
  · refine le_trans (mul_le_mul_of_nonneg_right ?_ hx) h.1
    exact pow_le_pow_of_le_one (by norm_num) (by norm_num) hab
  · refine le_trans h.2 (mul_le_mul_of_nonneg_right ?_ hx)
    exact pow_le_pow_right₀ (by norm_num) hab

theorem Rounded.add {a : ℕ} {x y x' y' : ℚ} (h : Rounded a x y) (h' : Rounded a x' y') :
    Rounded a (x + x') (y + y') := by
  constructor
  · rw [mul_add]; exact add_le_add h.1 h'.1
  · rw [mul_add]; exact add_le_add h.2 h'.2

theorem Rounded.scale {a : ℕ} {x y c : ℚ} (hc : 0 ≤ c) (h : Rounded a x y) :
    Rounded a (c * x) (c * y) := by
  constructor
  · have := mul_le_mul_of_nonneg_left h.1 hc; linarith
  · have := mul_le_mul_of_nonneg_left h.2 hc; linarith

theorem Rounded.near {a : ℕ} (ha : a ≤ 2 ^ 52) {x y : ℚ} (hx : 0 ≤ x) (h : Rounded a x y) :
    |y - x| ≤ a / 2 ^ 52 * x := by
  have ha' : (a:ℚ) ≤ 2 ^ 52 := by exact_mod_cast ha
  have h0 : (0:ℚ) ≤ a := by positivity
  have hlow : 1 - (a:ℚ) / 2 ^ 53 ≤ (1 - 1 / 2 ^ 53) ^ a := by
    have := one_add_mul_le_pow (a := (-(1:ℚ) / 2 ^ 53)) (by norm_num) a
    have e : (1:ℚ) + -1 / 2 ^ 53 = 1 - 1 / 2 ^ 53 := by ring
    rw [e] at this
    calc 1 - (a:ℚ) / 2 ^ 53 = 1 + a * (-1 / 2 ^ 53) := by ring
      _ ≤ _ := this
  have hup : (1 + 1 / 2 ^ 53 : ℚ) ^ a ≤ 1 + a / 2 ^ 52 := by
    have h1 : (1 + 1 / 2 ^ 53 : ℚ) ^ a * (1 - 1 / 2 ^ 53) ^ a ≤ 1 := by
      rw [← mul_pow]
      exact pow_le_one₀ (by norm_num) (by norm_num)
    have h2 : (0:ℚ) < (1 + 1 / 2 ^ 53) ^ a := by positivity
    have h3 : (1 + 1 / 2 ^ 53 : ℚ) ^ a * (1 - a / 2 ^ 53) ≤ 1 :=
      le_trans (mul_le_mul_of_nonneg_left hlow h2.le) h1
    have h4 : (1:ℚ) ≤ (1 + a / 2 ^ 52) * (1 - a / 2 ^ 53) := by
      have : (a:ℚ) / 2 ^ 52 ≤ 1 := by rw [div_le_one (by positivity)]; exact ha'
      have h5 : (0:ℚ) ≤ a / 2 ^ 53 := by positivity
      have e : (a:ℚ) / 2 ^ 52 = 2 * (a / 2 ^ 53) := by ring
      rw [e] at this ⊢
      nlinarith
    have h6 : (0:ℚ) < 1 - a / 2 ^ 53 := by
      have : (a:ℚ) / 2 ^ 53 ≤ 1 / 2 := by
        rw [div_le_iff₀ (by positivity)]; norm_num at ha' ⊢; exact ha'
      linarith
    exact le_of_mul_le_mul_right (le_trans h3 h4) h6
  rw [abs_le]
  constructor
  · have := mul_le_mul_of_nonneg_right hlow hx
    have h5 : (a:ℚ) / 2 ^ 53 * x ≤ a / 2 ^ 52 * x := by
      apply mul_le_mul_of_nonneg_right _ hx
      apply div_le_div_of_nonneg_left h0 (by positivity) (by norm_num)
    linarith [h.1]
  · have := mul_le_mul_of_nonneg_right hup hx
    linarith [h.2]

theorem setTimes_rounded {F : Fl} (hF : F.Lawful) {m p : ℚ} (hp : 0 ≤ p) (hm : Rounded 1 p m)
    (texts : List (Str × (ℕ × ℕ))) {a : ℕ} (ha : 2 ≤ a) {t x : ℚ} (hx : 0 ≤ x) (ht : Rounded a x t)
    {k : ℕ} {w : WordTiming} (hw : (setTimes F m t texts)[k]? = some w) :
    Rounded (a + k + 1) (x + p * ((texts.map fun q => q.1.length).take k).sum) (1000 * w.time) := by
  induction texts generalizing a t x k with
  | nil => simp [setTimes] at hw
  | cons q r ih =>
    obtain ⟨s, y⟩ := q
    cases k with
    | zero =>
      simp only [setTimes, List.getElem?_cons_zero, Option.some.injEq] at hw
      subst hw
      have h1 : Rounded a (x / 1000) (t / 1000) := by
        have := ht.scale (c := 1 / 1000) (by norm_num)
        rwa [one_div_mul_eq_div, one_div_mul_eq_div] at this
      have h2 := (h1.succ hF (by positivity)).scale (c := 1000) (by norm_num)
      have e : (1000:ℚ) * (x / 1000) = x := by ring
      rw [e] at h2
      simpa using h2
    | succ k =>
      simp only [setTimes, List.getElem?_cons_succ] at hw
      have h1 : Rounded 2 (s.length * p) (F.rnd (s.length * m)) :=
        (hm.scale (c := s.length) (by positivity)).succ hF (by positivity)
      have h2 := (ht.add (h1.mono ha (by positivity))).succ hF (by positivity)
      have := ih (by omega) (by positivity) h2 hw
      simp only [List.map_cons, List.take_succ_cons, List.sum_cons]
      have e1 : a + 1 + k + 1 = a + (k + 1) + 1 := by omega
      have e2 : x + s.length * p + p * (((r.map fun q => q.1.length).take k).sum : ℕ) =
          x + p * ((s.length + ((r.map fun q => q.1.length).take k).sum : ℕ)) := by
        push_cast; ring
      rw [e1, e2] at this
      exact this

theorem setTimes_mono {F : Fl} (hF : F.Lawful) {m : ℚ} (hm : 0 ≤ m) (texts : List (Str × (ℕ × ℕ)))
    {t : ℚ} (ht : F.rep t) :
    (∀ w ∈ setTimes F m t texts, F.rnd (t / 1000) ≤ w.time) ∧
    (setTimes F m t texts).Pairwise fun a b => a.time ≤ b.time := by
  induction texts generalizing t with
  | nil => simp [setTimes]
  | cons q r ih =>
    obtain ⟨s, y⟩ := q
    have hstep : t ≤ F.rnd (t + F.rnd (s.length * m)) := by
      have h1 : 0 ≤ F.rnd (s.length * m) := hF.nonneg (by positivity)
      have h2 : F.rnd t ≤ F.rnd (t + F.rnd (s.length * m)) := hF.mono (by linarith)
      rwa [show F.rnd t = t from ht] at h2
    obtain ⟨i1, i2⟩ := ih (t := F.rnd (t + F.rnd (s.length * m))) (hF.idem _)
    have hd : F.rnd (t / 1000) ≤ F.rnd (F.rnd (t + F.rnd (s.length * m)) / 1000) :=
      hF.mono (div_le_div_of_nonneg_right hstep (by norm_num))
    simp only [setTimes, List.mem_cons, forall_eq_or_imp, le_refl, true_and, List.pairwise_cons]
    exact ⟨fun w hw => le_trans hd (i1 w hw), fun w hw => le_trans hd (i1 w hw), i2⟩

theorem setTimes_texts (F : Fl) (m t : ℚ) (texts : List (Str × (ℕ × ℕ))) :
    (setTimes F m t texts).map (fun w => (w.text, w.item)) = texts := by
  induction texts generalizing t with
  | nil => rfl
  | cons q r ih => obtain ⟨s, y⟩ := q; simp [setTimes, ih]

end Sang
