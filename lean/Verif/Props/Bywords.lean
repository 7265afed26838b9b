import Verif.Lemmas.Bywords
import Verif.Lemmas.Repr
import Verif.Lemmas.TSpec
import Verif.Lemmas.MapRes
import Verif.Props.Animate

/-! # Bywords: properties C65–C69, C92–C94 -/

namespace Sang

open Spec

/-- The example group: "Hello, World" above "good  bye". -/
def exBGroup : BGroup :=
  ⟨"bywords-1".toList, [⟨(0, 0), "Hello, World".toList⟩, ⟨(0, 1), "good  bye ".toList⟩]⟩

/-- A group matching one line of two equal words and a third. -/
def exBGroup' : BGroup := ⟨"bywords-2".toList, [⟨(1, 0), "aa aa aa".toList⟩]⟩

/-! ## What a match gives -/

theorem bwMatches_some {F : Fl} {m : Bool} {s : Str} {dur start : ℤ} {g : BGroup} {ws : List WordTiming}
    (h : bwMatches F m s dur start g = .ok (some ws)) :
    s = g.fullText ∧ ((g.shown m).map fun p => p.1.length).sum ≠ 0 ∧
      ws = setTimes F (F.rnd (dur / (((g.shown m).map fun p => p.1.length).sum : ℕ))) start (g.shown m) := by
  simp only [bwMatches] at h
  split at h
  · simp at h
  · next hs =>
    split at h
    · simp at h
    · next ht =>
      injection h with h
      injection h with h
      exact ⟨by simpa using hs, ht, h.symm⟩

theorem bwMatches_texts {F : Fl} {m : Bool} {s : Str} {dur start : ℤ} {g : BGroup} {ws : List WordTiming}
    (h : bwMatches F m s dur start g = .ok (some ws)) :
    ws.map (fun w => (w.text, w.item)) = g.shown m := by
  rw [(bwMatches_some h).2.2, setTimes_texts]

theorem bwMatches_lens {F : Fl} {m : Bool} {s : Str} {dur start : ℤ} {g : BGroup} {ws : List WordTiming}
    (h : bwMatches F m s dur start g = .ok (some ws)) :
    (g.shown m).map (fun p => p.1.length) = ws.map fun w => w.text.length := by
  rw [← bwMatches_texts h, List.map_map]; rfl

/-- The texts given to one of the layers, in order. -/
def textsFor (item : ℕ × ℕ) (ws : List WordTiming) : List Str :=
  (ws.filter fun w => w.item = item).map WordTiming.text

theorem textsFor_eq (item : ℕ × ℕ) (ws : List WordTiming) :
    textsFor item ws = ((ws.map fun w => (w.text, w.item)).filter fun p => p.2 = item).map Prod.fst := by
  induction ws with
  | nil => rfl
  | cons w r ih =>
    simp only [textsFor, List.map_cons, List.filter_cons] at ih ⊢
    split <;> simp [ih]

theorem textsFor_shown {F : Fl} {m : Bool} {s : Str} {dur start : ℤ} {g : BGroup} {ws : List WordTiming}
    (h : bwMatches F m s dur start g = .ok (some ws)) (hd : (g.texts.map BText.item).Nodup)
    {t : BText} (ht : t ∈ g.texts) : textsFor t.item ws = shownTexts m t.desc := by
  rw [textsFor_eq, bwMatches_texts h, BGroup.shown]
  obtain ⟨a, b, e⟩ := List.append_of_mem ht
  rw [e] at hd ⊢
  rw [List.map_append, List.map_cons, List.nodup_middle, List.nodup_cons] at hd
  have hother : ∀ l : List BText, (∀ x ∈ l, x.item ≠ t.item) →
      ((l.flatMap fun t => (shownTexts m t.desc).map fun s => (s, t.item)).filter
        fun p => p.2 = t.item) = [] := by
    intro l hl
    rw [List.filter_eq_nil_iff]
    intro p hp
    obtain ⟨x, hx, hp⟩ := List.mem_flatMap.1 hp
    obtain ⟨s, _, rfl⟩ := List.mem_map.1 hp
    simpa using hl x hx
  rw [List.flatMap_append, List.flatMap_cons, List.filter_append, List.filter_append,
    hother a, hother b, List.nil_append, List.append_nil]
  · rw [List.filter_eq_self.2, List.map_map]
    · exact List.map_id' _
    · intro p hp
      obtain ⟨s, _, rfl⟩ := List.mem_map.1 hp
      simp
  · intro x hx e'
    exact hd.1 (e' ▸ List.mem_append_right _ (List.mem_map_of_mem hx))
  · intro x hx e'
    exact hd.1 (e' ▸ List.mem_append_left _ (List.mem_map_of_mem hx))

/-! ## C65 -/

/-- C65, word by word, for a description which doesn't begin with a blank: the texts are its initial
parts up to the end of each word. -/
theorem c65_words_partial {F : Fl} {s : Str} {dur start : ℤ} {g : BGroup} {ws : List WordTiming}
    (h : bwMatches F false s dur start g = .ok (some ws)) (hd : (g.texts.map BText.item).Nodup)
    {t : BText} (ht : t ∈ g.texts) (hb : ∀ c ∈ t.desc.head?, ¬ Blank c) :
    InitialParts (WordEnd t.desc) t.desc (textsFor t.item ws) := by
  rw [textsFor_shown h hd ht]; exact shown_words hb

/-- C65, letter by letter, for a description which doesn't begin with white space and has no two
characters of white space in a row: the texts are its initial parts up to each letter. -/
theorem c65_letters_partial {F : Fl} {s : Str} {dur start : ℤ} {g : BGroup} {ws : List WordTiming}
    (h : bwMatches F true s dur start g = .ok (some ws)) (hd : (g.texts.map BText.item).Nodup)
    {t : BText} (ht : t ∈ g.texts) (hb : ∀ c ∈ t.desc.head?, isSpace c = false)
    (h1 : SingleSpaced t.desc) :
    InitialParts (LetterEnd t.desc) t.desc (textsFor t.item ws) := by
  rw [textsFor_shown h hd ht]; exact shown_letters hb h1

/-- C65, both ways, for every description: the texts are initial parts, none of them empty, and they
grow. -/
theorem c65_growing {F : Fl} {m : Bool} {s : Str} {dur start : ℤ} {g : BGroup} {ws : List WordTiming}
    (h : bwMatches F m s dur start g = .ok (some ws)) (hd : (g.texts.map BText.item).Nodup)
    {t : BText} (ht : t ∈ g.texts) :
    (∀ x ∈ textsFor t.item ws, x ≠ [] ∧ x <+: t.desc) ∧
    (textsFor t.item ws).Pairwise fun x y => x <+: y ∧ x ≠ y := by
  rw [textsFor_shown h hd ht]
  obtain ⟨l, h1, h2, h3⟩ := shown_growing m t.desc
  refine ⟨fun x hx => ⟨shown_ne_nil m t.desc x hx, ?_⟩, ?_⟩
  · rw [h3] at hx
    obtain ⟨i, _, rfl⟩ := List.mem_map.1 hx
    exact List.take_prefix _ _
  · rw [h3, List.pairwise_map]
    refine h1.imp_of_mem fun {i j} hi hj hij => ⟨?_, fun e => ?_⟩
    · have e : t.desc.take i = (t.desc.take j).take i := by
        rw [List.take_take, min_eq_left hij.le]
      rw [e]; exact List.take_prefix _ _
    · have := congrArg List.length e
      have h4 := h2 i hi
      have h5 := h2 j hj
      rw [List.length_take, List.length_take] at this
      omega

theorem getLast_of_max {l : List ℕ} (h : l.Pairwise (· < ·)) {j : ℕ} (hj : j ∈ l)
    (hmax : ∀ i ∈ l, i ≤ j) : l.getLast? = some j := by
  obtain ⟨a, b, rfl⟩ := List.append_of_mem hj
  cases b with
  | nil => simp
  | cons x r =>
    have := (List.pairwise_cons.1 (List.pairwise_append.1 h).2.1).1 x (by simp)
    have := hmax x (by simp)
    omega

theorem wordEnd_last {core trail : Str} {c : Char} (hc : ¬ Blank c) (ht : ∀ d ∈ trail, Blank d) :
    WordEnd (core ++ c :: trail) (core.length + 1) ∧
    ∀ i, WordEnd (core ++ c :: trail) i → i ≤ core.length + 1 := by
  refine ⟨⟨by omega, ⟨c, ?_, hc⟩, fun d hd => ?_⟩, ?_⟩
  · simp
  · rw [List.getElem?_append_right (by omega)] at hd
    have e : core.length + 1 - core.length = 0 + 1 := by omega
    rw [e, List.getElem?_cons_succ] at hd
    exact ht d (List.mem_of_getElem? hd)
  · rintro i ⟨h0, ⟨d, hd, hd'⟩, -⟩
    by_contra hlt
    rw [List.getElem?_append_right (by omega)] at hd
    have e : i - 1 - core.length = (i - core.length - 2) + 1 := by omega
    rw [e, List.getElem?_cons_succ] at hd
    exact hd' (ht d (List.mem_of_getElem? hd))

/-- C65, word by word, the end: the last text for a layer is its whole description without the
blanks at its end. -/
theorem c65_last_partial {F : Fl} {s : Str} {dur start : ℤ} {g : BGroup} {ws : List WordTiming}
    (h : bwMatches F false s dur start g = .ok (some ws)) (hd : (g.texts.map BText.item).Nodup)
    {t : BText} (ht : t ∈ g.texts) (hb : ∀ c ∈ t.desc.head?, ¬ Blank c)
    {core trail : Str} {c : Char} (he : t.desc = core ++ c :: trail) (hc : ¬ Blank c)
    (htr : ∀ d ∈ trail, Blank d) :
    (textsFor t.item ws).getLast? = some (core ++ [c]) := by
  obtain ⟨l, h1, h2, h3⟩ := c65_words_partial h hd ht hb
  obtain ⟨w1, w2⟩ := wordEnd_last (core := core) hc htr
  rw [← he] at w1 w2
  rw [h3, List.getLast?_map, getLast_of_max h1 ((h2 _).2 w1) (fun i hi => w2 i ((h2 i).1 hi))]
  rw [he, Option.map_some, show core ++ c :: trail = (core ++ [c]) ++ trail by simp,
    List.take_append_of_le_length (by simp), List.take_of_length_le (by simp)]

/-- C65 fails for a description that begins with a blank: a text is shown that ends within the blanks
before the first word. -/
theorem c65_leading_blank_fails :
    ∃ ws, bwMatches double false " ab".toList 1000 0 ⟨[], [⟨(0, 0), " ab".toList⟩]⟩ = .ok (some ws) ∧
      " ".toList ∈ textsFor (0, 0) ws :=
  ⟨_, rfl, by decide +kernel⟩

/-- C65 fails, letter by letter, for a description that ends with two blanks: the last text is not the
description without the blanks at its end. -/
theorem c65_trailing_blanks_fails :
    ∃ ws, bwMatches double true "ab  ".toList 1000 0 ⟨[], [⟨(0, 0), "ab  ".toList⟩]⟩ = .ok (some ws) ∧
      (textsFor (0, 0) ws).getLast? = some "ab  ".toList :=
  ⟨_, rfl, by decide +kernel⟩

/-- C65 applies: both layers of the example group. -/
example :
    ∃ ws, bwMatches double false "hello world good  bye ".toList 6000 1500 exBGroup = .ok (some ws) ∧
    (exBGroup.texts.map BText.item).Nodup ∧
    textsFor (0, 0) ws = ["Hello,".toList, "Hello, World".toList] ∧
    textsFor (0, 1) ws = ["good".toList, "good  bye".toList] := by
  refine ⟨_, rfl, ?_, ?_, ?_⟩ <;> decide +kernel

/-- C65 applies letter by letter. -/
example :
    ∃ ws, bwMatches double true "a bc".toList 6000 1500 ⟨[], [⟨(0, 0), "A bc".toList⟩]⟩ = .ok (some ws) ∧
    SingleSpaced "A bc".toList ∧
    textsFor (0, 0) ws = ["A".toList, "A b".toList, "A bc".toList] := by
  refine ⟨_, rfl, ?_, ?_⟩
  · simp only [SingleSpaced]; decide +kernel
  · decide +kernel

/-! ## C66 and C67 -/

theorem shown_pos {m : Bool} {g : BGroup} : ∀ p ∈ g.shown m, 1 ≤ p.1.length := by
  intro p hp
  obtain ⟨t, _, hp⟩ := List.mem_flatMap.1 hp
  obtain ⟨s, hs, rfl⟩ := List.mem_map.1 hp
  exact List.length_pos_iff.2 (shown_ne_nil m t.desc s hs)

/-- C66, the start: the first text comes at the start of the subtitle (to the nearest float). -/
theorem c66_first {F : Fl} {m : Bool} {s : Str} {dur start : ℤ} {g : BGroup} {ws : List WordTiming}
    (h : bwMatches F m s dur start g = .ok (some ws)) :
    ∃ w r, ws = w :: r ∧ w.time = F.rnd (start / 1000) := by
  obtain ⟨-, h1, h2⟩ := bwMatches_some h
  cases hs : g.shown m with
  | nil => rw [hs] at h1; exact absurd rfl h1
  | cons p r => rw [hs] at h2; exact ⟨_, _, h2, rfl⟩

/-- C66, the order: times never decrease. -/
theorem c66_monotone {F : Fl} (hF : F.Lawful) {m : Bool} {s : Str} {dur start : ℤ} {g : BGroup}
    {ws : List WordTiming} (h : bwMatches F m s dur start g = .ok (some ws)) (hdur : 0 ≤ dur)
    (hstart : |start| ≤ 2 ^ 53) : ws.Pairwise fun a b => a.time ≤ b.time := by
  obtain ⟨-, -, h2⟩ := bwMatches_some h
  rw [h2]
  have hd : (0:ℚ) ≤ dur := by exact_mod_cast hdur
  exact (setTimes_mono hF (hF.nonneg (by positivity)) _ (hF.int start hstart)).2

/-- C67, what holds: each text comes when the duration is shared out in proportion to the lengths of
all texts shown (whole initial parts, not words), within the error of a few roundings. -/
theorem c67_share_of_whole_texts_partial {F : Fl} (hF : F.Lawful) {m : Bool} {s : Str} {dur start : ℤ}
    {g : BGroup} {ws : List WordTiming} (h : bwMatches F m s dur start g = .ok (some ws))
    (hdur : 0 ≤ dur) (hstart : 0 ≤ start) {k : ℕ} {w : WordTiming} (hw : ws[k]? = some w)
    (hk : k + 3 ≤ 2 ^ 52) :
    |1000 * w.time - shareTime start dur (ws.map fun w => w.text.length) k| ≤
      (k + 3) / 2 ^ 52 * shareTime start dur (ws.map fun w => w.text.length) k := by
  have hlens := bwMatches_lens h
  obtain ⟨-, h1, h2⟩ := bwMatches_some h
  have hd : (0:ℚ) ≤ dur := by exact_mod_cast hdur
  have hst : (0:ℚ) ≤ start := by exact_mod_cast hstart
  set S := ((g.shown m).map fun p => p.1.length).sum with hS
  have hS0 : (0:ℚ) < S := by exact_mod_cast Nat.pos_of_ne_zero h1
  have hp : (0:ℚ) ≤ dur / S := by positivity
  rw [h2] at hw
  have hr := setTimes_rounded hF hp ((Rounded.refl).succ hF hp) (g.shown m) (le_refl 2) hst
    (Rounded.refl.mono (Nat.zero_le 2) hst) hw
  have e : (start:ℚ) + dur / S * ((((g.shown m).map fun q => q.1.length).take k).sum : ℕ) =
      shareTime start dur (ws.map fun w => w.text.length) k := by
    rw [shareTime, ← hlens, ← hS]; ring
  rw [e] at hr
  have hx : 0 ≤ shareTime start dur (ws.map fun w => w.text.length) k := by
    unfold shareTime; positivity
  have := hr.near (by omega) hx
  have e2 : ((2 + k + 1 : ℕ) : ℚ) = k + 3 := by push_cast; ring
  rw [e2] at this
  exact this

theorem sum_take_lt {l : List ℕ} (h : ∀ x ∈ l, 1 ≤ x) {k : ℕ} (hk : k < l.length) :
    k ≤ (l.take k).sum ∧ (l.take k).sum + 1 ≤ l.sum := by
  induction l generalizing k with
  | nil => simp at hk
  | cons x r ih =>
    have hx := h x (by simp)
    cases k with
    | zero => simp; omega
    | succ k =>
      have := ih (fun y hy => h y (by simp [hy])) (by simpa using hk)
      simp only [List.take_succ_cons, List.sum_cons]
      omega

/-- C66, the end: all texts come before the end of the subtitle, when its duration is not too small
compared with its distance from the start of the film (rounding errors could add up to more than the
last pause). For texts of a hundred letters in all that means at least one part in 10^11. -/
theorem c66_before_end_partial {F : Fl} (hF : F.Lawful) {m : Bool} {s : Str} {dur start : ℤ}
    {g : BGroup} {ws : List WordTiming} (h : bwMatches F m s dur start g = .ok (some ws))
    (hdur : 0 < dur) (hstart : 0 ≤ start) {S : ℕ} (hS : S = (ws.map fun w => w.text.length).sum)
    (hsmall : (S:ℚ) * (S + 2) * (start + dur) < 2 ^ 52 * dur) :
    ∀ w ∈ ws, w.time < ((start + dur : ℤ) : ℚ) / 1000 := by
  intro w hw
  obtain ⟨k, hk⟩ := List.mem_iff_getElem?.1 hw
  have hlens := bwMatches_lens h
  have hpos : ∀ x ∈ ws.map (fun w => w.text.length), 1 ≤ x := by
    rw [← hlens]
    intro x hx
    obtain ⟨p, hp, rfl⟩ := List.mem_map.1 hx
    exact shown_pos p hp
  have hklt : k < (ws.map fun w => w.text.length).length := by
    rw [List.length_map]; exact (List.getElem?_eq_some_iff.1 hk).1
  obtain ⟨hk1, hk2⟩ := sum_take_lt hpos hklt
  rw [← hS] at hk2
  have hd : (0:ℚ) < dur := by exact_mod_cast hdur
  have hst : (0:ℚ) ≤ start := by exact_mod_cast hstart
  have hS1 : 1 ≤ S := by omega
  have hSq : (0:ℚ) < S := by exact_mod_cast hS1
  have hkS : (k:ℚ) + 3 ≤ S + 2 := by
    have : k + 1 ≤ S := by omega
    have : (k:ℚ) + 1 ≤ S := by exact_mod_cast this
    linarith
  have hSbig : (S:ℚ) + 2 < 2 ^ 52 := by
    by_contra hc
    push Not at hc
    have h1 : (1:ℚ) ≤ S := by exact_mod_cast hS1
    have h2 : (2:ℚ) ^ 52 * dur ≤ S * (S + 2) * (start + dur) := by
      have : (2:ℚ) ^ 52 ≤ S * (S + 2) := by nlinarith
      nlinarith
    linarith
  have hnear := c67_share_of_whole_texts_partial hF h hdur.le hstart hk (by
    have : ((k + 3 : ℕ) : ℚ) ≤ ((2 ^ 52 : ℕ) : ℚ) := by push_cast; linarith
    exact_mod_cast this)
  set x := shareTime start dur (ws.map fun w => w.text.length) k with hx
  have hxle : x ≤ start + dur - dur / S := by
    rw [hx, shareTime, ← hS]
    generalize ((ws.map fun w => w.text.length).take k).sum = A at hk2
    have h1 : (A:ℚ) + 1 ≤ S := by exact_mod_cast hk2
    have h2 : (dur:ℚ) * A / S ≤ dur * (S - 1) / S := by
      apply div_le_div_of_nonneg_right _ hSq.le
      exact mul_le_mul_of_nonneg_left (by linarith) hd.le
    have h3 : (dur:ℚ) * (S - 1) / S = dur - dur / S := by field_simp
    linarith
  have hx0 : 0 ≤ x := by rw [hx]; unfold shareTime; positivity
  have hdS : 0 < (dur:ℚ) / S := by positivity
  have h1 : ((k:ℚ) + 3) / 2 ^ 52 * x ≤ (S + 2) / 2 ^ 52 * (start + dur) := by
    apply mul_le_mul _ (by linarith) hx0 (by positivity)
    exact div_le_div_of_nonneg_right hkS (by positivity)
  have h2 : ((S:ℚ) + 2) / 2 ^ 52 * (start + dur) < dur / S := by
    rw [lt_div_iff₀ hSq, div_mul_eq_mul_div, div_mul_eq_mul_div, div_lt_iff₀ (by positivity)]
    linarith
  have h3 := (abs_le.1 hnear).2
  rw [lt_div_iff₀ (by norm_num)]
  push_cast
  linarith

/-- C66 fails in the year 142,714: the last of four texts comes at the very end of the subtitle. -/
theorem c66_end_fails :
    ∃ ws, bwMatches double false "aaaaaaaaaa b c d".toList 3 (2 ^ 52)
        ⟨[], [⟨(0, 0), "aaaaaaaaaa b c d".toList⟩]⟩ = .ok (some ws) ∧
      ∃ w ∈ ws, w.time = double.rnd (((2:ℤ) ^ 52 + 3 : ℤ) / 1000) := by
  refine ⟨_, rfl, ⟨"aaaaaaaaaa b c d".toList, (0, 0), _⟩, ?_, rfl⟩
  decide +kernel

/-- C67 fails: after the first of two words of the same length the pause is two seconds, and after the
second it is five. -/
theorem c67_word_length_fails :
    bwMatches double false "aa aa aa".toList 15000 0 exBGroup' =
      .ok (some [⟨"aa".toList, (1, 0), 0⟩, ⟨"aa aa".toList, (1, 0), 2⟩, ⟨"aa aa aa".toList, (1, 0), 7⟩]) := by
  decide +kernel

/-- C66 and C67 apply to the example group. -/
example :
    ∃ ws, bwMatches double false "hello world good  bye ".toList 6000 1500 exBGroup = .ok (some ws) ∧
    31 = (ws.map fun w => w.text.length).sum ∧
    ((31:ℕ):ℚ) * ((31:ℕ) + 2) * ((1500:ℤ) + (6000:ℤ)) < 2 ^ 52 * ((6000:ℤ):ℚ) ∧ ws.length = 4 := by
  refine ⟨_, rfl, ?_, ?_, ?_⟩
  · decide +kernel
  · norm_num
  · decide +kernel

/-! ## C68 -/

theorem capitals_small : ∀ p ∈ capitals, p.1.toNat < 128 := by decide +kernel

theorem lookup_mem {α β : Type} [BEq α] [LawfulBEq α] {l : List (α × β)} {a : α} {b : β}
    (h : l.lookup a = some b) : (a, b) ∈ l := by
  induction l with
  | nil => simp at h
  | cons p r ih =>
    obtain ⟨x, y⟩ := p
    rw [List.lookup_cons] at h
    split at h
    · next e =>
      have := eq_of_beq e
      subst this
      injection h with h; subst h; simp
    · exact List.mem_cons_of_mem _ (ih h)

theorem counting_small : ∀ c ∈ counting, c.toNat < 128 := by decide +kernel

theorem normalC_eq (c : Char) :
    (if bwLetter (lowerC c) then some (lowerC c) else none) = normalC c := by
  by_cases h : c.toNat < 128
  · have key : ∀ n, n < 128 → (if bwLetter (lowerC (Char.ofNat n)) then some (lowerC (Char.ofNat n))
        else none) = normalC (Char.ofNat n) := by decide +kernel
    have := key c.toNat h
    rwa [Char.ofNat_toNat] at this
  · have h1 : lowerC c = c := by
      rw [lowerC, if_neg (by omega)]
    have h2 : bwLetter c = false := by
      simp only [bwLetter, isDig, Bool.or_eq_false_iff, Bool.and_eq_false_iff, decide_eq_false_iff_not,
        beq_eq_false_iff_ne]
      refine ⟨⟨Or.inr (by omega), Or.inr (by omega)⟩, ?_⟩
      rintro rfl
      exact h (by decide)
    have h3 : capitals.lookup c = none := by
      cases hl : capitals.lookup c with
      | none => rfl
      | some d => exact absurd (capitals_small _ (lookup_mem hl)) h
    have h4 : counting.contains c = false := by
      cases hl : counting.contains c with
      | false => rfl
      | true => exact absurd (counting_small c (by simpa using hl)) h
    simp only [h1, h2, normalC, h3, h4, Bool.false_eq_true, if_false]

theorem tidy_normal (s : Str) : tidy s = normal s := by
  rw [tidy, lower, normal, List.filter_map]
  induction s with
  | nil => rfl
  | cons c r ih =>
    rw [List.filterMap_cons, ← normalC_eq c, List.filter_cons]
    cases h : bwLetter (lowerC c) with
    | true => simp [h, ih]
    | false => simp [h, ih]

theorem join_intercalate (sep : Str) (l : List Str) : join sep l = sep.intercalate l := by
  induction l with
  | nil => rfl
  | cons s r ih =>
    cases r with
    | nil => simp [join]
    | cons t r => rw [join, ih]; simp [List.intercalate, List.intersperse]

/-- The text of a group: the descriptions of its text layers in normal form, with spaces between. -/
def groupText (g : BGroup) : Str := [' '].intercalate (g.texts.map fun t => normal t.desc)

theorem fullText_eq (g : BGroup) : g.fullText = groupText g := by
  rw [BGroup.fullText, groupText, join_intercalate]
  simp only [tidy_normal]

theorem shown_nil {m : Bool} {desc : Str} : shownTexts m desc = [] ↔ desc = [] := by
  constructor
  · intro h
    by_contra hne
    obtain ⟨c, r, rfl⟩ := List.exists_cons_of_ne_nil hne
    have : pieces m (c :: r) ≠ [] := by
      unfold pieces
      split
      · simp
      · rw [runs_cons]; simp
    obtain ⟨w, ws, e⟩ := List.exists_cons_of_ne_nil this
    rw [shownTexts, e] at h
    cases ws with
    | nil => simp [cuts] at h
    | cons v r => simp [cuts] at h
  · rintro rfl; unfold shownTexts pieces; split <;> rfl

theorem sum_zero {m : Bool} {g : BGroup} :
    ((g.shown m).map fun p => p.1.length).sum = 0 ↔ ∀ t ∈ g.texts, t.desc = [] := by
  rw [List.sum_eq_zero_iff]
  constructor
  · intro h t ht
    by_contra hne
    obtain ⟨s, hs⟩ := List.exists_mem_of_ne_nil _ (mt (shown_nil (m := m)).1 hne)
    have hmem : (s, t.item) ∈ g.shown m :=
      List.mem_flatMap.2 ⟨t, ht, List.mem_map.2 ⟨s, hs, rfl⟩⟩
    have := h _ (List.mem_map_of_mem (f := fun p : Str × (ℕ × ℕ) => p.1.length) hmem)
    exact shown_ne_nil m t.desc s hs (List.length_eq_zero_iff.1 this)
  · intro h n hn
    obtain ⟨p, hp, rfl⟩ := List.mem_map.1 hn
    obtain ⟨t, ht, hp⟩ := List.mem_flatMap.1 hp
    rw [h t ht, shown_nil.2 rfl] at hp
    simp at hp

/-- C68, one line and one group: `group.matches(s, …)` gives `None` exactly when the line isn't the text
of the group. -/
theorem c68_matches_iff (F : Fl) (m : Bool) (s : Str) (dur start : ℤ) (g : BGroup) :
    bwMatches F m s dur start g = .ok none ↔ s ≠ groupText g := by
  simp only [bwMatches, fullText_eq]
  split
  · next h => simp [h]
  · next h =>
    split
    · simp only [reduceCtorEq, false_iff]; exact h
    · simp only [Except.ok.injEq, reduceCtorEq, false_iff]; exact h

/-- C68. It raises `ZeroDivisionError` exactly when the line is the text of the group, and all of the
group's text layers have an empty description (or there are none). -/
theorem c68_matches_crash_iff (F : Fl) (m : Bool) (s : Str) (dur start : ℤ) (g : BGroup) (e : Err) :
    bwMatches F m s dur start g = .error e ↔
      e = .zeroDiv ∧ s = groupText g ∧ ∀ t ∈ g.texts, t.desc = [] := by
  simp only [bwMatches, fullText_eq]
  split
  · next h => simp only [reduceCtorEq, false_iff]; rintro ⟨_, h', _⟩; exact h h'
  · next h =>
    have hs : s = groupText g := by simpa using h
    split
    · next hz =>
      rw [sum_zero] at hz
      simp only [Except.error.injEq]
      exact ⟨fun e' => ⟨e'.symm, hs, hz⟩, fun h => h.1.symm⟩
    · next hz =>
      rw [sum_zero] at hz
      simp only [reduceCtorEq, false_iff]
      rintro ⟨_, _, h'⟩; exact hz h'

theorem bwMatches_not_nil (F : Fl) (m : Bool) (s : Str) (dur start : ℤ) (g : BGroup) :
    bwMatches F m s dur start g ≠ .ok (some []) := by
  intro h
  obtain ⟨w, r, h1, _⟩ := c66_first h
  simp at h1

theorem firstMatch_cons (F : Fl) (m : Bool) (l : SubLine) (g : BGroup) (r : List BGroup) :
    firstMatch F m l (g :: r) =
      if normal l.text = groupText g then bwMatches F m (tidy l.text) l.duration l.start g
      else firstMatch F m l r := by
  rw [firstMatch]
  by_cases h : normal l.text = groupText g
  · rw [if_pos h]
    have h1 := (c68_matches_iff F m (tidy l.text) l.duration l.start g).not.2 (by
      rw [tidy_normal]; simpa using h)
    have h2 := bwMatches_not_nil F m (tidy l.text) l.duration l.start g
    match hb : bwMatches F m (tidy l.text) l.duration l.start g with
    | .error e => rfl
    | .ok none => exact absurd hb h1
    | .ok (some []) => exact absurd hb h2
    | .ok (some (w :: ws)) => rfl
  · rw [if_neg h, (c68_matches_iff F m (tidy l.text) l.duration l.start g).2 (by rwa [tidy_normal])]

/-- The group that a line goes to: the first whose text it is. -/
def GoesTo (groups : List BGroup) (l : SubLine) (g : BGroup) : Prop :=
  ∃ a b, groups = a ++ g :: b ∧ (∀ x ∈ a, normal l.text ≠ groupText x) ∧ normal l.text = groupText g

/-- No group has this line for its text. -/
def Unmatched (groups : List BGroup) (l : SubLine) : Prop := ∀ g ∈ groups, normal l.text ≠ groupText g

instance (groups : List BGroup) (l : SubLine) : Decidable (Unmatched groups l) :=
  inferInstanceAs (Decidable (∀ g ∈ groups, _))

theorem firstMatch_cases (F : Fl) (m : Bool) (groups : List BGroup) (l : SubLine) :
    (Unmatched groups l ∧ firstMatch F m l groups = .ok none) ∨
    (¬ Unmatched groups l ∧ ∃ g, GoesTo groups l g ∧
      firstMatch F m l groups = bwMatches F m (tidy l.text) l.duration l.start g) := by
  induction groups with
  | nil => exact Or.inl ⟨by simp [Unmatched], rfl⟩
  | cons g r ih =>
    rw [firstMatch_cons]
    by_cases h : normal l.text = groupText g
    · rw [if_pos h]
      exact Or.inr ⟨fun hu => hu g (by simp) h, g, ⟨[], r, rfl, by simp, h⟩, rfl⟩
    · rw [if_neg h]
      rcases ih with ⟨hu, h1⟩ | ⟨hu, x, ⟨a, b, rfl, h2, h3⟩, h4⟩
      · refine Or.inl ⟨fun x hx => ?_, h1⟩
        rcases List.mem_cons.1 hx with rfl | hx
        · exact h
        · exact hu x hx
      · refine Or.inr ⟨fun hu' => hu fun x hx => hu' x (by simp [hx]), x, ⟨g :: a, b, rfl, ?_, h3⟩, h4⟩
        intro y hy
        rcases List.mem_cons.1 hy with rfl | hy
        · exact h
        · exact h2 y hy

theorem firstMatch_none_iff (F : Fl) (m : Bool) (groups : List BGroup) (l : SubLine) :
    firstMatch F m l groups = .ok none ↔ Unmatched groups l := by
  rcases firstMatch_cases F m groups l with ⟨hu, h⟩ | ⟨hu, g, ⟨a, b, -, h2, h3⟩, h⟩
  · exact ⟨fun _ => hu, fun _ => h⟩
  · refine ⟨fun e => ?_, fun e => absurd e hu⟩
    rw [h, c68_matches_iff, tidy_normal] at e
    exact absurd h3 e

/-- The words of each line, if none raises. -/
def lineWords (F : Fl) (m : Bool) (groups : List BGroup) (lines : List SubLine) :
    Res (List (Option (List WordTiming))) :=
  mapRes (fun l => firstMatch F m l groups) lines

theorem matchLines_eq (F : Fl) (m : Bool) (groups : List BGroup) (lines : List SubLine)
    (d : List WordTiming) (no : List Str) :
    matchLines F m groups d no lines = match lineWords F m groups lines with
      | .error e => .error e
      | .ok per => .ok ((per.flatMap fun o => o.getD []).foldl (fun d w => putWord w d) d,
          no ++ (lines.filter fun l => Unmatched groups l).map fun l => normal l.text) := by
  induction lines generalizing d no with
  | nil => simp [matchLines, lineWords, mapRes]
  | cons l r ih =>
    rw [matchLines, lineWords, mapRes]
    have hn := firstMatch_none_iff F m groups l
    match hf : firstMatch F m l groups with
    | .error e => rfl
    | .ok (some ws) =>
      have hu : ¬ Unmatched groups l := fun h => by rw [hn.2 h] at hf; simp at hf
      simp only
      rw [ih, lineWords]
      match mapRes (fun l => firstMatch F m l groups) r with
      | .error e => rfl
      | .ok per => simp [hu]
    | .ok none =>
      have hu : Unmatched groups l := hn.1 hf
      simp only
      rw [ih, lineWords]
      match mapRes (fun l => firstMatch F m l groups) r with
      | .error e => rfl
      | .ok per => simp [hu, tidy_normal]

/-- C68, the report: unless a line raises, `no_matches` is the normal forms of exactly those lines which
are no group's text, in order. -/
theorem c68_unmatched_reported_partial {F : Fl} {m : Bool} {groups : List BGroup} {lines : List SubLine}
    {ws : List WordTiming} {no : List Str} (h : bywords F m groups lines = .ok (ws, no)) :
    no = (lines.filter fun l => Unmatched groups l).map fun l => normal l.text := by
  simp only [bywords, matchLines_eq] at h
  split at h
  · simp at h
  · next heq =>
    split at heq
    · simp at heq
    · injection heq with heq
      injection heq with h1 h2
      injection h with h
      injection h with h3 h4
      rw [← h4, ← h2, List.nil_append]

theorem mapRes_error {α β : Type} {f : α → Res β} {xs : List α} {e : Err} (h : mapRes f xs = .error e) :
    ∃ x ∈ xs, f x = .error e := by
  induction xs with
  | nil => simp [mapRes] at h
  | cons x r ih =>
    rw [mapRes] at h
    match hx : f x with
    | .error e' =>
      rw [hx] at h
      injection h with h
      exact ⟨x, by simp, by rw [hx, h]⟩
    | .ok y =>
      rw [hx] at h
      match hr : mapRes f r with
      | .error e' =>
        rw [hr] at h
        injection h with h
        obtain ⟨z, hz, h'⟩ := ih (by rw [hr, h])
        exact ⟨z, by simp [hz], h'⟩
      | .ok ys => rw [hr] at h; simp at h

/-- C68. The whole of `Bywords(…)` raises (always `ZeroDivisionError`) exactly when some line goes to a
group that has nothing to show. -/
theorem c68_crash_iff (F : Fl) (m : Bool) (groups : List BGroup) (lines : List SubLine) (e : Err) :
    bywords F m groups lines = .error e ↔
      e = .zeroDiv ∧ ∃ l ∈ lines, ∃ g, GoesTo groups l g ∧ ∀ t ∈ g.texts, t.desc = [] := by
  have hb : ∀ e, bywords F m groups lines = .error e ↔ lineWords F m groups lines = .error e := by
    intro e
    simp only [bywords, matchLines_eq]
    match lineWords F m groups lines with
    | .error e => simp
    | .ok per => simp
  rw [hb]
  have hcrash : ∀ l e, firstMatch F m l groups = .error e →
      e = .zeroDiv ∧ ∃ g, GoesTo groups l g ∧ ∀ t ∈ g.texts, t.desc = [] := by
    intro l e h
    rcases firstMatch_cases F m groups l with ⟨_, h'⟩ | ⟨_, g, hg, h'⟩
    · rw [h'] at h; simp at h
    · rw [h', c68_matches_crash_iff] at h
      exact ⟨h.1, g, hg, h.2.2⟩
  constructor
  · intro h
    obtain ⟨l, hl, h'⟩ := mapRes_error h
    obtain ⟨h1, h2⟩ := hcrash l e h'
    exact ⟨h1, l, hl, h2⟩
  · rintro ⟨rfl, l, hl, g, ⟨a, b, rfl, h2, h3⟩, h4⟩
    match hw : lineWords F m (a ++ g :: b) lines with
    | .error e =>
      obtain ⟨l', _, h'⟩ := mapRes_error hw
      rw [(hcrash l' e h').1]
    | .ok per =>
      obtain ⟨y, _, hy⟩ := mapRes_image hw hl
      have : ∀ a : List BGroup, (∀ x ∈ a, normal l.text ≠ groupText x) →
          firstMatch F m l (a ++ g :: b) = bwMatches F m (tidy l.text) l.duration l.start g := by
        intro a ha
        induction a with
        | nil => rw [List.nil_append, firstMatch_cons, if_pos h3]
        | cons x r ih =>
          rw [List.cons_append, firstMatch_cons, if_neg (ha x (by simp)),
            ih fun y hy => ha y (by simp [hy])]
      simp only [this a h2] at hy
      rw [(c68_matches_crash_iff F m _ _ _ g .zeroDiv).2 ⟨rfl, by rw [tidy_normal]; exact h3, h4⟩] at hy
      simp at hy

/-- C68 fails: a subtitle without letters and a group without text layers, and nothing is reported
about the other line. -/
theorem c68_report_fails :
    bywords double false [⟨"bywords".toList, []⟩] [⟨0, 1000, "Nobody".toList⟩, ⟨1000, 500, "...".toList⟩] =
      .error .zeroDiv := by decide +kernel

/-- C68 applies: two lines, the second of which no group has. -/
example :
    ∃ ws, bywords double false [exBGroup', exBGroup]
      [⟨1500, 6000, "Hello world; good  bye!? ".toList⟩, ⟨8000, 100, "Nobody".toList⟩] =
        .ok (ws, ["nobody".toList]) ∧ ws.length = 4 := by
  refine ⟨_, rfl, ?_⟩; decide +kernel

/-! ## C69 -/

theorem mem_putWord {w x : WordTiming} {d : List WordTiming} (hd : (d.map WordTiming.time).Nodup) :
    x ∈ putWord w d ↔ x = w ∨ (x ∈ d ∧ x.time ≠ w.time) := by
  induction d with
  | nil => simp [putWord]
  | cons y r ih =>
    rw [List.map_cons, List.nodup_cons] at hd
    rw [putWord]
    split
    · next h =>
      rw [List.mem_cons]
      constructor
      · rintro (rfl | hx)
        · exact Or.inl rfl
        · refine Or.inr ⟨List.mem_cons_of_mem _ hx, fun e => hd.1 ?_⟩
          rw [h, ← e]; exact List.mem_map_of_mem hx
      · rintro (rfl | ⟨hx, hne⟩)
        · exact Or.inl rfl
        · rcases List.mem_cons.1 hx with rfl | hx
          · exact absurd h hne
          · exact Or.inr hx
    · next h =>
      rw [List.mem_cons, ih hd.2, List.mem_cons]
      constructor
      · rintro (rfl | rfl | ⟨hx, hne⟩)
        · exact Or.inr ⟨Or.inl rfl, h⟩
        · exact Or.inl rfl
        · exact Or.inr ⟨Or.inr hx, hne⟩
      · rintro (rfl | ⟨rfl | hx, hne⟩)
        · exact Or.inr (Or.inl rfl)
        · exact Or.inl rfl
        · exact Or.inr (Or.inr ⟨hx, hne⟩)

theorem nodup_putWord {w : WordTiming} {d : List WordTiming} (hd : (d.map WordTiming.time).Nodup) :
    ((putWord w d).map WordTiming.time).Nodup := by
  induction d with
  | nil => simp [putWord]
  | cons y r ih =>
    rw [List.map_cons, List.nodup_cons] at hd
    rw [putWord]
    split
    · next h =>
      rw [List.map_cons, List.nodup_cons]
      exact ⟨h ▸ hd.1, hd.2⟩
    · next h =>
      rw [List.map_cons, List.nodup_cons]
      refine ⟨fun hm => ?_, ih hd.2⟩
      obtain ⟨x, hx, e⟩ := List.mem_map.1 hm
      rcases (mem_putWord hd.2).1 hx with rfl | ⟨hx, _⟩
      · exact h e.symm
      · exact hd.1 (e ▸ List.mem_map_of_mem hx)

/-- What is left of words put into a dict by time, one after the other. -/
theorem foldl_putWord (all : List WordTiming) :
    ((all.foldl (fun d w => putWord w d) []).map WordTiming.time).Nodup ∧
    ∀ w, w ∈ all.foldl (fun d w => putWord w d) [] ↔
      ∃ a b, all = a ++ w :: b ∧ ∀ v ∈ b, v.time ≠ w.time := by
  induction all using List.reverseRecOn with
  | nil => simp
  | append_singleton l x ih =>
    obtain ⟨h1, h2⟩ := ih
    rw [List.foldl_append]
    simp only [List.foldl_cons, List.foldl_nil]
    refine ⟨nodup_putWord h1, fun w => ?_⟩
    rw [mem_putWord h1, h2]
    constructor
    · rintro (rfl | ⟨⟨a, b, rfl, h3⟩, hne⟩)
      · exact ⟨l, [], by simp, by simp⟩
      · refine ⟨a, b ++ [x], by simp, fun v hv => ?_⟩
        rcases List.mem_append.1 hv with hv | hv
        · exact h3 v hv
        · simp only [List.mem_singleton] at hv; subst hv; exact fun e => hne e.symm
    · rintro ⟨a, b, e, h3⟩
      rcases List.eq_nil_or_concat b with rfl | ⟨b', y, rfl⟩
      · rw [← List.concat_eq_append, ← List.concat_eq_append] at e
        exact Or.inl (List.concat_inj.1 e).2.symm
      · have e' : l ++ [x] = (a ++ w :: b') ++ [y] := by rw [e]; simp
        rw [← List.concat_eq_append, ← List.concat_eq_append] at e'
        obtain ⟨rfl, rfl⟩ := List.concat_inj.1 e'
        refine Or.inr ⟨⟨a, b', rfl, fun v hv => h3 v (by simp [hv])⟩, fun e => ?_⟩
        exact h3 x (by simp) e.symm

theorem foldl_putWord_distinct (all : List WordTiming) (h : (all.map WordTiming.time).Nodup) :
    all.foldl (fun d w => putWord w d) [] = all := by
  induction all using List.reverseRecOn with
  | nil => rfl
  | append_singleton l x ih =>
    rw [List.map_append, List.nodup_append'] at h
    rw [List.foldl_append, ih h.1]
    simp only [List.foldl_cons, List.foldl_nil]
    have : ∀ y ∈ l, y.time ≠ x.time := by
      intro y hy e
      exact h.2.2 (List.mem_map_of_mem hy) (by simp [e])
    clear ih h
    induction l with
    | nil => rfl
    | cons y r ih =>
      rw [putWord, if_neg (this y (by simp)), ih fun z hz => this z (by simp [hz])]
      rfl

theorem bywords_words {F : Fl} {m : Bool} {groups : List BGroup} {lines : List SubLine}
    {ws : List WordTiming} {no : List Str} (h : bywords F m groups lines = .ok (ws, no)) :
    ∃ per, lineWords F m groups lines = .ok per ∧
      ws = ((per.flatMap fun o => o.getD []).foldl (fun d w => putWord w d) []).insertionSort
        fun a b => a.time ≤ b.time := by
  simp only [bywords, matchLines_eq] at h
  match hl : lineWords F m groups lines with
  | .error e => rw [hl] at h; simp at h
  | .ok per =>
    rw [hl] at h
    injection h with h
    injection h with h1 h2
    exact ⟨per, rfl, h1.symm⟩

theorem sortWords_perm (l : List WordTiming) :
    (l.insertionSort fun a b => a.time ≤ b.time).Perm l := List.perm_insertionSort _ l

theorem sortWords_sorted (l : List WordTiming) :
    (l.insertionSort fun a b => a.time ≤ b.time).Pairwise fun a b => a.time ≤ b.time := by
  have : Std.Total fun a b : WordTiming => a.time ≤ b.time := ⟨fun a b => le_total _ _⟩
  have : IsTrans WordTiming fun a b : WordTiming => a.time ≤ b.time := ⟨fun a b c h1 h2 => le_trans h1 h2⟩
  exact List.pairwise_insertionSort _ l

/-- C69, exactly: of the words of all lines, in order, those are scheduled which no later word has the
time of; they are in order of time. -/
theorem c69_last_word_wins {F : Fl} {m : Bool} {groups : List BGroup} {lines : List SubLine}
    {ws : List WordTiming} {no : List Str} (h : bywords F m groups lines = .ok (ws, no)) :
    ws.Pairwise (fun a b => a.time < b.time) ∧
    ∃ per, lineWords F m groups lines = .ok per ∧
      ∀ w, w ∈ ws ↔ ∃ a b, (per.flatMap fun o => o.getD []) = a ++ w :: b ∧ ∀ v ∈ b, v.time ≠ w.time := by
  obtain ⟨per, h1, h2⟩ := bywords_words h
  obtain ⟨f1, f2⟩ := foldl_putWord (per.flatMap fun o => o.getD [])
  have hp := sortWords_perm ((per.flatMap fun o => o.getD []).foldl (fun d w => putWord w d) [])
  rw [← h2] at hp
  refine ⟨?_, per, h1, fun w => ?_⟩
  · have hs := sortWords_sorted ((per.flatMap fun o => o.getD []).foldl (fun d w => putWord w d) [])
    rw [← h2] at hs
    have hn : (ws.map WordTiming.time).Nodup := (hp.map WordTiming.time).nodup_iff.2 f1
    rw [List.Nodup, List.pairwise_map] at hn
    exact (hs.and hn).imp fun ⟨a, b⟩ => lt_of_le_of_ne a b
  · rw [hp.mem_iff]; exact f2 w

/-- C69, when no two words get the same time: every word of every matched line is scheduled, once. -/
theorem c69_all_scheduled_partial {F : Fl} {m : Bool} {groups : List BGroup} {lines : List SubLine}
    {ws : List WordTiming} {no : List Str} (h : bywords F m groups lines = .ok (ws, no))
    {per : List (Option (List WordTiming))} (hper : lineWords F m groups lines = .ok per)
    (hd : ((per.flatMap fun o => o.getD []).map WordTiming.time).Nodup) :
    ws.Perm (per.flatMap fun o => o.getD []) := by
  obtain ⟨per', h1, h2⟩ := bywords_words h
  rw [hper] at h1
  injection h1 with h1
  subst h1
  have hp := sortWords_perm ((per.flatMap fun o => o.getD []).foldl (fun d w => putWord w d) [])
  rw [← h2, foldl_putWord_distinct _ hd] at hp
  exact hp

/-- C69 fails for a subtitle of no duration: only the last of its texts is scheduled. -/
theorem c69_same_time_fails :
    bywords double false [exBGroup'] [⟨1000, 0, "aa aa aa".toList⟩] =
      .ok ([⟨"aa aa aa".toList, (1, 0), 1⟩], []) := by decide +kernel

/-- C69 fails for two subtitles at once, even on different layers. -/
theorem c69_two_speakers_fails :
    bywords double false [⟨"bywords a".toList, [⟨(0, 0), "no".toList⟩]⟩,
        ⟨"bywords b".toList, [⟨(1, 0), "yes".toList⟩]⟩]
      [⟨1000, 500, "No".toList⟩, ⟨1000, 500, "Yes!".toList⟩] =
      .ok ([⟨"yes".toList, (1, 0), 1⟩], []) := by decide +kernel

/-- C69 applies: two lines one after the other. -/
example :
    ∃ per ws, lineWords double false [exBGroup', exBGroup]
      [⟨1500, 6000, "Hello world; good  bye ".toList⟩, ⟨8000, 100, "AA aa aa".toList⟩] = .ok per ∧
    bywords double false [exBGroup', exBGroup]
      [⟨1500, 6000, "Hello world; good  bye ".toList⟩, ⟨8000, 100, "AA aa aa".toList⟩] = .ok (ws, []) ∧
    ((per.flatMap fun o => o.getD []).map WordTiming.time).Nodup ∧
    (per.flatMap fun o => o.getD []).length = 7 := by
  refine ⟨_, _, rfl, rfl, ?_, ?_⟩ <;> decide +kernel

/-! ## C92 -/

theorem normal_append (a b : Str) : normal (a ++ b) = normal a ++ normal b := List.filterMap_append

theorem line_break_vanishes (a b : Str) : normal (a ++ '\n' :: b) = normal a ++ normal b := by
  rw [normal_append]
  refine congrArg _ ?_
  rw [normal, List.filterMap_cons]
  have : normalC '\n' = none := by decide +kernel
  rw [this]; rfl

/-- C92 fails, for every line of two parts: a subtitle with a line break between them never matches a
group with a space between them, although they look alike. Whatever else the animation has for it, nothing is timed
by that group; and if it has no other, the subtitle is among those that weren't matched, with its words run together. -/
theorem c92_line_break_never_matches (F : Fl) (m : Bool) (a b : Str) (dur start : ℤ) (g : BGroup)
    (hg : groupText g = normal a ++ ' ' :: normal b) :
    bywords F m [g] [⟨start, dur, a ++ '\n' :: b⟩] = .ok ([], [normal a ++ normal b]) ∧
    ∀ gs gs', bywords F m (gs ++ g :: gs') [⟨start, dur, a ++ '\n' :: b⟩] =
      bywords F m (gs ++ gs') [⟨start, dur, a ++ '\n' :: b⟩] := by
  have hb : bwMatches F m (tidy (a ++ '\n' :: b)) dur start g = .ok none := by
    rw [c68_matches_iff, tidy_normal, hg, line_break_vanishes]
    intro h
    have := congrArg List.length h
    rw [List.length_append, List.length_append, List.length_cons] at this
    omega
  have hfm : ∀ gs gs', firstMatch F m ⟨start, dur, a ++ '\n' :: b⟩ (gs ++ g :: gs') =
      firstMatch F m ⟨start, dur, a ++ '\n' :: b⟩ (gs ++ gs') := by
    intro gs gs'
    induction gs with
    | nil => simp only [List.nil_append, firstMatch, hb]
    | cons x gs ih => simp only [List.cons_append, firstMatch, ih]
  refine ⟨?_, fun gs gs' => ?_⟩
  · simp only [bywords, matchLines, firstMatch, hb]
    rw [tidy_normal, line_break_vanishes]
    rfl
  · simp only [bywords, matchLines, hfm]

/-- C92, what holds: without line breaks, a subtitle matches the group whose description is the same up
to capitals and punctuation, and that group's words are timed by it. -/
theorem c92_one_line_partial {F : Fl} {m : Bool} {s : Str} {dur start : ℤ} {item : ℕ × ℕ} {d desc : Str}
    (he : normal s = normal desc) (hd : desc ≠ []) :
    ∃ ws, ws ≠ [] ∧ bywords F m [⟨d, [⟨item, desc⟩]⟩] [⟨start, dur, s⟩] = .ok (ws, []) := by
  have hg : groupText ⟨d, [⟨item, desc⟩]⟩ = normal desc := by simp [groupText, List.intercalate]
  match hb : bwMatches F m (tidy s) dur start ⟨d, [⟨item, desc⟩]⟩ with
  | .error e =>
    rw [c68_matches_crash_iff] at hb
    exact absurd (hb.2.2 ⟨item, desc⟩ (by simp)) hd
  | .ok none =>
    rw [c68_matches_iff, hg, tidy_normal] at hb
    exact absurd he hb
  | .ok (some ws) =>
    have hws : ws ≠ [] := by
      intro e
      subst e
      obtain ⟨_, h2, h3⟩ := bwMatches_some hb
      have : BGroup.shown m ⟨d, [⟨item, desc⟩]⟩ = [] := by rw [← bwMatches_texts hb]; rfl
      rw [this] at h2
      exact h2 rfl
    have put : ∀ (w : WordTiming) (l : List WordTiming), putWord w l ≠ [] := by
      intro w l
      cases l with
      | nil => simp [putWord]
      | cons x r => rw [putWord]; split <;> simp
    have fold : ∀ (ws l : List WordTiming), (ws ≠ [] ∨ l ≠ []) → ws.foldl (fun d w => putWord w d) l ≠ [] := by
      intro ws
      induction ws with
      | nil => intro l h; simpa using h
      | cons w ws ih => intro l _; exact ih _ (.inr (put _ _))
    refine ⟨(ws.foldl (fun d w => putWord w d) []).insertionSort fun a b => a.time ≤ b.time, fun e => ?_, ?_⟩
    · have := congrArg List.length e
      rw [List.length_insertionSort] at this
      exact fold ws [] (.inl hws) (List.length_eq_zero_iff.1 this)
    · cases ws with
      | nil => exact absurd rfl hws
      | cons w ws => simp only [bywords, matchLines, firstMatch, hb]

/-- C92 applies. -/
example : groupText ⟨[], [⟨(0, 0), "Hello, world".toList⟩]⟩ = normal "HELLO".toList ++ ' ' :: normal "world".toList := by
  decide +kernel

end Sang
