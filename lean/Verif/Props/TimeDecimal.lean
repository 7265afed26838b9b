import Verif.Props.Time
import Verif.Lemmas.Bywords

/-!
# Time specifications in decimal numbers, at any frame rate (C07–C09)

`c07_whole_spec_value` is exact, for whole numbers. Here the amounts are any decimal numbers and
the frame rate any positive number. The result is then right up to rounding, provided the
hours, minutes and seconds all go the same way. If they don't, rounding can make zero seconds
into something else, and then the frames are counted in the wrong direction.
-/

namespace Sang
open Spec

/-- None of the hours, minutes and seconds is negative, or none is positive. -/
def OneWay (ps : List Part) : Prop :=
  (0 ≤ amount ps .h ∧ 0 ≤ amount ps .m ∧ 0 ≤ amount ps .s) ∨
  (amount ps .h ≤ 0 ∧ amount ps .m ≤ 0 ∧ amount ps .s ≤ 0)

/-- `y` is `x` up to `a` roundings, in the direction `e`. -/
def RoundedAt (e : ℚ) (a : ℕ) (x y : ℚ) : Prop := 0 ≤ e * x ∧ Rounded a (e * x) (e * y)

theorem rnd_sign {F : Fl} (hF : F.Lawful) {e : ℚ} (he : e = 1 ∨ e = -1) (y : ℚ) :
    e * F.rnd y = F.rnd (e * y) := by
  rcases he with rfl | rfl
  · simp
  · simp [hF.neg]

theorem RoundedAt.rnd {F : Fl} (hF : F.Lawful) {e : ℚ} (he : e = 1 ∨ e = -1) {a : ℕ} {x y : ℚ}
    (h : RoundedAt e a x y) : RoundedAt e (a + 1) x (F.rnd y) :=
  ⟨h.1, by rw [rnd_sign hF he]; exact h.2.succ hF h.1⟩

theorem RoundedAt.scale {e : ℚ} {a : ℕ} {x y c : ℚ} (hc : 0 ≤ c)
    (h : RoundedAt e a x y) : RoundedAt e a (x * c) (y * c) := by
  refine ⟨by rw [← mul_assoc]; exact mul_nonneg h.1 hc, ?_⟩
  rw [show e * (x * c) = c * (e * x) by ring, show e * (y * c) = c * (e * y) by ring]
  exact h.2.scale hc

theorem RoundedAt.add {e : ℚ} {a : ℕ} {x y x' y' : ℚ} (h : RoundedAt e a x y)
    (h' : RoundedAt e a x' y') : RoundedAt e a (x + x') (y + y') :=
  ⟨by rw [mul_add]; exact add_nonneg h.1 h'.1, by rw [mul_add, mul_add]; exact h.2.add h'.2⟩

theorem RoundedAt.mono {e : ℚ} {a b : ℕ} (hab : a ≤ b) {x y : ℚ} (h : RoundedAt e a x y) :
    RoundedAt e b x y := ⟨h.1, h.2.mono hab h.1⟩

theorem RoundedAt.zero {e : ℚ} {a : ℕ} : RoundedAt e a 0 0 := by simp [RoundedAt, Rounded]

theorem Rounded.pos {a : ℕ} {x y : ℚ} (hx : 0 < x) (h : Rounded a x y) : 0 < y :=
  lt_of_lt_of_le (mul_pos (pow_pos (by norm_num) _) hx) h.1

/-- Rounding keeps the sign. -/
theorem RoundedAt.sign {e : ℚ} (he : e = 1 ∨ e = -1) {a : ℕ} {x y : ℚ} (h : RoundedAt e a x y) :
    (y = 0 ↔ x = 0) ∧ (y < 0 ↔ x < 0) := by
  obtain ⟨h0, h⟩ := h
  rcases he with rfl | rfl
  · rw [one_mul] at h0
    rw [one_mul, one_mul] at h
    rcases h0.lt_or_eq with hx | hx
    · have := h.pos hx
      exact ⟨⟨fun e => by linarith, fun e => by linarith⟩, fun e => by linarith, fun e => by linarith⟩
    · rw [← hx] at h ⊢
      have : y = 0 := by have h1 := h.1; have h2 := h.2; simp at h1 h2; linarith
      simp [this]
  · rcases h0.lt_or_eq with hx | hx
    · have := h.pos hx
      exact ⟨⟨fun e => by linarith, fun e => by linarith⟩, fun e => by linarith, fun e => by linarith⟩
    · rw [← hx] at h
      have hx' : x = 0 := by linarith
      have : y = 0 := by have h1 := h.1; have h2 := h.2; simp at h1 h2; linarith
      simp [this, hx']

theorem RoundedAt.near {e : ℚ} (he : e = 1 ∨ e = -1) {a : ℕ} (ha : a ≤ 2 ^ 52) {x y : ℚ}
    (h : RoundedAt e a x y) : |y - x| ≤ a / 2 ^ 52 * |x| := by
  have h1 := h.2.near ha h.1
  have h0 := h.1
  rcases he with rfl | rfl
  · rw [one_mul] at h0
    rw [one_mul, one_mul] at h1
    rwa [abs_of_nonneg h0]
  · have e2 : |x| = -1 * x := by rw [abs_of_nonpos (by linarith)]; ring
    rw [e2]
    have e3 : -1 * y - -1 * x = -(y - x) := by ring
    rwa [e3, abs_neg] at h1

/-- What the dictionary has for a unit. -/
theorem lookup_cases (F : Fl) (ps : List Part) (u : TimeUnit) :
    ((partsOf F ps).lookup u.char = none ∧ amount ps u = 0) ∨
    (partsOf F ps).lookup u.char = some (F.rnd (amount ps u)) := by
  rw [lookup_partsOf]
  unfold amount
  cases ps.find? (fun p => p.unit == u) with
  | none => exact .inl ⟨rfl, rfl⟩
  | some p => exact .inr rfl

theorem addSeconds_rounded {F : Fl} (hF : F.Lawful) {e : ℚ} (he : e = 1 ∨ e = -1) {ps : List Part}
    {sec : Option ℚ} {u : TimeUnit} {x c : ℚ} (hc : 0 ≤ c) {a : ℕ} (ha : 2 ≤ a)
    (hx : RoundedAt e a x (sec.getD 0)) (hu : 0 ≤ e * amount ps u) :
    RoundedAt e (a + 1) (x + amount ps u * c)
      ((addSeconds F (partsOf F ps) sec u.char c).getD 0) := by
  unfold addSeconds
  rcases lookup_cases F ps u with ⟨h, h0⟩ | h
  · rw [h, h0]
    simpa using hx.mono (Nat.le_succ a)
  · rw [h]
    simp only [Option.getD_some]
    refine RoundedAt.rnd hF he (hx.add ?_)
    have h1 : RoundedAt e 0 (amount ps u) (amount ps u) := ⟨hu, Rounded.refl⟩
    exact (((h1.rnd hF he).scale hc).rnd hF he).mono ha

theorem secondsOf_rounded {F : Fl} (hF : F.Lawful) {e : ℚ} (he : e = 1 ∨ e = -1) {ps : List Part}
    (hh : 0 ≤ e * amount ps .h) (hm : 0 ≤ e * amount ps .m) (hs : 0 ≤ e * amount ps .s) :
    RoundedAt e 5 (seconds ps) ((secondsOf F (partsOf F ps)).getD 0) := by
  have h1 := addSeconds_rounded hF he (sec := none) (x := 0) (u := .h) (c := 3600) (by norm_num)
    (le_refl 2) RoundedAt.zero hh
  have h2 := addSeconds_rounded hF he (u := .m) (c := 60) (by norm_num) (by norm_num) h1 hm
  have h3 := addSeconds_rounded hF he (u := .s) (c := 1) (by norm_num) (by norm_num) h2 hs
  have : seconds ps = 0 + amount ps .h * 3600 + amount ps .m * 60 + amount ps .s * 1 := by
    unfold seconds; ring
  rw [this]
  exact h3

theorem oneWay_sign {ps : List Part} (h : OneWay ps) :
    ∃ e : ℚ, (e = 1 ∨ e = -1) ∧ 0 ≤ e * amount ps .h ∧ 0 ≤ e * amount ps .m ∧
      0 ≤ e * amount ps .s := by
  rcases h with ⟨a, b, c⟩ | ⟨a, b, c⟩
  · exact ⟨1, .inl rfl, by linarith, by linarith, by linarith⟩
  · exact ⟨-1, .inr rfl, by linarith, by linarith, by linarith⟩

/-- The code sees zero seconds, and negative seconds, just when they are. -/
theorem secondsOf_sign {F : Fl} (hF : F.Lawful) {ps : List Part} (hw : OneWay ps) :
    ((secondsOf F (partsOf F ps)).getD 0 = 0 ↔ seconds ps = 0) ∧
    ((secondsOf F (partsOf F ps)).getD 0 < 0 ↔ seconds ps < 0) := by
  obtain ⟨e, he, a, b, c⟩ := oneWay_sign hw
  exact (secondsOf_rounded hF he a b c).sign he

theorem rnd_neg_iff {F : Fl} (hF : F.Lawful) (q : ℚ) : F.rnd q < 0 ↔ q < 0 := by
  constructor
  · intro h
    by_contra hq
    have := hF.nonneg (not_lt.1 hq)
    linarith
  · intro h
    have := hF.pos (q := -q) (by linarith)
    rw [hF.neg] at this
    linarith

theorem framesOf_decimal {F : Fl} (hF : F.Lawful) {ps : List Part} (hw : OneWay ps) {r : ℚ}
    (hr : 0 < r) :
    if seconds ps ≠ 0 ∧ amount ps .f < 0 then
      framesOf F (some r) (partsOf F ps) = .error .value
    else ∃ x, framesOf F (some r) (partsOf F ps) = .ok x ∧
      |x - frames r ps| ≤ |frames r ps| / 2 ^ 49 := by
  obtain ⟨e, he, hh, hm, hs⟩ := oneWay_sign hw
  have hR := secondsOf_rounded hF he hh hm hs
  obtain ⟨z, ng⟩ := hR.sign he
  have hf := lookup_cases F ps .f
  simp only [TimeUnit.char] at hf
  generalize hsec : (secondsOf F (partsOf F ps)).getD 0 = s0 at *
  simp only [framesOf, hsec]
  by_cases h0 : seconds ps = 0
  · have hs0 : s0 = 0 := z.2 h0
    rw [if_neg (by simp [h0])]
    have hfr : frames r ps = amount ps .f := by simp [frames, h0]
    rw [hfr]
    have herr := hF.err (amount ps .f)
    have hle : |amount ps .f| / 2 ^ 53 ≤ |amount ps .f| / 2 ^ 49 :=
      div_le_div_of_nonneg_left (abs_nonneg _) (by norm_num) (by norm_num)
    rcases hf with ⟨hl, hz⟩ | hl
    · exact ⟨0, by simp [hl, hs0], by simp [hz]⟩
    · refine ⟨F.rnd (amount ps .f), by simp [hl, hs0, hF.idem], le_trans herr hle⟩
  · have hs0 : s0 ≠ 0 := fun h => h0 (z.1 h)
    have hbase : RoundedAt e 7 (seconds ps * r) (F.rnd (0 + F.rnd (s0 * r))) := by
      rw [zero_add]
      exact ((hR.scale hr.le).rnd hF he).rnd hF he
    by_cases hneg : amount ps .f < 0
    · rw [if_pos ⟨h0, hneg⟩]
      rcases hf with ⟨_, hz⟩ | hl
      · rw [hz] at hneg; exact absurd hneg (lt_irrefl _)
      · have : F.rnd (amount ps .f) < 0 := (rnd_neg_iff hF _).2 hneg
        simp [hl, hs0, this]
    · rw [if_neg (by simp [hneg])]
      push Not at hneg
      -- the frames, in the direction of the seconds
      have hdir : RoundedAt e 1 (if seconds ps < 0 then -amount ps .f else amount ps .f)
          (if s0 < 0 then -F.rnd (amount ps .f) else F.rnd (amount ps .f)) := by
        have hpos : Rounded 1 (amount ps .f) (F.rnd (amount ps .f)) := Rounded.refl.succ hF hneg
        have h1 := hR.1
        by_cases hlt : seconds ps < 0
        · rw [if_pos hlt, if_pos (ng.2 hlt)]
          rcases he with rfl | rfl
          · exfalso; linarith
          · exact ⟨by linarith, by simpa using hpos⟩
        · rw [if_neg hlt, if_neg (fun h => hlt (ng.1 h))]
          rcases he with rfl | rfl
          · exact ⟨by linarith, by simpa using hpos⟩
          · exfalso; exact h0 (by push Not at hlt; linarith)
      have htot : RoundedAt e 8 (frames r ps) (F.rnd (F.rnd (0 + F.rnd (s0 * r)) +
          (if s0 < 0 then -F.rnd (amount ps .f) else F.rnd (amount ps .f)))) :=
        (hbase.add (hdir.mono (by norm_num))).rnd hF he
      have hnear := fun {y : ℚ} (h : RoundedAt e 8 (frames r ps) y) => h.near he (by norm_num)
      have hconst : ∀ q : ℚ, ((8:ℕ):ℚ) / 2 ^ 52 * q = q / 2 ^ 49 := by intro q; norm_num; ring
      rcases hf with ⟨hl, hz⟩ | hl
      · refine ⟨F.rnd (0 + F.rnd (s0 * r)), by simp [hl, hs0], ?_⟩
        rw [← hconst]
        apply hnear
        have : frames r ps = seconds ps * r := by simp [frames, hz]
        rw [this]
        exact hbase.mono (by norm_num)
      · have hnn : ¬ F.rnd (amount ps .f) < 0 := fun h => absurd ((rnd_neg_iff hF _).1 h) (not_lt.2 hneg)
        by_cases hlt : s0 < 0
        · refine ⟨F.rnd (F.rnd (0 + F.rnd (s0 * r)) - F.rnd (amount ps .f)), by simp [hl, hs0, hnn, hlt], ?_⟩
          rw [if_pos hlt, ← sub_eq_add_neg] at htot
          rw [← hconst]
          exact hnear htot
        · refine ⟨F.rnd (F.rnd (0 + F.rnd (s0 * r)) + F.rnd (amount ps .f)), by simp [hl, hs0, hnn, hlt], ?_⟩
          rw [if_neg hlt] at htot
          rw [← hconst]
          exact hnear htot

/-- C07, for decimal amounts and any frame rate: a specification whose hours, minutes and seconds
go one way (and which has no negative frames beside seconds) denotes the number of frames it
should, to within one part in 2^49. Missing: hours, minutes and seconds of different signs, for
which it is false (`c07_mixed_signs_go_wrong`). -/
theorem c07_decimal_spec_value_partial {F : Fl} (hF : F.Lawful) (root : Attrs) (r : ℚ) (hr : 0 < r)
    (hroot : HasFps F root r) (ps : List Part) (tr : Str) (hp : ∀ p ∈ ps, p.Valid)
    (ht : ∀ c ∈ tr, isSpace c = true) (hd : Distinct ps) (hw : OneWay ps)
    (hf : seconds ps = 0 ∨ 0 ≤ amount ps .f) :
    ∃ x, T.new F (some root) (.str (specText ps tr)) = .ok ⟨x, some r⟩ ∧
      |x - frames r ps| ≤ |frames r ps| / 2 ^ 49 := by
  have h := framesOf_decimal hF hw hr
  rw [if_neg (by rintro ⟨a, b⟩; rcases hf with hf | hf; exact a hf; linarith)] at h
  obtain ⟨x, hx, hn⟩ := h
  refine ⟨x, ?_, hn⟩
  rw [new_str hroot hr, parseSpec_text F _ hp hd ht, hx]

/-- C08, for decimal amounts: without a ref, a specification whose hours, minutes and seconds go
one way is refused exactly when its seconds are not zero. -/
theorem c08_decimal_seconds_need_ref_partial {F : Fl} (hF : F.Lawful) (ps : List Part) (tr : Str)
    (hp : ∀ p ∈ ps, p.Valid) (ht : ∀ c ∈ tr, isSpace c = true) (hd : Distinct ps)
    (hw : OneWay ps) :
    T.new F none (.str (specText ps tr)) =
      if seconds ps ≠ 0 then .error .value else .ok ⟨F.rnd (amount ps .f), none⟩ := by
  obtain ⟨z, -⟩ := secondsOf_sign hF hw
  have hf := lookup_cases F ps .f
  simp only [TimeUnit.char] at hf
  simp only [T.new, readFps]
  rw [parseSpec_text F _ hp hd ht]
  simp only [framesOf]
  by_cases h : seconds ps = 0
  · have h0 := z.2 h
    rcases hf with ⟨hl, hz⟩ | hl
    · simp [h, h0, hl, hz, hF.zero]
    · simp [h, h0, hl, hF.idem]
  · have h0 : ¬ (secondsOf F (partsOf F ps)).getD 0 = 0 := fun e => h (z.1 e)
    simp [h, h0]

/-- C09, for decimal amounts and any frame rate: seconds one way with negative frames are
refused. -/
theorem c09_decimal_negative_frames_refused_partial {F : Fl} (hF : F.Lawful) (root : Attrs) (r : ℚ)
    (hr : 0 < r) (hroot : HasFps F root r) (ps : List Part) (tr : Str) (hp : ∀ p ∈ ps, p.Valid)
    (ht : ∀ c ∈ tr, isSpace c = true) (hd : Distinct ps) (hw : OneWay ps) (hsec : seconds ps ≠ 0)
    (hneg : amount ps .f < 0) :
    T.new F (some root) (.str (specText ps tr)) = .error .value := by
  have h := framesOf_decimal hF hw hr
  rw [if_pos ⟨hsec, hneg⟩] at h
  rw [new_str hroot hr, parseSpec_text F _ hp hd ht, h]

/-- The parts of `0.03m -1.8s 1f`. -/
def crossed : List Part :=
  [⟨[], ⟨false, "0".toList, "03".toList⟩, .m⟩, ⟨[' '], ⟨true, "1".toList, "8".toList⟩, .s⟩,
    ⟨[' '], ⟨false, "1".toList, []⟩, .f⟩]

/-- C07 and C08 are false of `0.03m -1.8s 1f`, which is no seconds and one frame: at 24 frames a
second the code makes it less than -1 frame, and without a ref it refuses it. -/
theorem c07_mixed_signs_go_wrong :
    specText crossed [] = "0.03m -1.8s 1f".toList ∧ seconds crossed = 0 ∧ frames 24 crossed = 1 ∧
    (∃ x, T.new double (some exRoot) (.str "0.03m -1.8s 1f".toList) = .ok ⟨x, some 24⟩ ∧ x < -1) ∧
    T.new double none (.str "0.03m -1.8s 1f".toList) = .error .value := by
  refine ⟨by decide +kernel, by decide +kernel, by decide +kernel, ?_, by decide +kernel⟩
  have h : (match T.new double (some exRoot) (.str "0.03m -1.8s 1f".toList) with
    | .ok t => decide (t.frames < -1) && decide (t.fps = some 24)
    | .error _ => false) = true := by decide +kernel
  split at h
  · rename_i t ht
    obtain ⟨a, b⟩ := by simpa using h
    obtain ⟨x, y⟩ := t
    cases b
    exact ⟨x, ht, a⟩
  · cases h

/-- C09 is false of `0.1m -5.99999999999999999s -1f`, which has seconds, although very few: it is
read as -1 frame. -/
theorem c09_mixed_signs_accepted :
    T.new double (some exRoot) (.str "0.1m -5.99999999999999999s -1f".toList) =
      .ok ⟨-1, some 24⟩ := by decide +kernel

/-- The parts of `1.5m 0.1s 2.5f`. -/
def fractional : List Part :=
  [⟨[], ⟨false, "1".toList, "5".toList⟩, .m⟩, ⟨[' '], ⟨false, "0".toList, "1".toList⟩, .s⟩,
    ⟨[' '], ⟨false, "2".toList, "5".toList⟩, .f⟩]

/-- The hypotheses of C07 are met by `1.5m 0.1s 2.5f` at 24 frames a second: about 2164.9
frames. -/
example : ∃ x, T.new double (some exRoot) (.str "1.5m 0.1s 2.5f".toList) = .ok ⟨x, some 24⟩ ∧
    |x - 2164.9| ≤ 2164.9 / 2 ^ 49 := by
  have h := c07_decimal_spec_value_partial double_lawful exRoot 24 (by norm_num)
    ⟨_, rfl, by decide +kernel⟩ fractional [] ?_ (by simp) (by unfold Distinct; decide) ?_ ?_
  · have e : frames 24 fractional = 2164.9 := by decide +kernel
    rw [e, abs_of_pos (by norm_num : (0:ℚ) < 2164.9)] at h
    exact h
  · intro p hp
    simp only [fractional, List.mem_cons, List.not_mem_nil, or_false] at hp
    rcases hp with rfl | rfl | rfl <;> exact ⟨by decide, by decide, by decide, by decide⟩
  · exact .inl ⟨by decide +kernel, by decide +kernel, by decide +kernel⟩
  · exact .inr (by decide +kernel)

end Sang
