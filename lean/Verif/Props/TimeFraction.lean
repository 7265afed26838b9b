import Verif.Lemmas.TFracSmall

/-!
# Times between frames (C150)

The text of a time gives its whole seconds, and the frames past the last of them with six digits.
-/

namespace Sang
open Spec

/-- How many frames past a whole second `q` frames are, at `k` frames per second. -/
def pastSecond (q : ℚ) (k : ℕ) : ℚ := q - k * ⌊q / k⌋

theorem pastSecond_bounds {q : ℚ} (k : ℕ) (hk : 1 ≤ k) : 0 ≤ pastSecond q k ∧ pastSecond q k < k := by
  have hk' : (0:ℚ) < k := by exact_mod_cast hk
  have h1 := Int.floor_le (q / k)
  have h2 := Int.lt_floor_add_one (q / k)
  rw [le_div_iff₀ hk'] at h1
  rw [div_lt_iff₀ hk'] at h2
  unfold pastSecond
  constructor <;> nlinarith

/-- The text of a time at a second: nothing is said about frames. -/
theorem str_at_second {F : Fl} {q : ℚ} (h0 : 0 ≤ q) {n k : ℕ} (h : F.rnd (q / k) = n) (hn : n ≠ 0) :
    T.str F ⟨q, some (k:ℚ)⟩ = specText (mkParts false (hmsParts n)) [] := by
  have hl := str_loop n 0 (le_refl _) (by norm_num)
  rw [add_zero] at hl
  have hne : hmsParts n ≠ [] := fun hc => hn (hmsParts_nil.1 hc)
  rw [specText_mkParts _ _ hne]
  simp only [T.str, h, abs_of_nonneg (Nat.cast_nonneg (α := ℚ) n), hl, if_neg (not_lt.2 h0)]
  rw [if_neg (by simp [hne])]
  rfl

/-- The text of a time between two seconds: the seconds, and the frames past them. -/
theorem str_past_second {F : Fl} {q : ℚ} (h0 : 0 ≤ q) {n k : ℕ} {ε : ℚ} (h : F.rnd (q / k) = n + ε) (hε : 0 ≤ ε)
    (hε1 : ε < 1) (hne : ε ≠ 0) :
    T.str F ⟨q, some (k:ℚ)⟩ = join [' '] ((hmsParts n).map ptxt ++ [fmtG (pastSecond q k) ++ ['f']]) := by
  have hl := str_loop n ε hε hε1
  have hnn : (0:ℚ) ≤ (n:ℚ) + ε := by positivity
  simp only [T.str, h, abs_of_nonneg hnn, abs_of_nonneg h0, hl, if_neg (not_lt.2 h0)]
  rw [if_pos (Or.inl hne)]
  rfl

theorem str_zero {F : Fl} (hF : F.Lawful) (k : ℕ) : T.str F ⟨0, some (k:ℚ)⟩ = ['0', 'f'] := by
  have hl := str_loop 0 0 (le_refl _) (by norm_num)
  rw [Nat.cast_zero, add_zero] at hl
  simp only [T.str, zero_div, hF.zero, abs_zero, hl]
  simp [hmsParts, optPart, fmod, fmtG, join]

/-- What is read from the text of a time between frames, if the frames past the second are written without an
exponent. -/
theorem read_fraction' {F : Fl} (hF : F.Lawful) {root : Attrs} {q : ℚ} {k : ℕ} (h0 : 0 ≤ q) (hq : q < 2 ^ 53)
    (hk : 1 ≤ k) (hk6 : k < 10 ^ 6) (hroot : HasFps F root k)
    (hr : (∃ m : ℕ, F.rnd (q / k) = m) ∨ tiny ≤ pastSecond q k) :
    ∃ n : ℕ, (F.rnd (q / k) = n ∧ |(n:ℚ) * k - q| ≤ q / 2 ^ 53 ∧
        T.new F (some root) (.str (T.str F ⟨q, some (k:ℚ)⟩)) = .ok ⟨(n:ℚ) * k, some (k:ℚ)⟩) ∨
      ((∀ m : ℕ, F.rnd (q / k) ≠ m) ∧ (n:ℚ) * k + pastSecond q k = q ∧ tiny ≤ pastSecond q k ∧
        T.new F (some root) (.str (T.str F ⟨q, some (k:ℚ)⟩)) =
          .ok ⟨F.rnd ((n:ℚ) * k + F.rnd (six (pastSecond q k))), some (k:ℚ)⟩) := by
  have hk' : (0:ℚ) < k := by exact_mod_cast hk
  obtain ⟨n, ε, he, e0, e1, herr, hfl⟩ := rnd_seconds hF h0 hq hk
  refine ⟨n, ?_⟩
  by_cases hε : ε = 0
  · left
    subst hε
    rw [add_zero] at he herr
    have herr' : |(n:ℚ) * k - q| ≤ q / 2 ^ 53 := by
      have e : (n:ℚ) * k - q = ((n:ℚ) - q / k) * k := by field_simp
      rw [e, abs_mul, abs_of_pos hk']
      calc _ ≤ q / k / 2 ^ 53 * k := by gcongr
        _ = q / 2 ^ 53 := by field_simp
    refine ⟨he, herr', ?_⟩
    have hnk : n * k ≤ 2 ^ 53 := by
      have h1 := (abs_le.1 herr').2
      have h2 : q / 2 ^ 53 < 1 := by rw [div_lt_one (by positivity)]; exact hq
      have h3 : ((n * k : ℕ):ℚ) < ((2 ^ 53 + 1 : ℕ):ℚ) := by push_cast; linarith
      have := Nat.cast_lt.1 h3
      omega
    by_cases hn : n = 0
    · subst hn
      have hq0 : q = 0 := by
        have h1 := (abs_le.1 herr').1
        rw [Nat.cast_zero, zero_mul, zero_sub] at h1
        have : q ≤ q / 2 ^ 53 := by linarith
        rw [le_div_iff₀ (by positivity)] at this
        nlinarith
      subst hq0
      rw [str_zero hF, new_str hroot hk']
      have hz : (⟨false, ['0'], []⟩ : Amount).value = 0 := by simp [Amount.value, natVal, digV]
      have e : (['0', 'f'] : Str) = specText (secParts 0 ⟨false, ['0'], []⟩) [] := rfl
      rw [e, parseSpec_text F _ (secParts_valid 0 ⟨by simp, by decide, by simp⟩) (secParts_distinct 0 _) (by simp),
        secParts_frames hF hk hnk (by rw [hz]), hz, hF.zero]
      simp [hF.zero]
    · rw [str_at_second h0 he hn, new_str hroot hk', parseSpec_text F _ (mkParts_valid _ _)
        (by rw [Distinct, mkParts_units]; exact (hmsParts_units n).1) (by simp), hms_frames hF hk hnk]
  · right
    have hfl := hfl hε
    have hnq : (n:ℚ) * k + pastSecond q k = q := by
      rw [pastSecond, hfl]; push_cast; ring
    have hb := pastSecond_bounds (q := q) k hk
    have hwhole : ∀ m : ℕ, F.rnd (q / k) ≠ m := by
      intro m hm
      rw [he] at hm
      have h1 : (n:ℚ) ≤ m := by linarith
      have h2 : (m:ℚ) < (n + 1 : ℕ) := by push_cast; linarith
      have h3 := Nat.cast_le.1 h1
      have h4 := Nat.cast_lt.1 h2
      have : m = n := by omega
      subst this
      exact hε (by linarith)
    have hr4 : tiny ≤ pastSecond q k := by
      rcases hr with hr | hr
      · obtain ⟨m, hm⟩ := hr
        exact absurd hm (hwhole m)
      · exact hr
    refine ⟨hwhole, hnq, hr4, ?_⟩
    have hk6' : (k:ℚ) ≤ 999999 := by
      have : k ≤ 999999 := by omega
      exact_mod_cast this
    obtain ⟨a, a1, a2, a3, a4⟩ := fmtG_amount hr4 (by linarith [hb.2])
    have hnk : n * k ≤ 2 ^ 53 := by
      have : ((n * k : ℕ):ℚ) < ((2 ^ 53 : ℕ):ℚ) := by push_cast; linarith [hb.1]
      exact (Nat.cast_lt.1 this).le
    have hs0 : 0 ≤ a.value := by
      have h5 : 0 < pastSecond q k := lt_of_lt_of_le (by norm_num [tiny]) hr4
      rw [a4, six, if_neg h5.ne', if_neg (not_lt.2 h5.le)]; exact (sixPos_pos h5).le
    rw [str_past_second h0 he e0 e1 hε, ← a3, ← secParts_text, new_str hroot hk',
      parseSpec_text F _ (secParts_valid n a2) (secParts_distinct n a) (by simp), secParts_frames hF hk hnk hs0, a4]

/-- If the quotient isn't rounded to a whole number, then the time isn't at a second. -/
theorem pastSecond_pos {F : Fl} {q : ℚ} {k : ℕ} (h0 : 0 ≤ q) (hq53 : q < 2 ^ 53) (hk : 1 ≤ k) (hF : F.Lawful)
    (hw : ∀ m : ℕ, F.rnd (q / k) ≠ m) : 0 < pastSecond q k := by
  have hk' : (0:ℚ) < k := by exact_mod_cast hk
  rcases lt_or_eq_of_le (pastSecond_bounds (q := q) k hk).1 with h | h
  · exact h
  · exfalso
    obtain ⟨N, hN⟩ := Int.eq_ofNat_of_zero_le (Int.floor_nonneg.2 (div_nonneg h0 hk'.le))
    have hqk : q / k = N := by
      rw [div_eq_iff hk'.ne']
      rw [pastSecond, hN] at h
      push_cast at h
      linarith
    have hn53 : N ≤ 2 ^ 53 := by
      have : (N:ℚ) < 2 ^ 53 := by
        rw [← hqk]; exact lt_of_le_of_lt (div_le_self h0 (by exact_mod_cast hk)) hq53
      have : N < 2 ^ 53 := by exact_mod_cast this
      exact this.le
    exact hw N (by rw [hqk]; exact hF.nat N hn53)

theorem read_fraction {F : Fl} (hF : F.Lawful) {root : Attrs} {q : ℚ} {k : ℕ} (h0 : 0 ≤ q) (hq : q < 2 ^ 53)
    (hk : 1 ≤ k) (hk6 : k < 10 ^ 6) (hroot : HasFps F root k)
    (hr : pastSecond q k = 0 ∨ tiny ≤ pastSecond q k) :
    ∃ n : ℕ, (F.rnd (q / k) = n ∧ |(n:ℚ) * k - q| ≤ q / 2 ^ 53 ∧
        T.new F (some root) (.str (T.str F ⟨q, some (k:ℚ)⟩)) = .ok ⟨(n:ℚ) * k, some (k:ℚ)⟩) ∨
      ((∀ m : ℕ, F.rnd (q / k) ≠ m) ∧ (n:ℚ) * k + pastSecond q k = q ∧ tiny ≤ pastSecond q k ∧
        T.new F (some root) (.str (T.str F ⟨q, some (k:ℚ)⟩)) =
          .ok ⟨F.rnd ((n:ℚ) * k + F.rnd (six (pastSecond q k))), some (k:ℚ)⟩) := by
  refine read_fraction' hF h0 hq hk hk6 hroot (hr.imp_left fun h => ?_)
  by_contra hc
  push Not at hc
  exact (pastSecond_pos h0 hq hk hF hc).ne' h

theorem roundtrip_near {F : Fl} (hF : F.Lawful) (root : Attrs) (q : ℚ) (k : ℕ) (h0 : 0 ≤ q)
    (hq : q < 2 ^ 53) (hk : 1 ≤ k) (hk6 : k < 10 ^ 6) (hroot : HasFps F root k)
    (hr : (∃ m : ℕ, F.rnd (q / k) = m) ∨ tiny ≤ pastSecond q k) :
    ∃ x, T.new F (some root) (.str (T.str F ⟨q, some (k:ℚ)⟩)) = .ok ⟨x, some (k:ℚ)⟩ ∧
      |x - q| ≤ 5 / 10 ^ 6 * k + q / 2 ^ 51 := by
  have hk' : (0:ℚ) < k := by exact_mod_cast hk
  obtain ⟨n, ⟨-, he, hn⟩ | ⟨-, hnq, hr4, hn⟩⟩ := read_fraction' hF h0 hq hk hk6 hroot hr
  · refine ⟨_, hn, he.trans ?_⟩
    have : q / 2 ^ 53 ≤ q / 2 ^ 51 := by gcongr <;> norm_num
    linarith
  · refine ⟨_, hn, ?_⟩
    have hb := pastSecond_bounds (q := q) k hk
    set r := pastSecond q k
    have hr0 : 0 < r := lt_of_lt_of_le (by norm_num [tiny]) hr4
    have h1 := six_err hr0
    have h2 := hF.err (six r)
    have h3 := hF.err ((n:ℚ) * k + F.rnd (six r))
    have hs : |six r| ≤ 2 * r := by
      have := abs_le.1 h1
      rw [abs_le]; constructor <;> linarith
    have hs2 : |six r| / 2 ^ 53 ≤ 2 * r / 2 ^ 53 := by gcongr
    have hrq : r ≤ q := by
      have : 0 ≤ (n:ℚ) * k := by positivity
      linarith
    have h4 : |(n:ℚ) * k + F.rnd (six r) - q| ≤ r / 200000 + 2 * r / 2 ^ 53 := by
      rw [show (n:ℚ) * k + F.rnd (six r) - q = (six r - r) + (F.rnd (six r) - six r) by rw [← hnq]; ring]
      exact (abs_add_le _ _).trans (by linarith)
    have h5 : |(n:ℚ) * k + F.rnd (six r)| ≤ 3 / 2 * q := by
      have e : (n:ℚ) * k + F.rnd (six r) = q + ((n:ℚ) * k + F.rnd (six r) - q) := by ring
      rw [e]
      refine (abs_add_le _ _).trans ?_
      rw [abs_of_nonneg h0]
      have : r / 200000 + 2 * r / 2 ^ 53 ≤ q / 2 := by
        have : 2 * r / 2 ^ 53 ≤ r / 4 := by
          rw [div_le_div_iff₀ (by positivity) (by norm_num)]; nlinarith
        linarith
      linarith
    have h6 : |(n:ℚ) * k + F.rnd (six r)| / 2 ^ 53 ≤ 3 / 2 * q / 2 ^ 53 := by gcongr
    have e : F.rnd ((n:ℚ) * k + F.rnd (six r)) - q =
        (F.rnd ((n:ℚ) * k + F.rnd (six r)) - ((n:ℚ) * k + F.rnd (six r))) + ((n:ℚ) * k + F.rnd (six r) - q) := by ring
    rw [e]
    refine (abs_add_le _ _).trans ?_
    have h7 : r / 200000 ≤ 5 / 10 ^ 6 * k := by linarith [hb.2]
    have h8 : 2 * r / 2 ^ 53 ≤ 2 * q / 2 ^ 53 := by gcongr
    have h9 : 2 * q / 2 ^ 53 + 3 / 2 * q / 2 ^ 53 ≤ q / 2 ^ 51 := by
      rw [← add_div, div_le_div_iff₀ (by positivity) (by positivity)]; nlinarith
    linarith

/-- C150. The text of a time between frames reads back as a time within five millionths of a second of it (and what
floating point rounds off), if it isn't a very small part of a frame past a second. -/
theorem c150_roundtrip_partial {F : Fl} (hF : F.Lawful) (root : Attrs) (q : ℚ) (k : ℕ) (h0 : 0 ≤ q)
    (hq : q < 2 ^ 53) (hk : 1 ≤ k) (hk6 : k < 10 ^ 6) (hroot : HasFps F root k)
    (hr : pastSecond q k = 0 ∨ tiny ≤ pastSecond q k) :
    ∃ x, T.new F (some root) (.str (T.str F ⟨q, some (k:ℚ)⟩)) = .ok ⟨x, some (k:ℚ)⟩ ∧
      |x - q| ≤ 5 / 10 ^ 6 * k + q / 2 ^ 51 := by
  refine roundtrip_near hF root q k h0 hq hk hk6 hroot (hr.imp_left fun h => ?_)
  by_contra hc
  push Not at hc
  exact (pastSecond_pos h0 hq hk hF hc).ne' h

/-- C150. If the frames past the second have at most six digits, the time reads back exactly. -/
theorem c150_six_digits_exact {F : Fl} (hF : F.Lawful) (root : Attrs) (q : ℚ) (k : ℕ) (h0 : 0 ≤ q)
    (hq : q < 2 ^ 30) (hrep : F.rep q) (hk : 1 ≤ k) (hk6 : k < 10 ^ 6) (hroot : HasFps F root k)
    (hr : pastSecond q k = 0 ∨ tiny ≤ pastSecond q k) (hsix : six (pastSecond q k) = pastSecond q k)
    (hrr : F.rep (pastSecond q k)) :
    T.new F (some root) (.str (T.str F ⟨q, some (k:ℚ)⟩)) = .ok ⟨q, some (k:ℚ)⟩ := by
  have hk' : (0:ℚ) < k := by exact_mod_cast hk
  have hk1 : (1:ℚ) ≤ k := by exact_mod_cast hk
  have hq53 : q < 2 ^ 53 := lt_of_lt_of_le hq (by norm_num)
  obtain ⟨n, ⟨-, he, hn⟩ | ⟨-, hnq, hr4, hn⟩⟩ := read_fraction hF h0 hq53 hk hk6 hroot hr
  · have hb := pastSecond_bounds (q := q) k hk
    have hsmall : q / 2 ^ 53 < 1 / 2 ^ 23 := by
      rw [div_lt_div_iff₀ (by positivity) (by positivity)]; nlinarith
    have hz : q = (n:ℚ) * k := by
      set N := ⌊q / k⌋ with hN
      have hqN : q = k * N + pastSecond q k := by rw [pastSecond, ← hN]; ring
      -- the frames past the second are none, or not near to a whole second
      have hgap : pastSecond q k = 0 ∨ (1 / 2 ^ 23 ≤ pastSecond q k ∧ 1 / 2 ^ 23 ≤ k - pastSecond q k) := by
        rcases hr with hr | hr
        · exact .inl hr
        · right
          refine ⟨le_trans (by norm_num [tiny]) hr, ?_⟩
          have hr0 : 0 < pastSecond q k := lt_of_lt_of_le (by norm_num [tiny]) hr
          obtain ⟨m, a, f1, f2, f3, -⟩ := sixPos_form hr0
          have hs6 : six (pastSecond q k) = sixPos (pastSecond q k) := by
            rw [six, if_neg hr0.ne', if_neg (not_lt.2 hr0.le)]
          rw [hs6] at hsix
          obtain ⟨m', b, g1, g2, g3, -⟩ := sixPos_form hk'
          have hkk : sixPos (k:ℚ) = k := by
            have hl5 : Int.log 10 (k:ℚ) ≤ 5 := log10_le hk' (by
              have : (k:ℚ) < 10 ^ 6 := by exact_mod_cast hk6
              have e6 : (10:ℚ) ^ ((5:ℤ) + 1) = 10 ^ 6 := by norm_num
              rw [e6]; exact this)
            obtain ⟨d, hd⟩ := Int.eq_ofNat_of_zero_le (show 0 ≤ 5 - Int.log 10 (k:ℚ) by omega)
            have hd2 : Int.log 10 (k:ℚ) - 5 = -(d:ℤ) := by omega
            rw [sixPos, hd, hd2]
            have e : (k:ℚ) * (10:ℚ) ^ (d:ℤ) = ((k * 10 ^ d : ℕ) : ℚ) := by push_cast; simp
            rw [e, rhe_nat, zpow_neg, zpow_natCast]
            push_cast
            rw [mul_assoc, mul_inv_cancel₀ (by positivity), mul_one]
          have := six_gap f3 f2 g2 g3 (by rw [← f1, ← g1, hsix, hkk]; exact hb.2)
          rw [← f1, ← g1, hsix, hkk] at this
          have h6 : (1:ℚ) / 2 ^ 23 ≤ 1 / 10 ^ 6 := by norm_num
          have : (1:ℚ) / 10 ^ 6 ≤ k / 10 ^ 6 := by gcongr
          linarith
      have hab := abs_le.1 he
      rcases hgap with hg | ⟨g1, g2⟩
      · have hd : |((n:ℤ) - N : ℤ) * (k:ℚ)| < 1 := by
          rw [show (((n:ℤ) - N : ℤ):ℚ) * k = (n:ℚ) * k - q by rw [hqN, hg]; push_cast; ring]
          exact lt_of_le_of_lt he (hsmall.trans (by norm_num))
        have : (n:ℤ) - N = 0 := by
          by_contra hc
          have h1 : (1:ℚ) ≤ |(((n:ℤ) - N : ℤ):ℚ)| := by
            have := Int.one_le_abs hc
            exact_mod_cast this
          rw [abs_mul, abs_of_pos hk'] at hd
          nlinarith
        rw [hqN, hg]
        have : (N:ℚ) = n := by
          have h : N = (n:ℤ) := by omega
          rw [h]; simp
        rw [this]; ring
      · exfalso
        rcases lt_or_ge (N:ℤ) n with h | h
        · have : (N:ℚ) + 1 ≤ n := by exact_mod_cast h
          nlinarith
        · have : (n:ℚ) ≤ N := by exact_mod_cast h
          nlinarith
    rw [hn, ← hz]
  · rw [hn, hsix, hrr, hnq, hrep]

/-- A time that is further past a second than floating point rounds: the quotient isn't rounded to a whole number. -/
theorem not_rounded {F : Fl} (hF : F.Lawful) {q : ℚ} {k : ℕ} (h0 : 0 ≤ q) (hk : 1 ≤ k)
    (hr : pastSecond q k < tiny) (hq : q < 2 ^ 53 * pastSecond q k) :
    q < 2 ^ 53 ∧ ∀ m : ℕ, F.rnd (q / k) ≠ m := by
  have hk' : (0:ℚ) < k := by exact_mod_cast hk
  have hk1 : (1:ℚ) ≤ k := by exact_mod_cast hk
  have ht : tiny < 1 / 10 ^ 3 := by norm_num [tiny]
  have hq53 : q < 2 ^ 53 := by nlinarith
  refine ⟨hq53, fun n he => ?_⟩
  have herr := hF.err (q / k)
  rw [he, abs_of_nonneg (div_nonneg h0 hk'.le)] at herr
  have herr' : |(n:ℚ) * k - q| ≤ q / 2 ^ 53 := by
    have e : (n:ℚ) * k - q = ((n:ℚ) - q / k) * k := by field_simp
    rw [e, abs_mul, abs_of_pos hk']
    calc _ ≤ q / k / 2 ^ 53 * k := by gcongr
      _ = q / 2 ^ 53 := by field_simp
  have hlt : q / 2 ^ 53 < pastSecond q k := by
    rw [div_lt_iff₀ (by positivity)]; linarith
  have hqN : q = k * ⌊q / k⌋ + pastSecond q k := by rw [pastSecond]; ring
  have hab := abs_le.1 herr'
  rcases lt_or_ge ⌊q / k⌋ n with h | h
  · have : (⌊q / k⌋:ℚ) + 1 ≤ n := by exact_mod_cast h
    nlinarith
  · have : (n:ℚ) ≤ ⌊q / k⌋ := by exact_mod_cast h
    nlinarith

/-- The text of a time a tiny part of a frame past a second. -/
theorem read_tiny {F : Fl} (hF : F.Lawful) {root : Attrs} {q : ℚ} {k : ℕ} (h0 : 0 ≤ q) (hk : 1 ≤ k)
    (hroot : HasFps F root k) (hr : pastSecond q k < tiny)
    (hq53 : q < 2 ^ 53) (hw : ∀ m : ℕ, F.rnd (q / k) ≠ m) :
    ∃ (n d : ℕ), (n:ℚ) * k + pastSecond q k = q ∧ 5 ≤ d ∧ (d:ℤ) = -(sigDigits 6 (pastSecond q k)).2 ∧
      T.new F (some root) (.str (T.str F ⟨q, some (k:ℚ)⟩)) =
        if n = 0 then .ok ⟨F.rnd (-(d:ℚ)), some (k:ℚ)⟩ else .error .value := by
  have hk' : (0:ℚ) < k := by exact_mod_cast hk
  have hk1 : (1:ℚ) ≤ k := by exact_mod_cast hk
  obtain ⟨n, ε, he, e0, e1, herr, hfl⟩ := rnd_seconds hF h0 hq53 hk
  have hε : ε ≠ 0 := fun h => hw n (by rw [he, h, add_zero])
  have hr0 := pastSecond_pos h0 hq53 hk hF hw
  have hfl := hfl hε
  have hnq : (n:ℚ) * k + pastSecond q k = q := by
    rw [pastSecond, hfl]; push_cast; ring
  obtain ⟨a, d, ds, f1, f2, f3, f4, f5, f6, f7, f8⟩ := fmtG_small hr0 hr
  refine ⟨n, d, hnq, f7, f8, ?_⟩
  have hnk : n * k ≤ 2 ^ 53 := by
    have : ((n * k : ℕ):ℚ) < ((2 ^ 53 : ℕ):ℚ) := by push_cast; linarith
    exact (Nat.cast_lt.1 this).le
  have hn53 : n ≤ 2 ^ 53 := le_trans (Nat.le_mul_of_pos_right n hk) hnk
  have htext : T.str F ⟨q, some (k:ℚ)⟩ = specText (mkParts false (hmsParts n)) [] ++
      ((if hmsParts n = [] then [] else [' ']) ++ (a.text ++ 'e' :: '-' :: ds ++ ['f'])) := by
    rw [str_past_second h0 he e0 e1 hε, f1]
    by_cases h : hmsParts n = []
    · simp [h, mkParts, specText, join]
    · rw [join_snoc _ (by simpa using h), specText_mkParts _ _ h]
      simp only [Bool.false_eq_true, if_false, List.nil_append, h]
      rfl
  have hblank : ∀ c ∈ (if hmsParts n = [] then [] else [' '] : Str), isSpace c = true := by
    intro c hc
    split at hc
    · cases hc
    · rw [List.mem_singleton] at hc; subst hc; decide
  have hnil : mkParts false (hmsParts n) = [] → hmsParts n = [] := by
    intro h
    have := congrArg (List.map Part.unit) h
    rw [mkParts_units] at this
    simpa using this
  rw [htext, new_str hroot hk', parse_exponent F _ (mkParts_valid _ _)
    (by rw [Distinct, mkParts_units]; exact (hmsParts_units n).1)
    (by
      intro p hp hc
      have h2 := (hmsParts_units n).2
      rw [← mkParts_units false] at h2
      exact h2 (List.mem_map.2 ⟨p, hp, hc⟩))
    (by
      intro p hp
      cases hm : hmsParts n with
      | nil => rw [hm] at hp; simp [mkParts] at hp
      | cons x r =>
        rw [hm] at hp
        simp only [mkParts, List.head?_cons, Option.mem_def, Option.some.injEq] at hp
        rw [← hp])
    hblank (fun h => by rw [if_pos (hnil h)]) f3 f2 f4 f5, f6]
  set ps := partsOf F (mkParts false (hmsParts n)) with hps
  have hpf : ps.lookup 'f' = none := by
    have := lookup_partsOf F (mkParts false (hmsParts n)) .f
    rw [show TimeUnit.f.char = 'f' from rfl] at this
    rw [hps, this, Option.map_eq_none_iff, List.find?_eq_none]
    intro p hp hc
    have h2 := (hmsParts_units n).2
    rw [← mkParts_units false] at h2
    exact h2 (List.mem_map.2 ⟨p, hp, by simpa using hc⟩)
  have hlk : ∀ c : Char, c ≠ 'e' → c ≠ 'f' →
      (ps ++ [('e', F.rnd a.value), ('f', F.rnd (-(d:ℚ)))]).lookup c = ps.lookup c := by
    intro c h1 h2
    rw [show ps ++ [('e', F.rnd a.value), ('f', F.rnd (-(d:ℚ)))] =
      (ps ++ [('e', F.rnd a.value)]) ++ [('f', F.rnd (-(d:ℚ)))] by simp, lookup_append_single, lookup_append_single]
    simp [h1, h2]
  have hlf : (ps ++ [('e', F.rnd a.value), ('f', F.rnd (-(d:ℚ)))]).lookup 'f' = some (F.rnd (-(d:ℚ))) := by
    rw [show ps ++ [('e', F.rnd a.value), ('f', F.rnd (-(d:ℚ)))] =
      (ps ++ [('e', F.rnd a.value)]) ++ [('f', F.rnd (-(d:ℚ)))] by simp, lookup_append_single, lookup_append_single, hpf]
    simp
  have hsec : (secondsOf F (ps ++ [('e', F.rnd a.value), ('f', F.rnd (-(d:ℚ)))])).getD 0 = n := by
    rw [← hms_seconds hF hn53]
    simp only [secondsOf, addSeconds, hlk 'h' (by decide) (by decide), hlk 'm' (by decide) (by decide),
      hlk 's' (by decide) (by decide)]
    rfl
  have hneg : F.rnd (-(d:ℚ)) < 0 := by
    rw [hF.neg]
    have : 0 < F.rnd (d:ℚ) := hF.pos (by exact_mod_cast (by omega : 0 < d))
    linarith
  by_cases hn : n = 0
  · subst hn
    simp only [framesOf, hsec, hlf, Nat.cast_zero, ne_eq, not_true_eq_false, if_false, if_true, false_and,
      lt_irrefl, zero_add, hF.idem]
  · have hn' : (n:ℚ) ≠ 0 := by exact_mod_cast hn
    simp only [framesOf, hsec, hlf, if_neg hn, if_pos hn', if_pos (And.intro hn' hneg)]

/-- C150, violated. A time after the first second and a tiny part of a frame past a second is written in a way that
can't be read back. -/
theorem c150_fails_refused {F : Fl} (hF : F.Lawful) (root : Attrs) (q : ℚ) (k : ℕ) (hk : 1 ≤ k) (h1 : (k:ℚ) ≤ q)
    (hroot : HasFps F root k) (hr : pastSecond q k < tiny)
    (hq : q < 2 ^ 53 * pastSecond q k) :
    T.new F (some root) (.str (T.str F ⟨q, some (k:ℚ)⟩)) = .error .value := by
  have hk1 : (1:ℚ) ≤ k := by exact_mod_cast hk
  obtain ⟨hq53, hw⟩ := not_rounded hF (by linarith) hk hr hq
  obtain ⟨n, d, hnq, -, -, h⟩ := read_tiny hF (by linarith) hk hroot hr hq53 hw
  rw [h, if_neg]
  rintro rfl
  have := (pastSecond_bounds (q := q) k hk).2
  rw [Nat.cast_zero, zero_mul, zero_add] at hnq
  linarith

/-- C150, violated. A time a tiny part of a frame after the start reads back as one five or more frames before it:
the exponent of the number is taken to be the number of frames. -/
theorem c150_fails_before_start {F : Fl} (hF : F.Lawful) (root : Attrs) (q : ℚ) (k : ℕ) (hk : 1 ≤ k) (h0 : 0 < q)
    (hr : q < tiny) (hroot : HasFps F root k) :
    ∃ x, T.new F (some root) (.str (T.str F ⟨q, some (k:ℚ)⟩)) = .ok ⟨x, some (k:ℚ)⟩ ∧ x ≤ -5 := by
  have hk1 : (1:ℚ) ≤ k := by exact_mod_cast hk
  have htiny : tiny < 1 := by norm_num [tiny]
  have hp : pastSecond q k = q := by
    have : ⌊q / k⌋ = 0 := by
      rw [Int.floor_eq_zero_iff, Set.mem_Ico]
      refine ⟨div_nonneg h0.le (by linarith), ?_⟩
      rw [div_lt_one (by linarith)]; linarith
    rw [pastSecond, this]; simp
  obtain ⟨hq53, hw⟩ := not_rounded hF h0.le hk (by rw [hp]; exact hr) (by rw [hp]; linarith)
  obtain ⟨n, d, hnq, hd, -, h⟩ := read_tiny hF h0.le hk hroot (by rw [hp]; exact hr) hq53 hw
  have hn : n = 0 := by
    rw [hp] at hnq
    have : (n:ℚ) * k = 0 := by linarith
    rcases mul_eq_zero.1 this with h | h
    · exact_mod_cast h
    · linarith
  rw [if_pos hn] at h
  refine ⟨_, h, ?_⟩
  have h5 : F.rnd (-5) = -5 := by
    have := hF.int (-5) (by norm_num)
    exact_mod_cast this
  rw [← h5]
  apply hF.mono
  have : (5:ℚ) ≤ d := by exact_mod_cast hd
  linarith

/-- C150. Exactly which times between frames come back: those whose number of seconds, in floating point, is whole,
and those at least 0.00009999995 of a frame past a second. -/
theorem c150_reads_back_iff {F : Fl} (hF : F.Lawful) (root : Attrs) (q : ℚ) (k : ℕ) (h0 : 0 ≤ q)
    (hq : q < 2 ^ 53) (hk : 1 ≤ k) (hk6 : k < 10 ^ 6) (hroot : HasFps F root k) :
    (∃ x, T.new F (some root) (.str (T.str F ⟨q, some (k:ℚ)⟩)) = .ok ⟨x, some (k:ℚ)⟩ ∧
      |x - q| ≤ 5 / 10 ^ 6 * k + q / 2 ^ 51) ↔
    (∃ m : ℕ, F.rnd (q / k) = m) ∨ 9999995 / 10 ^ 11 ≤ pastSecond q k := by
  refine ⟨?_, roundtrip_near hF root q k h0 hq hk hk6 hroot⟩
  rintro ⟨x, hx, hb⟩
  by_contra hc
  push Not at hc
  obtain ⟨n, d, -, hd, -, h⟩ := read_tiny hF h0 hk hroot hc.2 hq hc.1
  rw [h] at hx
  split at hx
  · injection hx with hx
    injection hx with hx
    have h5 : x ≤ -5 := by
      have e : F.rnd (-(5:ℚ)) = -5 := by rw [hF.neg]; exact congrArg _ (by exact_mod_cast hF.nat 5 (by norm_num))
      rw [← hx, ← e]
      apply hF.mono
      have : (5:ℚ) ≤ d := by exact_mod_cast hd
      linarith
    have h6 : (k:ℚ) < 10 ^ 6 := by exact_mod_cast hk6
    have h7 : q / 2 ^ 51 ≤ q := div_le_self h0 (by norm_num)
    have h8 := (abs_le.1 hb).1
    linarith
  · cases hx

/-- C150. Without a frame rate, the text of a time is read back to six digits; but a tiny one is taken for one before
the start. -/
theorem c150_without_rate {F : Fl} (hF : F.Lawful) (q : ℚ) :
    (tiny ≤ q → q ≤ 999999 →
      ∃ x, T.new F none (.str (T.str F ⟨q, none⟩)) = .ok ⟨x, none⟩ ∧ |x - q| ≤ 5 / 10 ^ 6 * q + q / 2 ^ 52) ∧
    (0 < q → q < tiny → ∃ x, T.new F none (.str (T.str F ⟨q, none⟩)) = .ok ⟨x, none⟩ ∧ x ≤ -5) := by
  constructor
  · intro h4 h6
    obtain ⟨a, a1, a2, a3, a4⟩ := fmtG_amount h4 h6
    have hq : 0 < q := lt_of_lt_of_le (by norm_num [tiny]) h4
    have h := c08_frames_need_no_ref hF ⟨[], a, .f⟩ [] ⟨by simp, a2⟩ (by simp) rfl
    have e : specText [⟨[], a, .f⟩] [] = T.str F ⟨q, none⟩ := by simp [specText, T.str, ← a3, TimeUnit.char]
    rw [e] at h
    refine ⟨_, h, ?_⟩
    simp only [a4]
    have h1 := six_err hq
    have h2 := hF.err (six q)
    have hs : |six q| ≤ 2 * q := by
      have := abs_le.1 h1
      rw [abs_le]; constructor <;> linarith
    have hs2 : |six q| / 2 ^ 53 ≤ 2 * q / 2 ^ 53 := by gcongr
    rw [show F.rnd (six q) - q = (F.rnd (six q) - six q) + (six q - q) by ring]
    refine (abs_add_le _ _).trans ?_
    have : 2 * q / 2 ^ 53 = q / 2 ^ 52 := by ring
    linarith
  · intro h0 h5
    obtain ⟨a, d, ds, f1, f2, f3, f4, f5, f6, f7, -⟩ := fmtG_small h0 h5
    have h := parse_exponent F none (ps := []) (ws := []) (by simp) (by simp [Distinct]) (by simp) (by simp) (by simp)
      (fun _ => rfl) f3 f2 f4 f5
    simp only [specText, List.flatMap_nil, List.nil_append, ← f1, partsOf, List.map_nil, f6] at h
    have hlf : ([('e', F.rnd a.value), ('f', F.rnd (-(d:ℚ)))] : Parts).lookup 'f' = some (F.rnd (-(d:ℚ))) := rfl
    have hsec : secondsOf F [('e', F.rnd a.value), ('f', F.rnd (-(d:ℚ)))] = none := rfl
    have hfr : framesOf F none [('e', F.rnd a.value), ('f', F.rnd (-(d:ℚ)))] = .ok (F.rnd (-(d:ℚ))) := by
      simp [framesOf, hsec, hlf, hF.idem]
    refine ⟨F.rnd (-(d:ℚ)), ?_, ?_⟩
    · simp only [T.new, readFps, T.str, h, hfr]
    · have h5 : F.rnd (-5) = -5 := by
        have := hF.int (-5) (by norm_num)
        exact_mod_cast this
      rw [← h5]
      apply hF.mono
      have : (5:ℚ) ≤ d := by exact_mod_cast f7
      linarith

/-- The hypotheses are met: frame 29.3 (as near as a float comes to it) is written `1s 5.3f`, and isn't what is read
back; frame 36.5 is written `1s 12.5f` and is. -/
example : T.str double ⟨double.rnd (293 / 10), some 24⟩ = "1s 5.3f".toList ∧
    tiny ≤ pastSecond (double.rnd (293 / 10)) 24 ∧ pastSecond (73 / 2) 24 = 25 / 2 ∧ six (25 / 2) = 25 / 2 ∧
    T.new double (some exRoot) (.str (T.str double ⟨73 / 2, some ((24:ℕ):ℚ)⟩)) = .ok ⟨73 / 2, some ((24:ℕ):ℚ)⟩ := by
  refine ⟨by decide +kernel, by decide +kernel, by decide +kernel, by decide +kernel, ?_⟩
  exact c150_six_digits_exact double_lawful exRoot _ 24 (by norm_num) (by norm_num) (by decide +kernel) (by norm_num)
    (by norm_num) (by exact_mod_cast exRoot_fps) (Or.inr (by decide +kernel)) (by decide +kernel) (by decide +kernel)

/-- A time that comes of adding floats, 1.0000000000000002 seconds, at 24 frames per second: the text cannot
be read back. -/
theorem c150_fails : T.str double ⟨double.rnd (double.rnd (1 + 1 / 2 ^ 52) * 24), some 24⟩ = "1s 7.10543e-15f".toList ∧
    T.new double (some exRoot) (.str "1s 7.10543e-15f".toList) = .error .value ∧
    T.str double ⟨1 / 2 ^ 20, some 24⟩ = "9.53674e-07f".toList ∧
    T.new double (some exRoot) (.str "9.53674e-07f".toList) = .ok ⟨-7, some 24⟩ := by
  have e1 : T.str double ⟨double.rnd (double.rnd (1 + 1 / 2 ^ 52) * 24), some 24⟩ = "1s 7.10543e-15f".toList := by
    decide +kernel
  refine ⟨e1, ?_, by decide +kernel, by decide +kernel⟩
  rw [← e1]
  have := c150_fails_refused double_lawful exRoot (double.rnd (double.rnd (1 + 1 / 2 ^ 52) * 24)) 24 (by norm_num)
    (by decide +kernel) (by exact_mod_cast exRoot_fps) (by decide +kernel) (by decide +kernel)
  exact_mod_cast this

end Sang
