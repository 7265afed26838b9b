import Verif.Lemmas.Num

/-! `double` (53-bit round-half-even) satisfies the laws of `Fl.Lawful`. -/

namespace Sang

theorem two_zpow_pos (e : ℤ) : (0:ℚ) < (2:ℚ) ^ e := zpow_pos (by norm_num) e

theorem zpow_split (a b : ℤ) : (2:ℚ) ^ (a + b) = (2:ℚ) ^ a * (2:ℚ) ^ b :=
  zpow_add₀ (by norm_num) a b

theorem zpow_nat_split (a : ℤ) (n : ℕ) : (2:ℚ) ^ (a + n) = (2:ℚ) ^ a * (2:ℚ) ^ n := by
  rw [zpow_split, zpow_natCast]

theorem log_bounds {q : ℚ} (h : q ≠ 0) :
    (2:ℚ) ^ (Int.log 2 |q|) ≤ |q| ∧ |q| < (2:ℚ) ^ (Int.log 2 |q| + 1) := by
  have hp : 0 < |q| := abs_pos.2 h
  constructor
  · have := Int.zpow_log_le_self (b := 2) (r := |q|) (by norm_num) hp
    exact_mod_cast this
  · have := Int.lt_zpow_succ_log_self (b := 2) (by norm_num) |q|
    exact_mod_cast this

/-- A whole multiple of a smaller power of two. -/
theorem zpow_mul_int {e e' : ℤ} (h : e ≤ e') (m : ℤ) :
    ∃ n : ℤ, (m:ℚ) * (2:ℚ) ^ e' = n * (2:ℚ) ^ e := by
  obtain ⟨k, hk⟩ := Int.eq_ofNat_of_zero_le (sub_nonneg.2 h)
  refine ⟨m * 2 ^ k, ?_⟩
  have : e' = e + k := by omega
  rw [this, zpow_nat_split]; push_cast; ring

theorem rnd53_of_multiple {q : ℚ} (h : q ≠ 0) {n : ℤ}
    (hn : q = n * (2:ℚ) ^ (Int.log 2 |q| - 52)) : rnd53 q = q := by
  rw [rnd53, if_neg h]
  simp only
  have hp := two_zpow_pos (Int.log 2 |q| - 52)
  have : q / (2:ℚ) ^ (Int.log 2 |q| - 52) = n := by
    rw [div_eq_iff hp.ne']; exact hn
  rw [this, rhe_int]; exact hn.symm

theorem rnd53_exact (m e : ℤ) (hm : |m| ≤ 2 ^ 53) : rnd53 (m * (2:ℚ) ^ e) = m * (2:ℚ) ^ e := by
  by_cases h0 : m = 0
  · subst h0; simp [rnd53]
  have hp := two_zpow_pos e
  have hq : (m:ℚ) * (2:ℚ) ^ e ≠ 0 := mul_ne_zero (by exact_mod_cast h0) hp.ne'
  have hb := log_bounds hq
  have habs : |(m:ℚ) * (2:ℚ) ^ e| = (|m| : ℤ) * (2:ℚ) ^ e := by
    rw [abs_mul, abs_of_pos hp, Int.cast_abs]
  set L := Int.log 2 |(m:ℚ) * (2:ℚ) ^ e| with hL
  rcases lt_or_eq_of_le hm with hlt | heq
  · have hle : L - 52 ≤ e := by
      by_contra hc
      push Not at hc
      have h1 : (2:ℚ) ^ (e + (53:ℕ)) ≤ (2:ℚ) ^ L := zpow_le_zpow_right₀ (by norm_num) (by push_cast; omega)
      have h2 : ((|m| : ℤ):ℚ) * (2:ℚ) ^ e < (2:ℚ) ^ (53:ℕ) * (2:ℚ) ^ e := by
        apply mul_lt_mul_of_pos_right _ hp
        exact_mod_cast hlt
      rw [zpow_nat_split] at h1
      rw [habs] at hb
      nlinarith [hb.1]
    obtain ⟨n, hn⟩ := zpow_mul_int hle m
    exact rnd53_of_multiple hq hn
  · have hl : L - 52 ≤ e + 1 := by
      have h1 : (2:ℚ) ^ L ≤ (2:ℚ) ^ (e + (53:ℕ)) := by
        refine hb.1.trans ?_
        rw [habs, heq, zpow_nat_split]; push_cast; linarith
      have := (zpow_le_zpow_iff_right₀ (by norm_num : (1:ℚ) < 2)).1 h1
      push_cast at this; omega
    have : ∃ s : ℤ, m = s * 2 ^ 53 := by
      rcases abs_choice m with h | h
      · exact ⟨1, by rw [← h, heq]; ring⟩
      · exact ⟨-1, by rw [heq] at h; omega⟩
    obtain ⟨s, hs⟩ := this
    obtain ⟨n, hn⟩ := zpow_mul_int hl (s * 2 ^ 52)
    refine rnd53_of_multiple hq (n := n) ?_
    show (m:ℚ) * (2:ℚ) ^ e = n * (2:ℚ) ^ (L - 52)
    rw [← hn, hs, zpow_split]; push_cast; ring

theorem scaled_bounds {q : ℚ} (h : q ≠ 0) :
    |q / (2:ℚ) ^ (Int.log 2 |q| - 52)| < 2 ^ 53 ∧
      2 ^ 52 ≤ |q / (2:ℚ) ^ (Int.log 2 |q| - 52)| := by
  have hb := log_bounds h
  have hp := two_zpow_pos (Int.log 2 |q| - 52)
  rw [abs_div, abs_of_pos hp]
  constructor
  · rw [div_lt_iff₀ hp]
    refine hb.2.trans_eq ?_
    rw [show Int.log 2 |q| + 1 = (Int.log 2 |q| - 52) + (53:ℕ) by push_cast; ring, zpow_nat_split]
    ring
  · rw [le_div_iff₀ hp]
    refine le_trans (le_of_eq ?_) hb.1
    conv_rhs => rw [show Int.log 2 |q| = (Int.log 2 |q| - 52) + (52:ℕ) by push_cast; ring, zpow_nat_split]
    ring

theorem rnd53_form (q : ℚ) : ∃ m e : ℤ, |m| ≤ 2 ^ 53 ∧ rnd53 q = m * (2:ℚ) ^ e := by
  by_cases h : q = 0
  · exact ⟨0, 0, by norm_num, by simp [rnd53, h]⟩
  · refine ⟨rhe (q / (2:ℚ) ^ (Int.log 2 |q| - 52)), Int.log 2 |q| - 52, ?_, ?_⟩
    · have hb := (abs_lt.1 (scaled_bounds h).1)
      rw [abs_le]
      constructor
      · exact le_rhe_of_le (by push_cast; linarith [hb.1])
      · exact rhe_le_of_le (by push_cast; linarith [hb.2])
    · rw [rnd53, if_neg h]

theorem rep53_iff (x : ℚ) : rnd53 x = x ↔ ∃ m e : ℤ, |m| ≤ 2 ^ 53 ∧ x = m * (2:ℚ) ^ e := by
  constructor
  · intro h
    obtain ⟨m, e, hm, he⟩ := rnd53_form x
    exact ⟨m, e, hm, by rw [← h]; exact he⟩
  · rintro ⟨m, e, hm, rfl⟩
    exact rnd53_exact m e hm

theorem rnd53_idem (q : ℚ) : rnd53 (rnd53 q) = rnd53 q := by
  rw [rep53_iff]; exact rnd53_form q

theorem rnd53_ulp {q : ℚ} (h : q ≠ 0) :
    |rnd53 q - q| = |(rhe (q / (2:ℚ) ^ (Int.log 2 |q| - 52)) : ℚ) -
      q / (2:ℚ) ^ (Int.log 2 |q| - 52)| * (2:ℚ) ^ (Int.log 2 |q| - 52) := by
  have hp := two_zpow_pos (Int.log 2 |q| - 52)
  rw [rnd53, if_neg h]
  conv_rhs => rw [← abs_of_pos hp, ← abs_mul, sub_mul, abs_of_pos hp, div_mul_cancel₀ _ hp.ne']

theorem rnd53_err (q : ℚ) : |rnd53 q - q| ≤ |q| / 2 ^ 53 := by
  by_cases h : q = 0
  · simp [rnd53, h]
  · have hp := two_zpow_pos (Int.log 2 |q| - 52)
    rw [rnd53_ulp h, le_div_iff₀ (by norm_num)]
    have h1 := rhe_err (q / (2:ℚ) ^ (Int.log 2 |q| - 52))
    have h2 := (scaled_bounds h).2
    rw [abs_div, abs_of_pos hp, le_div_iff₀ hp] at h2
    calc _ ≤ 1/2 * (2:ℚ) ^ (Int.log 2 |q| - 52) * 2 ^ 53 := by gcongr
      _ = 2 ^ 52 * (2:ℚ) ^ (Int.log 2 |q| - 52) := by ring
      _ ≤ _ := h2

/-- No whole number is nearer than `rhe`. -/
theorem rhe_nearest (s : ℚ) (n : ℤ) : |(rhe s : ℚ) - s| ≤ |(n : ℚ) - s| := by
  by_cases h : rhe s = n
  · rw [h]
  · have h1 := rhe_err s
    by_contra hc
    push Not at hc
    exact h (rhe_unique (lt_of_lt_of_le hc h1))

theorem rnd53_nearest_multiple {q : ℚ} (h : q ≠ 0) (n : ℤ) :
    |rnd53 q - q| ≤ |(n:ℚ) * (2:ℚ) ^ (Int.log 2 |q| - 52) - q| := by
  have hp := two_zpow_pos (Int.log 2 |q| - 52)
  rw [rnd53_ulp h]
  have := rhe_nearest (q / (2:ℚ) ^ (Int.log 2 |q| - 52)) n
  calc _ ≤ |(n:ℚ) - q / (2:ℚ) ^ (Int.log 2 |q| - 52)| * (2:ℚ) ^ (Int.log 2 |q| - 52) := by gcongr
    _ = _ := by
      conv_lhs => rw [← abs_of_pos hp, ← abs_mul, sub_mul, abs_of_pos hp, div_mul_cancel₀ _ hp.ne']

theorem rnd53_nearest (q x : ℚ) (hx : rnd53 x = x) : |rnd53 q - q| ≤ |x - q| := by
  by_cases h : q = 0
  · subst h; simp [rnd53]
  obtain ⟨m, e, hm, rfl⟩ := (rep53_iff x).1 hx
  have hb := log_bounds h
  set L := Int.log 2 |q| with hL
  by_cases he : L - 52 ≤ e
  · obtain ⟨n, hn⟩ := zpow_mul_int he m
    rw [hn]; exact rnd53_nearest_multiple h n
  · -- `x` is below the binade of `q`
    have hxL : |(m:ℚ) * (2:ℚ) ^ e| ≤ (2:ℚ) ^ L := by
      have hp := two_zpow_pos e
      rw [abs_mul, abs_of_pos hp]
      have h1 : |(m:ℚ)| ≤ 2 ^ 53 := by exact_mod_cast hm
      calc |(m:ℚ)| * (2:ℚ) ^ e ≤ 2 ^ 53 * (2:ℚ) ^ e := by gcongr
        _ = (2:ℚ) ^ (e + (53:ℕ)) := by rw [zpow_nat_split]; ring
        _ ≤ (2:ℚ) ^ L := zpow_le_zpow_right₀ (by norm_num) (by push_cast; omega)
    have hL52 : (2:ℚ) ^ L = 2 ^ 52 * (2:ℚ) ^ (L - 52) := by
      conv_lhs => rw [show L = (L - 52) + (52:ℕ) by push_cast; ring, zpow_nat_split]
      ring
    rcases lt_or_gt_of_ne h with hneg | hpos
    · have := rnd53_nearest_multiple h (-(2 ^ 52))
      refine this.trans ?_
      push_cast
      rw [← hL, neg_mul, show (4503599627370496:ℚ) = 2 ^ 52 by norm_num, ← hL52]
      rw [abs_of_neg hneg] at hb
      rw [abs_of_nonneg (by linarith [hb.1]), abs_of_nonneg]
      · linarith [(abs_le.1 hxL).1]
      · linarith [(abs_le.1 hxL).1]
    · have := rnd53_nearest_multiple h (2 ^ 52)
      refine this.trans ?_
      push_cast
      rw [← hL, show (4503599627370496:ℚ) = 2 ^ 52 by norm_num, ← hL52]
      rw [abs_of_pos hpos] at hb
      rw [abs_of_nonpos (by linarith [hb.1]), abs_of_nonpos]
      · linarith [(abs_le.1 hxL).2]
      · linarith [(abs_le.1 hxL).2]

theorem rnd53_neg (q : ℚ) : rnd53 (-q) = -rnd53 q := by
  by_cases h : q = 0
  · simp [rnd53, h]
  · simp only [rnd53, neg_eq_zero, if_neg h, abs_neg, neg_div, rhe_neg]
    push_cast; ring

/-- Distinct whole multiples of a power of two are at least that far apart. -/
theorem multiples_apart {a b e : ℤ} (h : (a:ℚ) * (2:ℚ) ^ e ≠ b * (2:ℚ) ^ e) :
    (2:ℚ) ^ e ≤ |(a:ℚ) * (2:ℚ) ^ e - b * (2:ℚ) ^ e| := by
  have hp := two_zpow_pos e
  rw [← sub_mul, abs_mul, abs_of_pos hp]
  have hab : a ≠ b := fun hc => h (by rw [hc])
  have : (1:ℤ) ≤ |a - b| := Int.one_le_abs (sub_ne_zero.2 hab)
  have : (1:ℚ) ≤ |(a:ℚ) - b| := by exact_mod_cast this
  nlinarith

theorem rnd53_spacing (x y : ℚ) (hx : rnd53 x = x) (hy : rnd53 y = y) (hxy : x ≠ y) :
    |x| / 2 ^ 53 ≤ |x - y| := by
  by_cases h : x = 0
  · subst h; simp
  have hb := log_bounds h
  set L := Int.log 2 |x| with hL
  -- `x` is a multiple of its ulp
  obtain ⟨a, ha⟩ : ∃ a : ℤ, x = a * (2:ℚ) ^ (L - 52) := by
    refine ⟨rhe (x / (2:ℚ) ^ (L - 52)), ?_⟩
    conv_lhs => rw [← hx, rnd53, if_neg h]
  have hpe := two_zpow_pos (L - 52)
  have hU : (2:ℚ) ^ (L + 1) = 2 ^ 53 * (2:ℚ) ^ (L - 52) := by
    rw [show L + 1 = (L - 52) + (53:ℕ) by push_cast; ring, zpow_nat_split]; ring
  have hL52 : (2:ℚ) ^ L = 2 ^ 52 * (2:ℚ) ^ (L - 52) := by
    conv_lhs => rw [show L = (L - 52) + (52:ℕ) by push_cast; ring, zpow_nat_split]
    ring
  have small : |x| / 2 ^ 53 ≤ (2:ℚ) ^ (L - 52) := by
    rw [div_le_iff₀ (by norm_num)]
    rw [hU] at hb; linarith [hb.2]
  obtain ⟨m, e, hm, he⟩ := (rep53_iff y).1 hy
  by_cases hle : L - 52 ≤ e
  · obtain ⟨n, hn⟩ := zpow_mul_int hle m
    refine small.trans ?_
    have := multiples_apart (a := a) (b := n) (e := L - 52) (by rw [← ha, ← hn, ← he]; exact hxy)
    rwa [← ha, ← hn, ← he] at this
  · have hm' : |(m:ℚ)| ≤ 2 ^ 53 := by exact_mod_cast hm
    have hyabs : |y| ≤ 2 ^ 53 * (2:ℚ) ^ e := by
      rw [he, abs_mul, abs_of_pos (two_zpow_pos e)]
      exact mul_le_mul_of_nonneg_right hm' (two_zpow_pos e).le
    have tri : |x| - |y| ≤ |x - y| := abs_sub_abs_le_abs_sub x y
    have hhalf : (2:ℚ) ^ (L - 52) = 2 * (2:ℚ) ^ (L - 53) := by
      rw [show L - 52 = (L - 53) + (1:ℕ) by push_cast; ring, zpow_nat_split]; ring
    have hmono : ∀ k : ℤ, e ≤ k → (2:ℚ) ^ e ≤ (2:ℚ) ^ k :=
      fun k hk => zpow_le_zpow_right₀ (by norm_num) hk
    by_cases hxL : |x| = (2:ℚ) ^ L
    · by_cases he1 : e = L - 53
      · subst he1
        have hax : x = ((a * 2 : ℤ):ℚ) * (2:ℚ) ^ (L - 53) := by
          conv_lhs => rw [ha, hhalf]
          push_cast; ring
        have := multiples_apart (a := a * 2) (b := m) (e := L - 53) (by rw [← hax, ← he]; exact hxy)
        rw [← hax, ← he] at this
        refine le_trans ?_ this
        rw [hxL, hL52, hhalf, div_le_iff₀ (by norm_num)]
        linarith [two_zpow_pos (L - 53)]
      · have h4 : (2:ℚ) ^ (L - 53) = 2 * (2:ℚ) ^ (L - 54) := by
          rw [show L - 53 = (L - 54) + (1:ℕ) by push_cast; ring, zpow_nat_split]; ring
        have hm2 := hmono (L - 54) (by omega)
        have hp4 := two_zpow_pos (L - 54)
        refine le_trans ?_ tri
        rw [hxL, hL52, hhalf, h4, div_le_iff₀ (by norm_num)]
        have : |y| ≤ 2 ^ 53 * (2:ℚ) ^ (L - 54) := hyabs.trans (by gcongr)
        linarith
    · refine small.trans (le_trans ?_ tri)
      have hm2 := hmono (L - 53) (by omega)
      have hp3 := two_zpow_pos (L - 53)
      have hy2 : |y| ≤ 2 ^ 52 * (2:ℚ) ^ (L - 52) := by
        refine hyabs.trans ?_
        rw [hhalf]; nlinarith
      have hxa : |x| = ((|a| : ℤ):ℚ) * (2:ℚ) ^ (L - 52) := by
        conv_lhs => rw [ha, abs_mul, abs_of_pos hpe]
        rw [Int.cast_abs]
      have hgt : (2 ^ 52 : ℤ) < |a| := by
        have h1 : (2:ℚ) ^ L < |x| := lt_of_le_of_ne hb.1 (Ne.symm hxL)
        rw [hxa, hL52] at h1
        have := lt_of_mul_lt_mul_right h1 hpe.le
        exact_mod_cast this
      have hge : ((2 ^ 52 : ℚ) + 1) ≤ ((|a| : ℤ):ℚ) := by exact_mod_cast hgt
      have : ((2 ^ 52 : ℚ) + 1) * (2:ℚ) ^ (L - 52) ≤ |x| := by
        rw [hxa]; exact mul_le_mul_of_nonneg_right hge hpe.le
      linarith

/-- Binary64 (with unbounded exponent) satisfies every law the theorems assume of float
arithmetic, so they are not vacuous. -/
theorem double_lawful : double.Lawful where
  idem := rnd53_idem
  nearest := rnd53_nearest
  err := rnd53_err
  exact := rnd53_exact
  neg := rnd53_neg
  spacing := rnd53_spacing

/-- A consequence of the laws: whole numbers up to 2^53 are floats. -/
theorem Fl.Lawful.int {F : Fl} (h : F.Lawful) (n : ℤ) (hn : |n| ≤ 2 ^ 53) : F.rnd n = n := by
  have := h.exact n 0 hn; simpa using this

theorem Fl.Lawful.nat {F : Fl} (h : F.Lawful) (n : ℕ) (hn : n ≤ 2 ^ 53) : F.rnd n = n := by
  have := h.int n (by rw [abs_of_nonneg (by positivity)]; exact_mod_cast hn); simpa using this

theorem Fl.Lawful.zero {F : Fl} (h : F.Lawful) : F.rnd 0 = 0 := by
  have := h.int 0 (by norm_num); simpa using this

theorem Fl.Lawful.one {F : Fl} (h : F.Lawful) : F.rnd 1 = 1 := by
  have := h.int 1 (by norm_num); simpa using this

/-- Rounding is monotone. -/
theorem Fl.Lawful.mono {F : Fl} (h : F.Lawful) {p q : ℚ} (hpq : p ≤ q) : F.rnd p ≤ F.rnd q := by
  by_contra hc
  push Not at hc
  have h1 := h.nearest p (F.rnd q) (h.idem q)
  have h2 := h.nearest q (F.rnd p) (h.idem p)
  have hne : p ≠ q := by rintro rfl; exact lt_irrefl _ hc
  have hlt : p < q := lt_of_le_of_ne hpq hne
  -- `rnd q < rnd p`, each at least as near to its own argument as the other
  rcases le_total (F.rnd q) p with a | a <;> rcases le_total (F.rnd p) q with b | b
  · rw [abs_of_nonpos (by linarith : F.rnd q - p ≤ 0)] at h1
    rw [abs_of_nonpos (by linarith : F.rnd q - q ≤ 0),
      abs_of_nonpos (by linarith : F.rnd p - q ≤ 0)] at h2
    linarith
  · rw [abs_of_nonneg (by linarith : 0 ≤ F.rnd p - p),
      abs_of_nonpos (by linarith : F.rnd q - p ≤ 0)] at h1
    rw [abs_of_nonpos (by linarith : F.rnd q - q ≤ 0),
      abs_of_nonneg (by linarith : 0 ≤ F.rnd p - q)] at h2
    linarith
  · rw [abs_of_nonneg (by linarith : 0 ≤ F.rnd q - p),
      abs_of_nonneg (by linarith : 0 ≤ F.rnd p - p)] at h1
    linarith
  · rw [abs_of_nonneg (by linarith : 0 ≤ F.rnd q - p),
      abs_of_nonneg (by linarith : 0 ≤ F.rnd p - p)] at h1
    linarith

theorem Fl.Lawful.nonneg {F : Fl} (h : F.Lawful) {q : ℚ} (hq : 0 ≤ q) : 0 ≤ F.rnd q := by
  have := h.mono hq; rwa [h.zero] at this

theorem Fl.Lawful.pos {F : Fl} (h : F.Lawful) {q : ℚ} (hq : 0 < q) : 0 < F.rnd q := by
  have h1 := h.err q
  rw [abs_of_pos hq] at h1
  have := (abs_le.1 h1).1
  have h2 : q / 2 ^ 53 < q := by
    rw [div_lt_iff₀ (by norm_num)]; linarith
  linarith

end Sang
