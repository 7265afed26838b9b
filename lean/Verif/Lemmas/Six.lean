import Mathlib.Tactic.LinearCombination
import Verif.Spec.Decimals
import Verif.Lemmas.Repr
import Verif.Lemmas.ValueNum

/-! # `'%.06g'` reads back as the nearest six-digit decimal -/

namespace Sang

/-! ### Removing trailing zeros doesn't change the value -/

theorem dropTrailingZeros (f : Str) :
    ∃ g k, f = g ++ List.replicate k '0' ∧ (f.reverse.dropWhile (· == '0')).reverse = g := by
  induction f using List.reverseRecOn with
  | nil => exact ⟨[], 0, rfl, rfl⟩
  | append_singleton f c ih =>
    obtain ⟨g, k, h1, h2⟩ := ih
    by_cases hc : c = '0'
    · subst hc
      refine ⟨g, k + 1, ?_, ?_⟩
      · rw [List.replicate_succ', ← List.append_assoc, ← h1]
      · rw [List.reverse_append, List.reverse_singleton, List.singleton_append,
          List.dropWhile_cons_of_pos (by rfl)]
        exact h2
    · refine ⟨f ++ [c], 0, by simp, ?_⟩
      rw [List.reverse_append, List.reverse_singleton, List.singleton_append,
        List.dropWhile_cons_of_neg (by simpa using hc)]
      simp

theorem stripZeros_cases (w f : Str) (hf : ∀ c ∈ f, isDig c = true) :
    (stripZeros (w ++ '.' :: f) = w ∧ ∃ k, f = List.replicate k '0') ∨
    ∃ g k, f = g ++ List.replicate k '0' ∧ stripZeros (w ++ '.' :: f) = w ++ '.' :: g := by
  obtain ⟨g, k, h1, h2⟩ := dropTrailingZeros f
  by_cases hg : g = []
  · subst hg
    left
    simp only [List.nil_append] at h1
    exact ⟨by rw [h1]; exact stripZeros_whole w k, k, h1⟩
  · right
    refine ⟨g, k, h1, ?_⟩
    have hrev : f.reverse.dropWhile (· == '0') = g.reverse := by
      rw [← h2, List.reverse_reverse]
    have hne : f.reverse.dropWhile (· == '0') ≠ [] := by rw [hrev]; simpa using hg
    have hd : (f.reverse ++ ('.' :: w.reverse)).dropWhile (· == '0') =
        g.reverse ++ ('.' :: w.reverse) := by
      rw [List.dropWhile_append]
      have : (f.reverse.dropWhile (· == '0')).isEmpty = false := by
        simpa using hne
      rw [this, hrev]; simp
    have e : (w ++ '.' :: f).reverse = f.reverse ++ ('.' :: w.reverse) := by simp
    simp only [stripZeros, e, hd]
    obtain ⟨c, r, hcr⟩ := List.exists_cons_of_ne_nil (show g.reverse ≠ [] by simpa using hg)
    have hc : c ≠ '.' := by
      rintro rfl
      have : '.' ∈ g := by rw [← List.mem_reverse, hcr]; simp
      exact absurd (hf '.' (by rw [h1]; simp [this])) (by decide)
    rw [hcr]
    have : ∀ r', c :: r ++ '.' :: w.reverse = '.' :: r' → False := by
      intro r' h; injection h with h; exact hc h
    split
    · rename_i heq; exact (this _ heq).elim
    · rw [← hcr]; simp

theorem natVal_zeros (s : Str) (k : ℕ) :
    natVal (s ++ List.replicate k '0') = natVal s * 10 ^ k := by
  rw [natVal_append, List.length_replicate]
  have : natVal (List.replicate k '0') = 0 := by
    induction k with
    | zero => rfl
    | succ k ih => rw [List.replicate_succ', natVal_append, ih]; rfl
  rw [this, add_zero]

/-- The numeral of `w.f` with trailing zeros removed, with an exponent or not. -/
theorem parse_stripped {neg eneg : Bool} {s w f es ed : Str} (ex : ℤ)
    (hw : ∀ c ∈ w, isDig c = true) (hf : ∀ c ∈ f, isDig c = true) (hne : w ≠ [])
    (hs : takeSign s = (neg, stripZeros (w ++ '.' :: f) ++ es))
    (hes : (es = [] ∧ ex = 0) ∨ (∃ es', es = 'e' :: es' ∧ takeSign es' = (eneg, ed) ∧
      (∀ c ∈ ed, isDig c = true) ∧ ed ≠ [] ∧ ex = if eneg then -(natVal ed : ℤ) else natVal ed)) :
    ∃ n, parseNumeral s = some n ∧
      n.val = (if neg then -1 else 1) * (natVal (w ++ f) : ℚ) * (10:ℚ) ^ (ex - f.length) := by
  have h10 : (10:ℚ) ≠ 0 := by norm_num
  rcases stripZeros_cases w f hf with ⟨h, k, rfl⟩ | ⟨g, k, hg, h⟩
  · rw [h] at hs
    have hval : (natVal (w ++ List.replicate k '0') : ℚ) * (10:ℚ) ^ (ex - k) =
        (natVal w : ℚ) * (10:ℚ) ^ ex := by
      rw [natVal_zeros]; push_cast
      rw [mul_assoc, ← zpow_natCast, ← zpow_add₀ h10]; ring_nf
    rcases hes with ⟨rfl, rfl⟩ | ⟨es', rfl, h1, h2, h3, rfl⟩
    · rw [List.append_nil] at hs
      refine ⟨_, parse_digits hs hw hne, ?_⟩
      rw [mul_assoc, List.length_replicate, hval]
      simp [Numeral.val]
    · refine ⟨_, parse_exp0 hs hw hne h1 h2 h3, ?_⟩
      rw [mul_assoc, List.length_replicate, hval]
      simp [Numeral.val]
  · rw [h] at hs
    have hgd : ∀ c ∈ g, isDig c = true := fun c hc => hf c (by rw [hg]; simp [hc])
    have hval : (natVal (w ++ f) : ℚ) * (10:ℚ) ^ (ex - f.length) =
        (natVal (w ++ g) : ℚ) * (10:ℚ) ^ (ex - g.length) := by
      rw [hg, ← List.append_assoc, natVal_zeros, List.length_append, List.length_replicate]
      push_cast
      rw [mul_assoc, ← zpow_natCast, ← zpow_add₀ h10]; ring_nf
    rcases hes with ⟨rfl, rfl⟩ | ⟨es', rfl, h1, h2, h3, rfl⟩
    · rw [List.append_nil] at hs
      refine ⟨_, parse_fixed hs hw hgd hne, ?_⟩
      rw [mul_assoc, hval]
      simp [Numeral.val]
    · rw [List.append_assoc, List.cons_append] at hs
      refine ⟨_, parse_exp hs hw hgd hne h1 h2 h3, ?_⟩
      rw [mul_assoc, hval]
      simp [Numeral.val]

theorem sixPos_eq {q : ℚ} (hq : 0 < q) :
    sixPos q = ((sigDigits 6 q).1 : ℚ) * (10:ℚ) ^ ((sigDigits 6 q).2 - 5) := by
  have := sigDigits_val 6 (by norm_num) hq
  rw [sixPos]
  have e : ((6:ℕ):ℤ) - 1 = 5 := by norm_num
  rw [e] at this
  exact this.symm

theorem gPos_parse {q : ℚ} (hq : 0 < q) (neg : Bool) (s : Str)
    (hs : takeSign s = (neg, gPos 6 q)) :
    ∃ n, parseNumeral s = some n ∧ n.val = (if neg then -1 else 1) * sixPos q := by
  have h10 : (10:ℚ) ≠ 0 := by norm_num
  rw [sixPos_eq hq]
  simp only [gPos] at hs
  set m := (sigDigits 6 q).1
  set e := (sigDigits 6 q).2
  have e5 : ((6:ℕ):ℤ) - 1 = 5 := by norm_num
  have e5' : (((6:ℕ):ℤ) - 1 : ℤ) = 5 := e5
  set v : ℚ := (m:ℚ) * (10:ℚ) ^ (e - 5) with hv
  have hv' : (m:ℚ) * (10:ℚ) ^ (e - (((6:ℕ):ℤ) - 1)) = v := by rw [e5]
  rw [hv'] at hs
  split at hs
  · rename_i hr
    have hp : ((((6:ℕ):ℤ) - 1 - e).toNat : ℤ) = 5 - e := by
      rw [e5, Int.toNat_of_nonneg]; have := hr.2; push_cast at this; omega
    set p := (((6:ℕ):ℤ) - 1 - e).toNat
    have hvp : v * 10 ^ p = m := by
      rw [hv, mul_assoc, ← zpow_natCast, ← zpow_add₀ h10, hp]; simp
    split at hs
    · rename_i hp0
      rw [hp0, pow_zero, mul_one] at hvp
      have h0 : (rhe (v * 10 ^ 0)).toNat = m := fixedNN_exact_val (by rw [pow_zero, mul_one, hvp])
      have : fixedNN 0 v = natStr m := by
        simp only [fixedNN, h0]; simp
      rw [this] at hs
      refine ⟨_, parse_digits hs (natStr_digits _) (natStr_ne_nil _), ?_⟩
      rw [numeral_int_val, hvp]
    · rename_i hp0
      simp only [fixedNN, if_neg hp0, fixedNN_exact_val hvp] at hs
      rw [← List.append_nil (stripZeros _)] at hs
      obtain ⟨n, h1, h2⟩ := parse_stripped (eneg := false) (ed := []) 0 (natStr_digits _)
        (fracStr_digits _ _) (natStr_ne_nil _) hs (.inl ⟨rfl, rfl⟩)
      refine ⟨n, h1, ?_⟩
      rw [h2]
      simp only [natVal_append, natVal_natStr, natVal_fracStr, fracStr_length, Nat.mod_mod,
        Nat.div_add_mod']
      rw [mul_assoc, zero_sub, hp, hv]; ring_nf
  · obtain ⟨ed, h1, h2, h3, h4⟩ := expStr_sign e
    have hvp : ((m:ℚ) / 10 ^ (6 - 1)) * 10 ^ (6 - 1) = m := div_mul_cancel₀ _ (by positivity)
    simp only [fixedNN, fixedNN_exact_val hvp] at hs
    obtain ⟨n, h5, h6⟩ := parse_stripped (eneg := decide (e < 0)) (ed := ed) e (natStr_digits _)
      (fracStr_digits _ _) (natStr_ne_nil _) hs (.inr ⟨_, rfl, h1, h2, h3, by rw [h4, exp_val]⟩)
    refine ⟨n, h5, ?_⟩
    rw [h6]
    simp only [natVal_append, natVal_natStr, natVal_fracStr, fracStr_length, Nat.mod_mod,
      Nat.div_add_mod', hv]
    rw [mul_assoc]; norm_num

theorem gPos_numCh (q : ℚ) : ∀ c ∈ gPos 6 q, numCh c = true := by
  intro c hc
  simp only [gPos] at hc
  split at hc
  · split at hc
    · exact fixedNN_numCh _ _ c hc
    · exact fixedNN_numCh _ _ c (stripZeros_mem hc)
  · rcases List.mem_append.1 hc with hc | hc
    · exact fixedNN_numCh _ _ c (stripZeros_mem hc)
    · rcases List.mem_cons.1 hc with rfl | hc
      · rfl
      · exact expStr_numCh _ c hc

theorem stripZeros_fixed_takeSign (k : ℕ) (hk : k ≠ 0) (q : ℚ) (t : Str) :
    takeSign (stripZeros (fixedNN k q) ++ t) = (false, stripZeros (fixedNN k q) ++ t) := by
  simp only [fixedNN, if_neg hk]
  rcases stripZeros_cases (natStr ((rhe (q * 10 ^ k)).toNat / 10 ^ k)) _
    (fracStr_digits k ((rhe (q * 10 ^ k)).toNat % 10 ^ k)) with ⟨h, -⟩ | ⟨g, -, -, h⟩
  · rw [h]; exact digits_append_takeSign (natStr_digits _) (natStr_ne_nil _)
  · rw [h, List.append_assoc]; exact digits_append_takeSign (natStr_digits _) (natStr_ne_nil _)

theorem gPos_takeSign (q : ℚ) : takeSign (gPos 6 q) = (false, gPos 6 q) := by
  simp only [gPos]
  split
  · split
    · exact fixedNN_takeSign _ _
    · rename_i h
      have := stripZeros_fixed_takeSign _ h
        (((sigDigits 6 q).1 : ℚ) * (10:ℚ) ^ ((sigDigits 6 q).2 - (((6:ℕ):ℤ) - 1))) []
      simpa using this
  · exact stripZeros_fixed_takeSign 5 (by norm_num) _ _

/-- `float('%g' % q)` is the nearest six-digit decimal, rounded to a float. -/
theorem pyFloat_fmtG (F : Fl) (q : ℚ) : pyFloat F (fmtG q) = .ok (F.rnd (six q)) := by
  unfold fmtG six
  split
  · rw [pyFloat_plain F (by decide), parse_digits (neg := false) (t := ['0']) rfl (by decide)
      (by decide)]
    simp [Numeral.val, natVal, digV]
  · rename_i h0
    split
    · rename_i hneg
      obtain ⟨n, h1, h2⟩ := gPos_parse (q := -q) (by linarith) true ('-' :: gPos 6 (-q)) rfl
      rw [pyFloat_plain, h1]
      · simp only [h2, if_true, neg_one_mul]
      · intro c hc
        rcases List.mem_cons.1 hc with rfl | hc
        · rfl
        · exact gPos_numCh _ c hc
    · rename_i hneg
      have hq : 0 < q := lt_of_le_of_ne (not_lt.1 hneg) (Ne.symm h0)
      obtain ⟨n, h1, h2⟩ := gPos_parse hq false _ (gPos_takeSign q)
      rw [pyFloat_plain F (gPos_numCh q), h1]
      simp only [h2, Bool.false_eq_true, if_false, one_mul]

/-! ### Order -/

/-- Six-digit decimals are `m·10^e` with `10^5 ≤ m < 10^6`. -/
theorem sixPos_form {q : ℚ} (hq : 0 < q) :
    ∃ (m : ℕ) (e : ℤ), sixPos q = m * (10:ℚ) ^ e ∧ 10 ^ 5 ≤ m ∧ m < 10 ^ 6 ∧
      (10:ℚ) ^ (Int.log 10 q) ≤ sixPos q ∧ sixPos q ≤ (10:ℚ) ^ (Int.log 10 q + 1) := by
  have h10 : (10:ℚ) ≠ 0 := by norm_num
  obtain ⟨hl, hu⟩ := log10_bounds hq
  set e := Int.log 10 q with he
  have hpe : (0:ℚ) < (10:ℚ) ^ (5 - e) := ten_zpow_pos _
  have h5 : (10:ℚ) ^ e * (10:ℚ) ^ (5 - e) = ((10 ^ 5 : ℕ) : ℚ) := by
    rw [← zpow_add₀ h10]; ring_nf; norm_num
  have h6 : (10:ℚ) ^ (e + 1) * (10:ℚ) ^ (5 - e) = ((10 ^ 6 : ℕ) : ℚ) := by
    rw [← zpow_add₀ h10]; ring_nf; norm_num
  have hml : ((10 ^ 5 : ℕ) : ℤ) ≤ rhe (q * (10:ℚ) ^ (5 - e)) := by
    rw [← rhe_nat]; apply rhe_mono; rw [← h5]; exact mul_le_mul_of_nonneg_right hl hpe.le
  have hmu : rhe (q * (10:ℚ) ^ (5 - e)) ≤ ((10 ^ 6 : ℕ) : ℤ) := by
    rw [← rhe_nat]; apply rhe_mono; rw [← h6]; exact mul_le_mul_of_nonneg_right hu.le hpe.le
  obtain ⟨m, hm⟩ := Int.eq_ofNat_of_zero_le (le_trans (by positivity) hml)
  have hs : sixPos q = m * (10:ℚ) ^ (e - 5) := by rw [sixPos, ← he, hm]; simp
  have hp' : (0:ℚ) < (10:ℚ) ^ (e - 5) := ten_zpow_pos _
  have hb : (10:ℚ) ^ e ≤ sixPos q ∧ sixPos q ≤ (10:ℚ) ^ (e + 1) := by
    rw [hm] at hml hmu
    have a1 : ((10 ^ 5 : ℕ) : ℚ) ≤ m := by exact_mod_cast hml
    have a2 : (m:ℚ) ≤ ((10 ^ 6 : ℕ) : ℚ) := by exact_mod_cast hmu
    rw [hs]
    constructor
    · have : (10:ℚ) ^ e = ((10 ^ 5 : ℕ) : ℚ) * (10:ℚ) ^ (e - 5) := by
        rw [← h5, mul_assoc, ← zpow_add₀ h10]; ring_nf; simp
      rw [this]; exact mul_le_mul_of_nonneg_right a1 hp'.le
    · have : (10:ℚ) ^ (e + 1) = ((10 ^ 6 : ℕ) : ℚ) * (10:ℚ) ^ (e - 5) := by
        rw [← h6, mul_assoc, ← zpow_add₀ h10]; ring_nf; simp
      rw [this]; exact mul_le_mul_of_nonneg_right a2 hp'.le
  have hm5 : 10 ^ 5 ≤ m := by rw [hm] at hml; exact_mod_cast hml
  have hm6 : m ≤ 10 ^ 6 := by rw [hm] at hmu; exact_mod_cast hmu
  rcases Nat.lt_or_ge m (10 ^ 6) with h | h
  · exact ⟨m, e - 5, hs, hm5, h, hb⟩
  · have : m = 10 ^ 6 := le_antisymm hm6 h
    refine ⟨10 ^ 5, e - 4, ?_, le_refl _, by norm_num, hb⟩
    rw [hs, this, show e - 4 = (e - 5) + 1 by ring, zpow_add₀ h10]
    push_cast; ring

theorem sixPos_pos {q : ℚ} (hq : 0 < q) : 0 < sixPos q := by
  obtain ⟨-, -, -, -, -, h, -⟩ := sixPos_form hq
  exact lt_of_lt_of_le (ten_zpow_pos _) h

theorem sixPos_mono {p q : ℚ} (hp : 0 < p) (h : p ≤ q) : sixPos p ≤ sixPos q := by
  have hq := lt_of_lt_of_le hp h
  have hlog : Int.log 10 p ≤ Int.log 10 q := Int.log_mono_right hp h
  rcases eq_or_lt_of_le hlog with he | he
  · rw [sixPos, sixPos, he]
    apply mul_le_mul_of_nonneg_right _ (ten_zpow_pos _).le
    exact_mod_cast rhe_mono (mul_le_mul_of_nonneg_right h (ten_zpow_pos _).le)
  · obtain ⟨-, -, -, -, -, -, h1⟩ := sixPos_form hp
    obtain ⟨-, -, -, -, -, h2, -⟩ := sixPos_form hq
    exact h1.trans ((zpow_le_zpow_right₀ (by norm_num) (by omega)).trans h2)

/-- Different six-digit decimals differ by at least a millionth. -/
theorem six_gap {m n : ℕ} {a b : ℤ} (hm : m < 10 ^ 6) (hm' : 10 ^ 5 ≤ m) (hn : 10 ^ 5 ≤ n)
    (hn' : n < 10 ^ 6) (h : (m:ℚ) * (10:ℚ) ^ a < n * (10:ℚ) ^ b) :
    (n:ℚ) * (10:ℚ) ^ b / 10 ^ 6 ≤ n * (10:ℚ) ^ b - m * (10:ℚ) ^ a := by
  have h10 : (10:ℚ) ≠ 0 := by norm_num
  have hpb := ten_zpow_pos b
  have hmq : (m:ℚ) + 1 ≤ 10 ^ 6 := by exact_mod_cast hm
  have hnq : (10:ℚ) ^ 5 ≤ n := by exact_mod_cast hn
  have hnq' : (n:ℚ) < 10 ^ 6 := by exact_mod_cast hn'
  have hmq' : (10:ℚ) ^ 5 ≤ m := by exact_mod_cast hm'
  rcases lt_trichotomy a b with hab | hab | hab
  · have hle : (10:ℚ) ^ a ≤ (10:ℚ) ^ (b - 1) := zpow_le_zpow_right₀ (by norm_num) (by omega)
    have hb1 : (10:ℚ) ^ b = 10 * (10:ℚ) ^ (b - 1) := by
      rw [show b = (b - 1) + 1 by ring, zpow_add₀ h10]; ring_nf
    have hp1 := ten_zpow_pos (b - 1)
    have h1 : (m:ℚ) * (10:ℚ) ^ a ≤ (10 ^ 6 - 1) * (10:ℚ) ^ (b - 1) := by
      apply mul_le_mul _ hle (ten_zpow_pos a).le (by norm_num)
      linarith
    rw [hb1, div_le_iff₀ (by norm_num)]
    nlinarith
  · subst hab
    have hlt : (m:ℚ) < n := lt_of_mul_lt_mul_right h hpb.le
    have : (m:ℚ) + 1 ≤ n := by exact_mod_cast hlt
    rw [div_le_iff₀ (by norm_num)]
    nlinarith
  · exfalso
    have hle : (10:ℚ) ^ (b + 1) ≤ (10:ℚ) ^ a := zpow_le_zpow_right₀ (by norm_num) (by omega)
    rw [zpow_add₀ h10, zpow_one] at hle
    nlinarith

theorem rnd_sixPos_lt {F : Fl} (hF : F.Lawful) {p q : ℚ} (hp : 0 < p) (hq : 0 < q)
    (h : sixPos p < sixPos q) : F.rnd (sixPos p) < F.rnd (sixPos q) := by
  obtain ⟨m, a, h1, h2, h3, -⟩ := sixPos_form hp
  obtain ⟨n, b, h4, h5, h6, -⟩ := sixPos_form hq
  have hgap := six_gap h3 h2 h5 h6 (by rw [← h1, ← h4]; exact h)
  rw [← h1, ← h4] at hgap
  have e1 := abs_le.1 (hF.err (sixPos p))
  have e2 := abs_le.1 (hF.err (sixPos q))
  have pp := sixPos_pos hp
  have pq := sixPos_pos hq
  rw [abs_of_pos pp] at e1
  rw [abs_of_pos pq] at e2
  have : sixPos p / 2 ^ 53 + sixPos q / 2 ^ 53 < sixPos q / 10 ^ 6 := by
    rw [← add_div, div_lt_div_iff₀ (by norm_num) (by norm_num)]
    nlinarith
  linarith [e1.2, e2.1]

/-- Positions in order stay in order when written with six digits and read back, and stay
different if they differ at six digits. -/
theorem rnd_six_lt {F : Fl} (hF : F.Lawful) {p q : ℚ} (hpq : p ≤ q) (hne : six p ≠ six q) :
    F.rnd (six p) < F.rnd (six q) := by
  unfold six at hne ⊢
  rcases lt_trichotomy p 0 with hp | hp | hp <;> rcases lt_trichotomy q 0 with hq | hq | hq
  · rw [if_neg hp.ne, if_pos hp, if_neg hq.ne, if_pos hq] at *
    have hle : sixPos (-q) ≤ sixPos (-p) := sixPos_mono (by linarith) (by linarith)
    have hlt : sixPos (-q) < sixPos (-p) := lt_of_le_of_ne hle (fun h => hne (by rw [h]))
    rw [hF.neg, hF.neg]
    exact neg_lt_neg (rnd_sixPos_lt hF (by linarith) (by linarith) hlt)
  · subst hq
    rw [if_neg hp.ne, if_pos hp, if_pos rfl, hF.neg, hF.zero]
    have := hF.pos (sixPos_pos (show 0 < -p by linarith)); linarith
  · rw [if_neg hp.ne, if_pos hp, if_neg hq.ne', if_neg (by linarith), hF.neg]
    have h1 := hF.pos (sixPos_pos (show 0 < -p by linarith))
    have h2 := hF.pos (sixPos_pos hq); linarith
  · linarith
  · subst hp; subst hq; simp at hne
  · subst hp
    rw [if_pos rfl, if_neg hq.ne', if_neg (by linarith), hF.zero]
    exact hF.pos (sixPos_pos hq)
  · linarith
  · linarith
  · rw [if_neg hp.ne', if_neg (by linarith), if_neg hq.ne', if_neg (by linarith)] at *
    exact rnd_sixPos_lt hF hp hq (lt_of_le_of_ne (sixPos_mono hp hpq) hne)

/-! ### Stability -/

/-- Anything within float rounding of a six-digit decimal is nearest to it. -/
theorem sixPos_near {m : ℕ} {e : ℤ} (h5 : 10 ^ 5 ≤ m) (h6 : m < 10 ^ 6) {y : ℚ}
    (hy : |y - m * (10:ℚ) ^ e| ≤ m * (10:ℚ) ^ e / 2 ^ 53) : sixPos y = m * (10:ℚ) ^ e := by
  have h10 : (10:ℚ) ≠ 0 := by norm_num
  have hpe := ten_zpow_pos e
  have m5 : (10:ℚ) ^ 5 ≤ m := by exact_mod_cast h5
  have m6 : (m:ℚ) + 1 ≤ 10 ^ 6 := by exact_mod_cast h6
  have hab := abs_le.1 hy
  have hlo : (m:ℚ) * (10:ℚ) ^ e * (1 - 1 / 2 ^ 53) ≤ y := by linarith [hab.1]
  have hhi : y ≤ (m:ℚ) * (10:ℚ) ^ e * (1 + 1 / 2 ^ 53) := by linarith [hab.2]
  have hy0 : 0 < y := lt_of_lt_of_le (by positivity) hlo
  obtain ⟨hl, hu⟩ := log10_bounds hy0
  set L := Int.log 10 y with hL
  have e4 : (10:ℚ) ^ (e + 4) = 10 ^ 4 * (10:ℚ) ^ e := by rw [zpow_add₀ h10]; norm_num; ring
  have e6 : (10:ℚ) ^ (e + 6) = 10 ^ 6 * (10:ℚ) ^ e := by rw [zpow_add₀ h10]; norm_num; ring
  have hL6 : L < e + 6 := by
    rw [← zpow_lt_zpow_iff_right₀ (by norm_num : (1:ℚ) < 10)]
    refine lt_of_le_of_lt (hl.trans hhi) ?_
    rw [e6]; nlinarith
  have hL4 : e + 4 < L + 1 := by
    rw [← zpow_lt_zpow_iff_right₀ (by norm_num : (1:ℚ) < 10)]
    refine lt_of_lt_of_le (lt_of_lt_of_le ?_ hlo) hu.le
    rw [e4]; nlinarith
  have hcase : L = e + 5 ∨ L = e + 4 := by omega
  have key : ∀ k : ℕ, k = 1 ∨ k = 10 → |y * ((10:ℚ) ^ (-e) * k) - ((m * k : ℕ) : ℤ)| < 1 / 2 := by
    intro k hk
    have hinv : (10:ℚ) ^ e * (10:ℚ) ^ (-e) = 1 := by rw [← zpow_add₀ h10]; simp
    have : y * ((10:ℚ) ^ (-e) * k) - ((m * k : ℕ) : ℤ) = (y - m * (10:ℚ) ^ e) * ((10:ℚ) ^ (-e) * k) := by
      push_cast
      linear_combination ((m:ℚ) * k) * hinv
    rw [this, abs_mul]
    have hk' : (k:ℚ) ≤ 10 := by rcases hk with rfl | rfl <;> norm_num
    have hpos : 0 ≤ (10:ℚ) ^ (-e) * k := mul_nonneg (ten_zpow_pos _).le (Nat.cast_nonneg k)
    rw [abs_of_nonneg hpos]
    refine lt_of_le_of_lt (mul_le_mul_of_nonneg_right hy hpos) ?_
    have : (m:ℚ) * (10:ℚ) ^ e / 2 ^ 53 * ((10:ℚ) ^ (-e) * k) = m * k / 2 ^ 53 := by
      linear_combination ((m:ℚ) * k / 2 ^ 53) * hinv
    rw [this, div_lt_iff₀ (by norm_num)]
    have hk0 : (0:ℚ) ≤ k := Nat.cast_nonneg k
    nlinarith
  rcases hcase with h | h
  · rw [sixPos, ← hL, h, show (5:ℤ) - (e + 5) = -e by ring, show e + 5 - 5 = e by ring]
    have := key 1 (.inl rfl)
    rw [Nat.cast_one, mul_one, mul_one] at this
    rw [rhe_unique (n := ((m:ℕ):ℤ)) (by rw [abs_sub_comm]; exact this)]
    push_cast; rfl
  · rw [sixPos, ← hL, h, show (5:ℤ) - (e + 4) = -e + 1 by ring, show e + 4 - 5 = e + -1 by ring,
      zpow_add₀ h10 (-e) 1, zpow_one]
    have := key 10 (.inr rfl)
    rw [Nat.cast_ofNat] at this
    rw [rhe_unique (n := ((m * 10 : ℕ):ℤ)) (by rw [abs_sub_comm]; exact this), zpow_add₀ h10]
    push_cast
    norm_num
    ring

/-- Written with six digits, read back and written again: the same digits. -/
theorem six_rnd_six {F : Fl} (hF : F.Lawful) (q : ℚ) : six (F.rnd (six q)) = six q := by
  have pos : ∀ q : ℚ, 0 < q → sixPos (F.rnd (sixPos q)) = sixPos q ∧ 0 < F.rnd (sixPos q) := by
    intro q hq
    obtain ⟨m, e, h, h5, h6, -⟩ := sixPos_form hq
    refine ⟨?_, hF.pos (sixPos_pos hq)⟩
    have := hF.err (sixPos q)
    rw [abs_of_pos (sixPos_pos hq)] at this
    rw [h] at this ⊢
    exact sixPos_near h5 h6 this
  rcases lt_trichotomy q 0 with hq | hq | hq
  · have h := pos (-q) (by linarith)
    have e : six q = -sixPos (-q) := by rw [six, if_neg hq.ne, if_pos hq]
    have hneg : F.rnd (six q) < 0 := by rw [e, hF.neg]; linarith [h.2]
    rw [six, if_neg hneg.ne, if_pos hneg, e, hF.neg, neg_neg, h.1]
  · subst hq
    have : six 0 = 0 := rfl
    rw [this, hF.zero, this]
  · have h := pos q hq
    have e : six q = sixPos q := by rw [six, if_neg hq.ne', if_neg (by linarith)]
    rw [e, six, if_neg h.2.ne', if_neg (by linarith [h.2]), h.1]
end Sang
