import Verif.Lemmas.NumText

/-! `'%g'` on small whole numbers, and `float(str(x)) = x`. -/

namespace Sang

theorem ten_zpow_pos (e : ℤ) : (0:ℚ) < (10:ℚ) ^ e := zpow_pos (by norm_num) e

theorem log10_bounds {q : ℚ} (h : 0 < q) :
    (10:ℚ) ^ (Int.log 10 q) ≤ q ∧ q < (10:ℚ) ^ (Int.log 10 q + 1) := by
  constructor
  · have := Int.zpow_log_le_self (b := 10) (r := q) (by norm_num) h
    exact_mod_cast this
  · have := Int.lt_zpow_succ_log_self (b := 10) (by norm_num) q
    exact_mod_cast this

/-- The value `sigDigits` stands for. -/
theorem sigDigits_val (n : ℕ) (hn : 1 ≤ n) {q : ℚ} (hq : 0 < q) :
    ((sigDigits n q).1 : ℚ) * (10:ℚ) ^ ((sigDigits n q).2 - ((n:ℤ) - 1)) =
      (rhe (q * (10:ℚ) ^ ((n:ℤ) - 1 - Int.log 10 q)) : ℚ) *
        (10:ℚ) ^ (Int.log 10 q - ((n:ℤ) - 1)) := by
  have hnn : 0 ≤ rhe (q * (10:ℚ) ^ ((n:ℤ) - 1 - Int.log 10 q)) :=
    rhe_nonneg (mul_nonneg hq.le (ten_zpow_pos _).le)
  have hc : ((rhe (q * (10:ℚ) ^ ((n:ℤ) - 1 - Int.log 10 q))).toNat : ℚ) =
      (rhe (q * (10:ℚ) ^ ((n:ℤ) - 1 - Int.log 10 q)) : ℚ) := by
    have := Int.toNat_of_nonneg hnn
    exact_mod_cast this
  simp only [sigDigits]
  split
  · rename_i h
    rw [← hc, h]
    push_cast
    rw [← zpow_natCast, ← zpow_natCast, ← zpow_add₀ (by norm_num), ← zpow_add₀ (by norm_num)]
    congr 1
    push_cast [Nat.cast_sub hn]; ring
  · rw [hc]

theorem sigDigits_err (n : ℕ) (hn : 1 ≤ n) {q : ℚ} (hq : 0 < q) :
    |((sigDigits n q).1 : ℚ) * (10:ℚ) ^ ((sigDigits n q).2 - ((n:ℤ) - 1)) - q| ≤
      q / (2 * 10 ^ (n - 1)) := by
  rw [sigDigits_val n hn hq]
  set e := Int.log 10 q
  have hb := (log10_bounds hq).1
  have hp := ten_zpow_pos (e - ((n:ℤ) - 1))
  have h1 := rhe_err (q * (10:ℚ) ^ ((n:ℤ) - 1 - e))
  have hinv : (10:ℚ) ^ ((n:ℤ) - 1 - e) * (10:ℚ) ^ (e - ((n:ℤ) - 1)) = 1 := by
    rw [← zpow_add₀ (by norm_num)]; ring_nf; simp
  have e1 : (rhe (q * (10:ℚ) ^ ((n:ℤ) - 1 - e)) : ℚ) * (10:ℚ) ^ (e - ((n:ℤ) - 1)) - q =
      ((rhe (q * (10:ℚ) ^ ((n:ℤ) - 1 - e)) : ℚ) - q * (10:ℚ) ^ ((n:ℤ) - 1 - e)) *
        (10:ℚ) ^ (e - ((n:ℤ) - 1)) := by
    rw [sub_mul, mul_assoc q, hinv, mul_one]
  rw [e1, abs_mul, abs_of_pos hp]
  have e2 : (10:ℚ) ^ (e - ((n:ℤ) - 1)) = (10:ℚ) ^ e / 10 ^ (n - 1) := by
    rw [zpow_sub₀ (by norm_num), ← zpow_natCast]
    congr 2
    push_cast [Nat.cast_sub hn]; ring
  calc _ ≤ 1/2 * (10:ℚ) ^ (e - ((n:ℤ) - 1)) := by gcongr
    _ = (10:ℚ) ^ e / (2 * 10 ^ (n - 1)) := by rw [e2]; field_simp
    _ ≤ _ := by gcongr

/-- Seventeen digits always suffice. -/
theorem seventeen {F : Fl} (hF : F.Lawful) {q : ℚ} (hq : 0 < q) (hr : F.rep q) :
    F.rnd (((sigDigits 17 q).1 : ℚ) * (10:ℚ) ^ ((sigDigits 17 q).2 - (((17:ℕ):ℤ) - 1))) = q := by
  have h1 := sigDigits_err 17 (by norm_num) hq
  set v := ((sigDigits 17 q).1 : ℚ) * (10:ℚ) ^ ((sigDigits 17 q).2 - (((17:ℕ):ℤ) - 1))
  by_contra hne
  have h2 := hF.nearest v q hr
  have h3 := hF.spacing q (F.rnd v) hr (hF.idem v) (Ne.symm hne)
  rw [abs_of_pos hq] at h3
  have h4 : |q - F.rnd v| ≤ |q - v| + |F.rnd v - v| := by
    have := abs_sub_le q v (F.rnd v)
    rwa [abs_sub_comm v] at this
  rw [abs_sub_comm v q] at h1
  norm_num at h1 h3
  have : q / 9007199254740992 ≤ q / 10000000000000000 := by linarith
  rw [div_le_div_iff₀ (by norm_num) (by norm_num)] at this
  linarith

theorem shortest_spec {F : Fl} (q : ℚ) (f n : ℕ) (hn : 1 ≤ n)
    (h : F.rnd (((sigDigits (n + f) q).1 : ℚ) *
      (10:ℚ) ^ ((sigDigits (n + f) q).2 - (((n + f : ℕ):ℤ) - 1))) = q) :
    1 ≤ shortest F q f n ∧
    F.rnd (((sigDigits (shortest F q f n) q).1 : ℚ) *
      (10:ℚ) ^ ((sigDigits (shortest F q f n) q).2 - (((shortest F q f n : ℕ):ℤ) - 1))) = q := by
  induction f generalizing n with
  | zero => exact ⟨hn, h⟩
  | succ f ih =>
    simp only [shortest]
    split
    · rename_i h'; exact ⟨hn, h'⟩
    · apply ih (n + 1) (by omega)
      rwa [show n + 1 + f = n + (f + 1) by ring]

theorem fixedNN_exact_val {p m : ℕ} {v : ℚ} (hv : v * 10 ^ p = m) :
    (rhe (v * 10 ^ p)).toNat = m := by
  rw [hv, rhe_nat]; simp

theorem parse_exp {neg eneg : Bool} {s w f es ed : Str}
    (hs : takeSign s = (neg, w ++ '.' :: (f ++ 'e' :: es)))
    (hw : ∀ c ∈ w, isDig c = true) (hf : ∀ c ∈ f, isDig c = true) (hne : w ≠ [])
    (he : takeSign es = (eneg, ed)) (hed : ∀ c ∈ ed, isDig c = true) (hedne : ed ≠ []) :
    parseNumeral s = some ⟨neg, w, f, if eneg then -(natVal ed : ℤ) else natVal ed⟩ := by
  have h1 := takeWhile_append_cons (c := '.') (r := f ++ 'e' :: es) hw (by decide)
  have h2 := takeWhile_append_cons (c := 'e') (r := es) hf (by decide)
  have hall : ed.all isDig = true := by rw [List.all_eq_true]; exact hed
  simp only [parseNumeral, hs, h1.1, h1.2, h2.1, h2.2, hne, false_and, if_false, parseExp,
    true_or, if_true, he, hedne, ne_eq, not_false_eq_true, hall, and_self]
  rfl

theorem parse_exp0 {neg eneg : Bool} {s w es ed : Str}
    (hs : takeSign s = (neg, w ++ 'e' :: es))
    (hw : ∀ c ∈ w, isDig c = true) (hne : w ≠ [])
    (he : takeSign es = (eneg, ed)) (hed : ∀ c ∈ ed, isDig c = true) (hedne : ed ≠ []) :
    parseNumeral s = some ⟨neg, w, [], if eneg then -(natVal ed : ℤ) else natVal ed⟩ := by
  have h1 := takeWhile_append_cons (c := 'e') (r := es) hw (by decide)
  have hall : ed.all isDig = true := by rw [List.all_eq_true]; exact hed
  simp only [parseNumeral, hs, h1.1, h1.2, hne, if_false, parseExp,
    true_or, if_true, he, hedne, ne_eq, not_false_eq_true, hall, and_self]
  rfl

theorem expStr_sign (e : ℤ) : ∃ ed : Str, takeSign (expStr e) = (decide (e < 0), ed) ∧
    (∀ c ∈ ed, isDig c = true) ∧ ed ≠ [] ∧ natVal ed = e.natAbs := by
  refine ⟨if e.natAbs < 10 then '0' :: natStr e.natAbs else natStr e.natAbs, ?_, ?_, ?_, ?_⟩
  · simp only [expStr]
    by_cases h : e < 0
    · simp only [h, if_true, decide_true]; rfl
    · simp only [h, if_false, decide_false]; rfl
  · intro c hc
    split at hc
    · rcases List.mem_cons.1 hc with rfl | hc
      · rfl
      · exact natStr_digits _ c hc
    · exact natStr_digits _ c hc
  · split
    · simp
    · exact natStr_ne_nil _
  · split
    · rw [natVal_cons, natVal_natStr]; simp [digV]
    · exact natVal_natStr _

theorem expStr_numCh (e : ℤ) : ∀ c ∈ expStr e, numCh c = true := by
  intro c hc
  simp only [expStr, List.mem_cons] at hc
  rcases hc with rfl | hc
  · split <;> rfl
  · split at hc
    · rcases List.mem_cons.1 hc with rfl | hc
      · rfl
      · exact numCh_of_isDig (natStr_digits _ c hc)
    · exact numCh_of_isDig (natStr_digits _ c hc)

theorem exp_val (e : ℤ) : (if decide (e < 0) = true then -((e.natAbs : ℕ) : ℤ) else (e.natAbs : ℤ)) = e := by
  by_cases h : e < 0
  · simp only [h, decide_true, if_true]; omega
  · simp only [h, decide_false, Bool.false_eq_true, if_false]; omega

/-- The text of `reprPos` denotes a number that rounds to `q`, with or without a sign in
front. -/
theorem reprPos_parse {F : Fl} (hF : F.Lawful) {q : ℚ} (hq : 0 < q) (hr : F.rep q)
    (neg : Bool) (s : Str) (hs : takeSign s = (neg, reprPos F q)) :
    ∃ n : Numeral, parseNumeral s = some n ∧ ∃ v : ℚ, F.rnd v = q ∧
      n.val = (if neg then -1 else 1) * v := by
  have hsh := shortest_spec (F := F) q 16 1 (le_refl _) (seventeen hF hq hr)
  simp only [reprPos] at hs
  set n := shortest F q 16 1 with hn
  obtain ⟨hn1, hv⟩ := hsh
  set m := (sigDigits n q).1 with hm
  set e := (sigDigits n q).2 with he
  set v : ℚ := (m:ℚ) * (10:ℚ) ^ (e - ((n:ℤ) - 1)) with hvdef
  split at hs
  · rename_i hrange
    split at hs
    · -- whole number
      rename_i hp0
      have hle : (n:ℤ) - 1 - e ≤ 0 := Int.toNat_eq_zero.1 hp0
      obtain ⟨k, hk⟩ := Int.eq_ofNat_of_zero_le (show 0 ≤ e - ((n:ℤ) - 1) by omega)
      have hvint : v = ((m * 10 ^ k : ℕ) : ℚ) := by
        rw [hvdef, hk]; push_cast; simp
      have hrv : (rhe v).toNat = m * 10 ^ k := by rw [hvint, rhe_nat, Int.toNat_natCast]
      rw [hrv, show ".0".toList = '.' :: ['0'] from rfl] at hs
      refine ⟨_, parse_fixed hs (natStr_digits _) (by decide) (natStr_ne_nil _), v, hv, ?_⟩
      simp only [Numeral.val, natVal_append, natVal_natStr, hvint]
      simp [natVal, digV]
    · rename_i hp0
      set p := ((n:ℤ) - 1 - e).toNat with hpdef
      have hpz : (p:ℤ) = (n:ℤ) - 1 - e := by omega
      have hvp : v * 10 ^ p = m := by
        rw [hvdef, mul_assoc, ← zpow_natCast, ← zpow_add₀ (by norm_num), hpz]
        ring_nf; simp
      obtain ⟨nu, h1, h2⟩ := fixedNN_parse p hp0 v neg s hs
      refine ⟨nu, h1, v, hv, ?_⟩
      rw [h2, fixedNN_exact_val hvp, ← hvp, mul_div_assoc, mul_div_assoc, div_self (by positivity), mul_one]
  · obtain ⟨ed, h1, h2, h3, h4⟩ := expStr_sign e
    split at hs
    · rename_i hn1'
      refine ⟨_, parse_exp0 hs (natStr_digits _) (natStr_ne_nil _) h1 h2 h3, v, hv, ?_⟩
      rw [h4, exp_val]
      simp only [Numeral.val, List.append_nil, natVal_natStr, List.length_nil, hvdef, hn1']
      norm_num
    · rename_i hn1'
      have hk : n - 1 ≠ 0 := by omega
      have hvp : ((m:ℚ) / 10 ^ (n - 1)) * 10 ^ (n - 1) = m := div_mul_cancel₀ _ (by positivity)
      have hs' := hs
      simp only [fixedNN, if_neg hk, fixedNN_exact_val hvp] at hs'
      rw [List.append_assoc, List.cons_append] at hs'
      refine ⟨_, parse_exp hs' (natStr_digits _) (fracStr_digits _ _) (natStr_ne_nil _) h1 h2 h3,
        v, hv, ?_⟩
      rw [h4, exp_val]
      simp only [Numeral.val, natVal_append, natVal_natStr, natVal_fracStr, fracStr_length,
        Nat.mod_mod, Nat.div_add_mod', hvdef]
      push_cast [Nat.cast_sub hn1]
      cases neg <;> simp

theorem reprPos_numCh (F : Fl) (q : ℚ) : ∀ c ∈ reprPos F q, numCh c = true := by
  intro c hc
  simp only [reprPos] at hc
  split at hc
  · split at hc
    · rcases List.mem_append.1 hc with hc | hc
      · exact numCh_of_isDig (natStr_digits _ c hc)
      · clear * - hc
        revert c; decide
    · exact fixedNN_numCh _ _ c hc
  · rcases List.mem_append.1 hc with hc | hc
    · split at hc
      · exact numCh_of_isDig (natStr_digits _ c hc)
      · exact fixedNN_numCh _ _ c hc
    · rcases List.mem_cons.1 hc with rfl | hc
      · rfl
      · exact expStr_numCh _ c hc

theorem reprPos_takeSign (F : Fl) (q : ℚ) : takeSign (reprPos F q) = (false, reprPos F q) := by
  have key : ∃ w t : Str, reprPos F q = w ++ t ∧ (∀ c ∈ w, isDig c = true) ∧ w ≠ [] := by
    simp only [reprPos]
    split
    · split
      · exact ⟨_, _, rfl, natStr_digits _, natStr_ne_nil _⟩
      · exact ⟨_, _, rfl, natStr_digits _, natStr_ne_nil _⟩
    · split
      · exact ⟨_, _, rfl, natStr_digits _, natStr_ne_nil _⟩
      · simp only [fixedNN, List.append_assoc]
        exact ⟨_, _, rfl, natStr_digits _, natStr_ne_nil _⟩
  obtain ⟨w, t, h, hw, hne⟩ := key
  rw [h]; exact digits_append_takeSign hw hne

/-- `float(str(x)) == x` for every float `x`. -/
theorem pyFloat_reprF {F : Fl} (hF : F.Lawful) {q : ℚ} (hr : F.rep q) :
    pyFloat F (reprF F q) = .ok q := by
  unfold reprF
  split
  · rename_i h0
    subst h0
    rw [pyFloat_plain F (by decide), parse_fixed (neg := false) (w := ['0']) (f := ['0']) rfl
      (by decide) (by decide) (by decide)]
    simp [Numeral.val, natVal, digV, hF.zero]
  · rename_i h0
    split
    · rename_i hneg
      have hr' : F.rep (-q) := by rw [Fl.rep, hF.neg, hr]
      obtain ⟨n, h1, v, h2, h3⟩ := reprPos_parse hF (q := -q) (by linarith) hr' true
        ('-' :: reprPos F (-q)) rfl
      rw [pyFloat_plain, h1]
      · simp only [h3, if_true]
        rw [neg_one_mul, hF.neg, h2, neg_neg]
      · intro c hc
        rcases List.mem_cons.1 hc with rfl | hc
        · rfl
        · exact reprPos_numCh _ _ c hc
    · rename_i hneg
      have hq : 0 < q := lt_of_le_of_ne (not_lt.1 hneg) (Ne.symm h0)
      obtain ⟨n, h1, v, h2, h3⟩ := reprPos_parse hF hq hr false _ (reprPos_takeSign F q)
      rw [pyFloat_plain F (reprPos_numCh F q), h1]
      simp only [h3, Bool.false_eq_true, if_false, one_mul, h2]

/-! ### `'%g'` on whole numbers below a million -/

theorem stripZeros_whole (w : Str) (k : ℕ) :
    stripZeros (w ++ '.' :: List.replicate k '0') = w := by
  have : (w ++ '.' :: List.replicate k '0').reverse = List.replicate k '0' ++ '.' :: w.reverse := by
    simp
  simp only [stripZeros, this]
  have h2 : (List.replicate k '0' ++ '.' :: w.reverse).dropWhile (· == '0') = '.' :: w.reverse := by
    induction k with
    | zero => simp
    | succ k ih =>
      rw [List.replicate_succ, List.cons_append, List.dropWhile_cons_of_pos (by rfl)]
      apply ih
      simp
  rw [h2]; simp

theorem fixedNN_whole (p n : ℕ) (hp : p ≠ 0) :
    fixedNN p (n : ℚ) = natStr n ++ '.' :: List.replicate p '0' := by
  have h : (rhe ((n:ℚ) * 10 ^ p)).toNat = n * 10 ^ p :=
    fixedNN_exact_val (m := n * 10 ^ p) (by push_cast; rfl)
  simp only [fixedNN, h, if_neg hp]
  rw [Nat.mul_div_cancel _ (by positivity), Nat.mul_mod_left, fracStr_zero]

/-- `'%g' % n` is `str(n)` for whole numbers below a million. -/
theorem fmtG_nat {n : ℕ} (h : n < 10 ^ 6) : fmtG n = natStr n := by
  by_cases h0 : n = 0
  · subst h0; rfl
  have hpos : (0:ℚ) < n := by positivity
  have hb := log10_bounds hpos
  rw [fmtG, if_neg hpos.ne', if_neg (not_lt.2 hpos.le)]
  set e := Int.log 10 (n:ℚ) with he
  have he0 : 0 ≤ e := by
    by_contra hc
    have h1 : (10:ℚ) ^ (e + 1) ≤ 10 ^ (0:ℤ) := zpow_le_zpow_right₀ (by norm_num) (by omega)
    have h2 : (1:ℚ) ≤ n := by exact_mod_cast Nat.one_le_iff_ne_zero.2 h0
    rw [zpow_zero] at h1; linarith [hb.2]
  have he5 : e ≤ 5 := by
    by_contra hc
    have h1 : (10:ℚ) ^ (6:ℤ) ≤ 10 ^ e := zpow_le_zpow_right₀ (by norm_num) (by omega)
    have h2 : (n:ℚ) < 10 ^ (6:ℕ) := by exact_mod_cast h
    rw [show (10:ℚ) ^ (6:ℤ) = 10 ^ (6:ℕ) from rfl] at h1; linarith [hb.1]
  obtain ⟨k, hk⟩ := Int.eq_ofNat_of_zero_le (show 0 ≤ 5 - e by omega)
  have hm : rhe ((n:ℚ) * (10:ℚ) ^ (((6:ℕ):ℤ) - 1 - e)) = ((n * 10 ^ k : ℕ) : ℤ) := by
    rw [show ((6:ℕ):ℤ) - 1 - e = k by push_cast; omega, zpow_natCast]
    rw [← rhe_nat]; push_cast; rfl
  have hlt : n * 10 ^ k ≠ 10 ^ 6 := by
    have h1 : (n:ℚ) * 10 ^ k < 10 ^ 6 := by
      have : (10:ℚ) ^ (e + 1) * 10 ^ k = 10 ^ 6 := by
        rw [← zpow_natCast, ← zpow_add₀ (by norm_num), show e + 1 + (k:ℤ) = ((6:ℕ):ℤ) by push_cast; omega,
          zpow_natCast]
      rw [← this]
      exact mul_lt_mul_of_pos_right hb.2 (by positivity)
    have h2 : n * 10 ^ k < 10 ^ 6 := by exact_mod_cast h1
    exact h2.ne
  have hsig : sigDigits 6 (n:ℚ) = (n * 10 ^ k, e) := by
    simp only [sigDigits]
    rw [← he, hm, Int.toNat_natCast, if_neg hlt]
  have hv : ((n * 10 ^ k : ℕ):ℚ) * (10:ℚ) ^ (e - (((6:ℕ):ℤ) - 1)) = n := by
    push_cast
    rw [mul_assoc, ← zpow_natCast, ← zpow_add₀ (by norm_num), show (k:ℤ) + (e - 5) = 0 by omega]
    simp
  simp only [gPos, hsig]
  rw [if_pos ⟨by omega, by push_cast; omega⟩, hv,
    show (((6:ℕ):ℤ) - 1 - e).toNat = k by push_cast; omega]
  by_cases hk0 : k = 0
  · rw [if_pos hk0]; simp [fixedNN]
  · rw [if_neg hk0, fixedNN_whole _ _ hk0, stripZeros_whole]

end Sang
