import Verif.Lemmas.Repr
import Verif.Lemmas.TStr

/-! Number-text lemmas for the value classes. -/

namespace Sang

/-- Near a whole number, on either side, ties included if it is even. -/
theorem rhe_tie_even {q : ℚ} {m : ℤ} (h : |q - m| ≤ 1/2) (he : |q - m| = 1/2 → m % 2 = 0) :
    rhe q = m := by
  rcases lt_or_eq_of_le h with h1 | h1
  · apply rhe_unique; rwa [abs_sub_comm]
  · have hm := he h1
    rcases abs_cases (q - m) with ⟨h2, _⟩ | ⟨h2, _⟩
    · have hq : q = m + 1/2 := by linarith
      have hf : ⌊q⌋ = m := by rw [Int.floor_eq_iff]; constructor <;> rw [hq] <;> linarith
      have h3 : q - ⌊q⌋ = 1/2 := by rw [hf]; linarith
      rw [hf] at h3; simp only [rhe, hf, h3]; norm_num [hm]
    · have hq : q = m - 1/2 := by linarith
      have hf : ⌊q⌋ = m - 1 := by
        rw [Int.floor_eq_iff]; push_cast; constructor <;> rw [hq] <;> linarith
      have h3 : q - ⌊q⌋ = 1/2 := by rw [hf]; push_cast; linarith
      have : ¬ (m - 1) % 2 = 0 := by omega
      rw [hf] at h3; simp only [rhe, hf, h3]; norm_num [this]

/-- A tie is rounded to an even number. -/
theorem rhe_even_of_tie {q : ℚ} (h : |q - rhe q| = 1/2) : rhe q % 2 = 0 := by
  have h1 := Int.floor_le q
  have h2 := Int.lt_floor_add_one q
  by_cases ha : q - ⌊q⌋ < 1/2
  · have hr : rhe q = ⌊q⌋ := by simp only [rhe, if_pos ha]
    rw [hr, abs_of_nonneg (by linarith)] at h; linarith
  · by_cases hb : 1/2 < q - ⌊q⌋
    · have hr : rhe q = ⌊q⌋ + 1 := by simp only [rhe, if_neg ha, if_pos hb]
      rw [hr] at h; push_cast at h
      rw [abs_of_nonpos (by linarith)] at h; linarith
    · simp only [rhe, if_neg ha, if_neg hb]
      split
      · assumption
      · omega

/-- Formatting what was read back gives the same text, whatever the size: the float read back is
at least as near to the decimal as the float that was written. -/
theorem fixed_stable_rep {F : Fl} (hF : F.Lawful) (k : ℕ) {q : ℚ} (hq : F.rep q) :
    rhe (F.rnd (dec k q) * 10 ^ k) = rhe (q * 10 ^ k) := by
  have hp : (0:ℚ) < 10 ^ k := by positivity
  have h1 := hF.nearest (dec k q) q hq
  have e1 : ∀ x : ℚ, |x - dec k q| * 10 ^ k = |x * 10 ^ k - rhe (q * 10 ^ k)| := by
    intro x
    rw [← abs_of_pos hp, ← abs_mul, abs_of_pos hp, sub_mul, dec, div_mul_cancel₀ _ hp.ne']
  have h2 : |F.rnd (dec k q) * 10 ^ k - rhe (q * 10 ^ k)| ≤ |q * 10 ^ k - rhe (q * 10 ^ k)| := by
    rw [← e1, ← e1]; gcongr
  have h3 := rhe_err (q * 10 ^ k)
  rw [abs_sub_comm] at h3
  apply rhe_tie_even (h2.trans h3)
  intro h
  apply rhe_even_of_tie
  linarith

theorem dec_stable_rep {F : Fl} (hF : F.Lawful) (k : ℕ) {q : ℚ} (hq : F.rep q) :
    dec k (F.rnd (dec k q)) = dec k q := by
  have h := fixed_stable_rep hF k hq
  rw [show dec k (F.rnd (dec k q)) = (rhe (F.rnd (dec k q) * 10 ^ k) : ℚ) / 10 ^ k from rfl, h]; rfl

theorem dec_nonneg (k : ℕ) {q : ℚ} (hq : 0 ≤ q) : 0 ≤ dec k q := by
  have : 0 ≤ rhe (q * 10 ^ k) := rhe_nonneg (by positivity)
  have h2 : (0:ℚ) ≤ rhe (q * 10 ^ k) := by exact_mod_cast this
  exact div_nonneg h2 (by positivity)

theorem fixedNN_congr {k : ℕ} {p q : ℚ} (h : rhe (p * 10 ^ k) = rhe (q * 10 ^ k)) :
    fixedNN k p = fixedNN k q := by simp only [fixedNN, h]

/-- The text itself is stable; except that the model has no negative zero. -/
theorem fixed_text_stable {F : Fl} (hF : F.Lawful) (k : ℕ) {q : ℚ} (hq : F.rep q)
    (h0 : 0 ≤ q ∨ F.rnd (dec k q) ≠ 0) : fixed k (F.rnd (dec k q)) = fixed k q := by
  by_cases hn : q < 0
  · have hd : F.rnd (dec k q) < 0 := by
      have h1 : 0 ≤ dec k (-q) := dec_nonneg k (by linarith)
      have h2 := hF.nonneg h1
      rw [dec_neg, hF.neg] at h2
      rcases h0 with h0 | h0
      · linarith
      · exact lt_of_le_of_ne (by linarith) h0
    rw [fixed, fixed, if_pos hd, if_pos hn]
    congr 1
    apply fixedNN_congr
    rw [neg_mul, neg_mul, rhe_neg, rhe_neg, fixed_stable_rep hF k hq]
  · have hd : ¬ F.rnd (dec k q) < 0 := not_lt.2 (hF.nonneg (dec_nonneg k (not_lt.1 hn)))
    rw [fixed, fixed, if_neg hd, if_neg hn]
    exact fixedNN_congr (fixed_stable_rep hF k hq)

/-- How far off reading back `'%.kf' % q` is. -/
theorem fixed_read_err {F : Fl} (hF : F.Lawful) (k : ℕ) (q : ℚ) :
    |F.rnd (dec k q) - q| ≤ 1 / (2 * 10 ^ k) + (|q| + 1 / (2 * 10 ^ k)) / 2 ^ 53 := by
  have h1 := hF.err (dec k q)
  have h2 := dec_err k q
  have h3 : |dec k q| ≤ |q| + 1 / (2 * 10 ^ k) := by
    calc |dec k q| = |q + (dec k q - q)| := by ring_nf
      _ ≤ |q| + |dec k q - q| := abs_add_le _ _
      _ ≤ _ := by linarith
  calc |F.rnd (dec k q) - q| = |(F.rnd (dec k q) - dec k q) + (dec k q - q)| := by ring_nf
    _ ≤ |F.rnd (dec k q) - dec k q| + |dec k q - q| := abs_add_le _ _
    _ ≤ |dec k q| / 2 ^ 53 + 1 / (2 * 10 ^ k) := by linarith
    _ ≤ (|q| + 1 / (2 * 10 ^ k)) / 2 ^ 53 + 1 / (2 * 10 ^ k) := by gcongr
    _ = _ := by ring

end Sang

/-! ### `'%g'` from a million up -/

namespace Sang

theorem stripZeros_mem {s : Str} {c : Char} (h : c ∈ stripZeros s) : c ∈ s := by
  simp only [stripZeros] at h
  rw [List.mem_reverse] at h
  have key : ∀ x ∈ s.reverse.dropWhile (· == '0'), x ∈ s := fun x hx =>
    List.mem_reverse.1 ((List.dropWhile_sublist _).subset hx)
  split at h
  · rename_i r' heq
    exact key c (by rw [heq]; simp [h])
  · exact key c h

theorem fixedNN_numDot (k : ℕ) (q : ℚ) : ∀ c ∈ fixedNN k q, isNumDot c = true := by
  intro c hc
  simp only [fixedNN, List.mem_append] at hc
  rcases hc with hc | hc
  · simp [isNumDot, natStr_digits _ c hc]
  · split at hc
    · simp at hc
    · simp only [List.mem_cons] at hc
      rcases hc with rfl | hc
      · rfl
      · simp [isNumDot, fracStr_digits _ _ c hc]

/-- From a million up, `%g` uses an exponent. -/
theorem fmtG_big {q : ℚ} (h : 10 ^ 6 ≤ q) : ∃ m ds : Str, fmtG q = m ++ 'e' :: '+' :: ds ∧
    (∀ c ∈ m, isNumDot c = true) ∧ (∀ c ∈ ds, isDig c = true) ∧ ds ≠ [] := by
  have hq : 0 < q := lt_of_lt_of_le (by norm_num) h
  have hb := log10_bounds hq
  have he : 6 ≤ Int.log 10 q := by
    by_contra hc
    have h1 : (10:ℚ) ^ (Int.log 10 q + 1) ≤ 10 ^ (6:ℤ) :=
      zpow_le_zpow_right₀ (by norm_num) (by omega)
    rw [show (10:ℚ) ^ (6:ℤ) = 10 ^ (6:ℕ) from rfl] at h1
    linarith [hb.2]
  have he2 : 6 ≤ (sigDigits 6 q).2 := by
    simp only [sigDigits]; split <;> simp only <;> omega
  rw [fmtG, if_neg hq.ne', if_neg (not_lt.2 hq.le)]
  simp only [gPos]
  rw [if_neg (by push_cast; omega)]
  have hx : ∃ ds : Str, expStr (sigDigits 6 q).2 = '+' :: ds ∧ (∀ c ∈ ds, isDig c = true) ∧ ds ≠ [] := by
    simp only [expStr]
    rw [if_neg (by omega)]
    split
    · refine ⟨_, rfl, ?_, by simp⟩
      intro c hc
      simp only [List.mem_cons] at hc
      rcases hc with rfl | hc
      · rfl
      · exact natStr_digits _ c hc
    · exact ⟨_, rfl, natStr_digits _, natStr_ne_nil _⟩
  obtain ⟨ds, e1, e2, e3⟩ := hx
  refine ⟨_, ds, by rw [e1], ?_, e2, e3⟩
  intro c hc
  exact fixedNN_numDot _ _ c (stripZeros_mem hc)

theorem dropWhile_append_stop {p : Char → Bool} {c : Char} (hc : p c = false) (m : Str) :
    (m ++ [c]).dropWhile p = m.dropWhile p ++ [c] ∧ (m ++ [c]).takeWhile p = m.takeWhile p := by
  induction m with
  | nil => simp [hc]
  | cons x m ih => by_cases h : p x = true <;> simp [h, ih]

theorem numDot_ne {c : Char} (h : isNumDot c = true) : c ≠ 'e' ∧ c ≠ 'E' ∧ c ≠ '-' ∧ c ≠ '+' ∧ c ≠ 'f' := by
  refine ⟨?_, ?_, ?_, ?_, ?_⟩ <;> (rintro rfl; exact absurd h (by decide))

theorem parseExp_bad {m : Str} (h : ∀ c ∈ m, isNumDot c = true) : parseExp (m ++ ['e']) = none := by
  cases m with
  | nil => rfl
  | cons c m =>
    have := numDot_ne (h c (by simp))
    simp [parseExp, this.1, this.2.1]

theorem pyFloat_bad_exp (F : Fl) {m : Str} (h : ∀ c ∈ m, isNumDot c = true) :
    pyFloat F (m ++ ['e']) = .error .value := by
  rw [pyFloat_plain]
  · have hs : takeSign (m ++ ['e']) = (false, m ++ ['e']) := by
      cases m with
      | nil => rfl
      | cons c m =>
        have := numDot_ne (h c (by simp))
        unfold takeSign
        split
        · rename_i heq; simp at heq; exact absurd heq.1 this.2.2.1
        · rename_i heq; simp at heq; exact absurd heq.1 this.2.2.2.1
        · rfl
    have hd := dropWhile_append_stop (p := isDig) (c := 'e') (by decide) m
    have hsub : ∀ c ∈ m.dropWhile isDig, isNumDot c = true := fun c hc =>
      h c ((List.dropWhile_sublist _).subset hc)
    have hnone : parseNumeral (m ++ ['e']) = none := by
      simp only [parseNumeral, hs, hd.1, hd.2]
      split
      · rename_i s2 heq
        split
        · rfl
        · have : ∃ t, s2 = t ++ ['e'] ∧ ∀ c ∈ t, isNumDot c = true := by
            cases hm : m.dropWhile isDig with
            | nil => rw [hm] at heq; simp at heq
            | cons a t =>
              rw [hm] at heq hsub
              simp only [List.cons_append, List.cons.injEq] at heq
              exact ⟨t, heq.2.symm, fun c hc => hsub c (by simp [hc])⟩
          obtain ⟨t, rfl, ht⟩ := this
          have hd2 := dropWhile_append_stop (p := isDig) (c := 'e') (by decide) t
          rw [hd2.1, parseExp_bad (fun c hc => ht c ((List.dropWhile_sublist _).subset hc))]
          rfl
      · split
        · rfl
        · rw [parseExp_bad hsub]; rfl
    rw [hnone]
  · intro c hc
    rw [List.mem_append] at hc
    rcases hc with hc | hc
    · exact numDot_numCh (h c hc)
    · simp only [List.mem_singleton] at hc; subst hc; rfl

theorem takeDash_numDot {c : Char} {r : Str} (h : c ≠ '-') : takeDash (c :: r) = (0, c :: r) := by
  rw [takeDash]; rintro t ht; simp at ht; exact h ht.1

theorem specSplit_to_e {m : Str} (h : ∀ c ∈ m, isNumDot c = true) (acc r : Str) :
    specSplit 0 acc (m ++ 'e' :: r) = specSplit 0 ('e' :: (m.reverse ++ acc)) r := by
  induction m generalizing acc with
  | nil =>
    have : matchLen ('e' :: r) = none := by
      simp [matchLen, takeDash_numDot (c := 'e') (r := r) (by decide), show isNumDot 'e' = false by decide]
    simp [specSplit, this]
  | cons c m ih =>
    have hm : matchLen (c :: (m ++ 'e' :: r)) = none := by
      have hc := numDot_ne (h c (by simp))
      have hrun := takeWhile_append_cons (p := isNumDot) (ds := c :: m) (c := 'e') (r := r) h (by decide)
      simp only [matchLen, takeDash_numDot (r := m ++ 'e' :: r) hc.2.2.1]
      rw [List.cons_append] at hrun
      rw [hrun.1, hrun.2]
      simp [show isUnit 'e' = false by decide]
    rw [List.cons_append, specSplit, hm]
    simp only
    rw [ih (fun x hx => h x (by simp [hx]))]
    simp

/-- A time from a million frames up, with no frame rate, is written in a way that can't be read
back. -/
theorem parseSpec_big (F : Fl) (fps : Option ℚ) {q : ℚ} (h : 10 ^ 6 ≤ q) :
    parseSpec F fps (fmtG q ++ ['f']) = .error .value := by
  obtain ⟨m, ds, he, hm, hd, hne⟩ := fmtG_big h
  rw [he]
  have hstrip : strip (m ++ 'e' :: '+' :: ds ++ ['f']) = m ++ 'e' :: '+' :: ds ++ ['f'] := by
    apply strip_noSpace
    intro c hc
    simp only [List.mem_append, List.mem_cons, List.not_mem_nil, or_false] at hc
    rcases hc with (hc | rfl | rfl | hc) | rfl
    · exact numCh_not_space (numDot_numCh (hm c hc))
    · rfl
    · rfl
    · exact isDig_not_space (hd c hc)
    · rfl
  have hplus : ∀ acc, specSplit 0 acc ('+' :: (ds ++ ['f'])) = specSplit 0 ('+' :: acc) (ds ++ ['f']) := by
    intro acc
    have : matchLen ('+' :: (ds ++ ['f'])) = none := by
      simp [matchLen, takeDash_numDot (c := '+') (r := ds ++ ['f']) (by decide),
        show isNumDot '+' = false by decide]
    simp [specSplit, this]
  have hpart : ds ++ ['f'] = ptext ⟨[], ⟨false, ds, []⟩, .f⟩ ++ [] := by
    simp [ptext, Spec.Amount.text, Spec.TimeUnit.char]
  have hsplit : specSplit 0 [] (m ++ 'e' :: '+' :: ds ++ ['f']) = [m ++ ['e', '+'], ds ++ ['f'], []] := by
    rw [show m ++ 'e' :: '+' :: ds ++ ['f'] = m ++ 'e' :: ('+' :: (ds ++ ['f'])) by simp,
      specSplit_to_e hm, hplus, hpart, specSplit_part (p := ⟨[], ⟨false, ds, []⟩, .f⟩) ⟨hne, hd, by simp⟩]
    simp [specSplit, ptext, Spec.Amount.text, Spec.TimeUnit.char]
  rw [parseSpec, hstrip, hsplit]
  have hadd : addPart F [] (m ++ ['e', '+']) = .error .value := by
    have h1 : strip (m ++ ['e', '+']) ≠ [] := by
      rw [strip_noSpace]
      · simp
      · intro c hc
        simp only [List.mem_append, List.mem_cons, List.not_mem_nil, or_false] at hc
        rcases hc with hc | rfl | rfl
        · exact numCh_not_space (numDot_numCh (hm c hc))
        · rfl
        · rfl
    have h2 : (m ++ ['e', '+']).getLast? = some '+' := by simp
    have h3 : (m ++ ['e', '+']).dropLast = m ++ ['e'] := by
      rw [show m ++ ['e', '+'] = (m ++ ['e']) ++ ['+'] by simp, List.dropLast_concat]
    simp only [addPart, if_neg h1, h2, h3, pyFloat_bad_exp F hm]
    rfl
  simp only [collectParts, hadd]

end Sang
