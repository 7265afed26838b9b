import Verif.Lemmas.Double

/-! Reading back the number text that the code writes. -/

namespace Sang

/-- Characters that occur in the text of finite numbers. -/
def numCh (c : Char) : Bool := isDig c || c == '.' || c == '-' || c == '+' || c == 'e'

theorem numCh_of_isDig {c : Char} (h : isDig c = true) : numCh c = true := by simp [numCh, h]

theorem numCh_cases {c : Char} (h : numCh c = true) :
    isDig c = true ∨ c = '.' ∨ c = '-' ∨ c = '+' ∨ c = 'e' := by
  simpa [numCh, or_assoc] using h

theorem numCh_not_space {c : Char} (h : numCh c = true) : isSpace c = false := by
  rcases numCh_cases h with h | rfl | rfl | rfl | rfl
  · exact isDig_not_space h
  all_goals rfl

theorem numCh_ascii {c : Char} (h : numCh c = true) : decide (128 ≤ c.toNat) = false := by
  rcases numCh_cases h with h | rfl | rfl | rfl | rfl
  · exact isDig_ascii h
  all_goals rfl

theorem dropWhile_all_false {α} (p : α → Bool) (l : List α) (h : ∀ x ∈ l, p x = false) :
    l.dropWhile p = l := by
  cases l with
  | nil => rfl
  | cons a l => rw [List.dropWhile_cons_of_neg]; simp [h a]

theorem strip_noSpace {s : Str} (h : ∀ c ∈ s, isSpace c = false) : strip s = s := by
  rw [strip, dropWhile_all_false _ _ h, dropWhile_all_false, List.reverse_reverse]
  intro c hc; exact h c (List.mem_reverse.1 hc)

theorem dropUnderscores_plain (prev : Option Char) (s : Str) (h : ∀ c ∈ s, c ≠ '_') :
    dropUnderscores prev s = some s := by
  induction s generalizing prev with
  | nil => rfl
  | cons c s ih =>
    have hc : c ≠ '_' := h c (by simp)
    rw [dropUnderscores]
    · rw [ih _ (fun x hx => h x (by simp [hx]))]; rfl
    · intro h'; exact absurd h' hc

theorem takeSign_mem {s : Str} {c : Char} (h : c ∈ (takeSign s).2) : c ∈ s := by
  unfold takeSign at h
  split at h <;> simp_all

theorem not_nonFinite {s : Str} (h : ∀ c ∈ s, numCh c = true) : isNonFiniteWord s = false := by
  have key : ∀ w : Str, 'n' ∈ w → lower (takeSign s).2 ≠ w := by
    intro w hw he
    rw [← he, lower, List.mem_map] at hw
    obtain ⟨c, hc, hl⟩ := hw
    have hn := h c (takeSign_mem hc)
    rcases numCh_cases hn with hd | rfl | rfl | rfl | rfl
    · simp only [isDig, Bool.and_eq_true, decide_eq_true_eq] at hd
      rw [lowerC, if_neg (by omega)] at hl
      subst hl; exact absurd hd.2 (by decide)
    all_goals exact absurd hl (by decide)
  simp only [isNonFiniteWord, Bool.or_eq_false_iff, beq_eq_false_iff_ne]
  exact ⟨⟨key _ (by decide), key _ (by decide)⟩, key _ (by decide)⟩

theorem numCh_ne_underscore {c : Char} (h : numCh c = true) : c ≠ '_' := by
  rintro rfl; exact absurd h (by decide)

theorem pyFloat_plain (F : Fl) {s : Str} (h : ∀ c ∈ s, numCh c = true) :
    pyFloat F s = match parseNumeral s with
      | none => .error .value
      | some n => .ok (F.rnd n.val) := by
  simp only [pyFloat]
  rw [strip_noSpace (fun c hc => numCh_not_space (h c hc))]
  rw [if_neg, not_nonFinite h, dropUnderscores_plain _ _ (fun c hc => numCh_ne_underscore (h c hc))]
  · simp only [Bool.false_eq_true, if_false]
    cases parseNumeral s <;> rfl
  · rw [List.any_eq_true]
    rintro ⟨c, hc, h'⟩
    rw [numCh_ascii (h c hc)] at h'; cases h'

theorem takeWhile_append_cons {p : Char → Bool} {ds : Str} {c : Char} {r : Str}
    (h : ∀ x ∈ ds, p x = true) (hc : p c = false) :
    (ds ++ c :: r).takeWhile p = ds ∧ (ds ++ c :: r).dropWhile p = c :: r := by
  induction ds with
  | nil => simp [hc]
  | cons d ds ih =>
    have hd := h d (by simp)
    have := ih (fun x hx => h x (by simp [hx]))
    simp [hd, this]

theorem takeWhile_all {p : Char → Bool} {ds : Str} (h : ∀ x ∈ ds, p x = true) :
    ds.takeWhile p = ds ∧ ds.dropWhile p = [] := by
  induction ds with
  | nil => simp
  | cons d ds ih =>
    have hd := h d (by simp)
    have := ih (fun x hx => h x (by simp [hx]))
    simp [hd, this]

theorem takeSign_digit {s : Str} (h : ∀ c ∈ s.head?, isDig c = true) : takeSign s = (false, s) := by
  unfold takeSign
  split
  · exact absurd (h '-' (by simp)) (by decide)
  · exact absurd (h '+' (by simp)) (by decide)
  · rfl

/-- Parsing the digits of a numeral with no sign. -/
theorem parse_digits {neg : Bool} {s t : Str} (hs : takeSign s = (neg, t))
    (h : ∀ c ∈ t, isDig c = true) (hne : t ≠ []) :
    parseNumeral s = some ⟨neg, t, [], 0⟩ := by
  simp only [parseNumeral, hs, (takeWhile_all h).1, (takeWhile_all h).2, parseExp, if_neg hne]
  rfl

theorem parse_fixed {neg : Bool} {s w f : Str} (hs : takeSign s = (neg, w ++ '.' :: f))
    (hw : ∀ c ∈ w, isDig c = true) (hf : ∀ c ∈ f, isDig c = true) (hne : w ≠ []) :
    parseNumeral s = some ⟨neg, w, f, 0⟩ := by
  have h1 := takeWhile_append_cons (c := '.') (r := f) hw (by decide)
  simp only [parseNumeral, hs, h1.1, h1.2, (takeWhile_all hf).1, (takeWhile_all hf).2, hne,
    false_and, if_false, parseExp]
  rfl

theorem digits_takeSign {s : Str} (h : ∀ c ∈ s, isDig c = true) : takeSign s = (false, s) := by
  apply takeSign_digit
  intro c hc
  exact h c (List.mem_of_mem_head? hc)

theorem head?_append_of_ne_nil {w t : Str} (h : w ≠ []) : (w ++ t).head? = w.head? := by
  cases w with
  | nil => exact absurd rfl h
  | cons => rfl

theorem digits_append_takeSign {w t : Str} (h : ∀ c ∈ w, isDig c = true) (hne : w ≠ []) :
    takeSign (w ++ t) = (false, w ++ t) := by
  apply takeSign_digit
  intro c hc
  rw [head?_append_of_ne_nil hne] at hc
  exact h c (List.mem_of_mem_head? hc)

theorem numeral_int_val (neg : Bool) (n : ℕ) :
    (Numeral.mk neg (natStr n) [] 0).val = (if neg then -1 else 1) * (n:ℚ) := by
  simp [Numeral.val]

theorem pyFloat_natStr (F : Fl) (n : ℕ) : pyFloat F (natStr n) = .ok (F.rnd n) := by
  rw [pyFloat_plain F (fun c hc => numCh_of_isDig (natStr_digits n c hc)),
    parse_digits (digits_takeSign (natStr_digits n)) (natStr_digits n) (natStr_ne_nil n)]
  simp [numeral_int_val]

theorem pyFloat_neg_natStr (F : Fl) (n : ℕ) : pyFloat F ('-' :: natStr n) = .ok (F.rnd (-n)) := by
  rw [pyFloat_plain, parse_digits (neg := true) (t := natStr n) rfl (natStr_digits n) (natStr_ne_nil n)]
  · simp [numeral_int_val]
  · intro c hc
    rcases List.mem_cons.1 hc with rfl | hc
    · rfl
    · exact numCh_of_isDig (natStr_digits n c hc)

theorem numCh_plain_noSpace {s : Str} (h : ∀ c ∈ s, numCh c = true) : strip s = s :=
  strip_noSpace (fun c hc => numCh_not_space (h c hc))

theorem pyInt_plain {s : Str} (h : ∀ c ∈ s, numCh c = true) :
    pyInt s = if (takeSign s).2 ≠ [] ∧ (takeSign s).2.all isDig then
      .ok (if (takeSign s).1 then -(natVal (takeSign s).2 : ℤ) else natVal (takeSign s).2)
      else .error .value := by
  simp only [pyInt]
  rw [numCh_plain_noSpace h, if_neg,
    dropUnderscores_plain _ _ (fun c hc => numCh_ne_underscore (h c hc))]
  rw [List.any_eq_true]
  rintro ⟨c, hc, h'⟩
  rw [numCh_ascii (h c hc)] at h'; cases h'

/-- `int(str(i)) = i`. -/
theorem pyInt_intStr (i : ℤ) : pyInt (intStr i) = .ok i := by
  have hnum : ∀ c ∈ intStr i, numCh c = true := by
    intro c hc
    unfold intStr at hc
    split at hc
    · rcases List.mem_cons.1 hc with rfl | hc
      · rfl
      · exact numCh_of_isDig (natStr_digits _ c hc)
    · exact numCh_of_isDig (natStr_digits _ c hc)
  have hall : (natStr i.natAbs).all isDig = true := by
    rw [List.all_eq_true]; exact natStr_digits _
  rw [pyInt_plain hnum]
  by_cases hi : i < 0
  · have : takeSign (intStr i) = (true, natStr i.natAbs) := by rw [intStr, if_pos hi]; rfl
    rw [this, if_pos ⟨natStr_ne_nil _, hall⟩, natVal_natStr]
    simp only [if_true]; congr 1; omega
  · have : takeSign (intStr i) = (false, natStr i.natAbs) := by
      rw [intStr, if_neg hi, digits_takeSign (natStr_digits _)]
    rw [this, if_pos ⟨natStr_ne_nil _, hall⟩, natVal_natStr]
    simp only [Bool.false_eq_true, if_false]; congr 1; omega

/-! ### `'%.kf'` -/

theorem fixedNN_numCh (k : ℕ) (q : ℚ) : ∀ c ∈ fixedNN k q, numCh c = true := by
  intro c hc
  simp only [fixedNN, List.mem_append] at hc
  rcases hc with hc | hc
  · exact numCh_of_isDig (natStr_digits _ c hc)
  · split at hc
    · cases hc
    · rcases List.mem_cons.1 hc with rfl | hc
      · rfl
      · exact numCh_of_isDig (fracStr_digits _ _ c hc)

theorem fixedNN_parse (k : ℕ) (hk : k ≠ 0) (q : ℚ) (neg : Bool) (s : Str)
    (hs : takeSign s = (neg, fixedNN k q)) :
    ∃ n, parseNumeral s = some n ∧
      n.val = (if neg then -1 else 1) * ((rhe (q * 10 ^ k)).toNat : ℚ) / 10 ^ k := by
  simp only [fixedNN, if_neg hk] at hs
  refine ⟨_, parse_fixed hs (natStr_digits _) (fracStr_digits _ _) (natStr_ne_nil _), ?_⟩
  simp only [Numeral.val, natVal_append, natVal_natStr, natVal_fracStr, fracStr_length, Nat.mod_mod]
  rw [Nat.div_add_mod', zero_sub, zpow_neg, zpow_natCast, div_eq_mul_inv]

theorem fixedNN_takeSign (k : ℕ) (q : ℚ) : takeSign (fixedNN k q) = (false, fixedNN k q) :=
  digits_append_takeSign (natStr_digits _) (natStr_ne_nil _)

/-- What `'%.kf' % q` denotes: `q` rounded to `k` decimals, as an exact decimal. -/
def dec (k : ℕ) (q : ℚ) : ℚ := (rhe (q * 10 ^ k) : ℚ) / 10 ^ k

theorem dec_neg (k : ℕ) (q : ℚ) : dec k (-q) = -dec k q := by
  simp only [dec, neg_mul, rhe_neg]; push_cast; ring

/-- `float('%.kf' % q)` is `q` rounded to `k` decimals, then to a float. -/
theorem pyFloat_fixed (F : Fl) (k : ℕ) (hk : k ≠ 0) (q : ℚ) :
    pyFloat F (fixed k q) = .ok (F.rnd (dec k q)) := by
  have cast : ∀ r : ℚ, 0 ≤ r → ((rhe (r * 10 ^ k)).toNat : ℚ) = (rhe (r * 10 ^ k) : ℚ) := by
    intro r hr
    have := rhe_nonneg (q := r * 10 ^ k) (by positivity)
    have h2 : ((rhe (r * 10 ^ k)).toNat : ℤ) = rhe (r * 10 ^ k) := Int.toNat_of_nonneg this
    exact_mod_cast h2
  unfold fixed
  split
  · rename_i hneg
    obtain ⟨n, hn, hv⟩ := fixedNN_parse k hk (-q) true ('-' :: fixedNN k (-q)) rfl
    rw [pyFloat_plain, hn]
    · simp only [hv, if_true]
      rw [cast _ (by linarith), show -1 * (rhe (-q * 10 ^ k) : ℚ) / 10 ^ k = -dec k (-q) by
        rw [dec]; ring, dec_neg, neg_neg]
    · intro c hc
      rcases List.mem_cons.1 hc with rfl | hc
      · rfl
      · exact fixedNN_numCh _ _ c hc
  · rename_i hneg
    obtain ⟨n, hn, hv⟩ := fixedNN_parse k hk q false _ (fixedNN_takeSign k q)
    rw [pyFloat_plain F (fixedNN_numCh k q), hn]
    simp only [hv, Bool.false_eq_true, if_false, one_mul]
    rw [cast _ (by linarith)]; rfl

theorem dec_err (k : ℕ) (q : ℚ) : |dec k q - q| ≤ 1 / (2 * 10 ^ k) := by
  have h := rhe_err (q * 10 ^ k)
  have hp : (0:ℚ) < 10 ^ k := by positivity
  have : dec k q - q = ((rhe (q * 10 ^ k) : ℚ) - q * 10 ^ k) / 10 ^ k := by
    rw [dec, sub_div, mul_div_assoc, div_self hp.ne', mul_one]
  rw [this, abs_div, abs_of_pos hp, div_le_div_iff₀ hp (by positivity)]
  nlinarith

/-- Formatting what was read back gives the same text, as long as `k` decimals at this size are
coarser than float spacing. -/
theorem fixed_stable {F : Fl} (hF : F.Lawful) (k : ℕ) (q : ℚ) (hq : |q| * 10 ^ k ≤ 2 ^ 51) :
    rhe (F.rnd (dec k q) * 10 ^ k) = rhe (q * 10 ^ k) := by
  have hp : (0:ℚ) < 10 ^ k := by positivity
  apply rhe_unique
  have h1 := hF.err (dec k q)
  have h2 : |(rhe (q * 10 ^ k) : ℚ)| ≤ 2 ^ 51 + 1/2 := by
    have := rhe_err (q * 10 ^ k)
    have h3 : |q * 10 ^ k| ≤ 2 ^ 51 := by rw [abs_mul, abs_of_pos hp]; exact hq
    calc |(rhe (q * 10 ^ k) : ℚ)| = |((rhe (q * 10 ^ k) : ℚ) - q * 10 ^ k) + q * 10 ^ k| := by ring_nf
      _ ≤ _ := abs_add_le _ _
      _ ≤ _ := by linarith
  have e1 : (rhe (q * 10 ^ k) : ℚ) - F.rnd (dec k q) * 10 ^ k = -(F.rnd (dec k q) - dec k q) * 10 ^ k := by
    rw [neg_sub, sub_mul]; rw [dec, div_mul_cancel₀ _ hp.ne']
  rw [e1, abs_mul, abs_neg, abs_of_pos hp]
  have h4 : |dec k q| * 10 ^ k = |(rhe (q * 10 ^ k) : ℚ)| := by
    rw [dec, abs_div, abs_of_pos hp, div_mul_cancel₀ _ hp.ne']
  calc |F.rnd (dec k q) - dec k q| * 10 ^ k ≤ |dec k q| / 2 ^ 53 * 10 ^ k := by gcongr
    _ = |(rhe (q * 10 ^ k) : ℚ)| / 2 ^ 53 := by rw [← h4]; ring
    _ ≤ (2 ^ 51 + 1/2) / 2 ^ 53 := by gcongr
    _ < 1/2 := by norm_num

end Sang
