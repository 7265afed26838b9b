import Verif.Props.Time
import Verif.Lemmas.Six

/-! Helper lemmas: the text of times that aren't at whole frames. -/

namespace Sang
open Spec

/-! ### `'%g'` between a ten-thousandth and a million -/

theorem log10_le {q : ℚ} (hq : 0 < q) {e : ℤ} (h : q < (10:ℚ) ^ (e + 1)) : Int.log 10 q ≤ e := by
  have hb := (log10_bounds hq).1
  by_contra hc
  have h1 : (10:ℚ) ^ (e + 1) ≤ (10:ℚ) ^ (Int.log 10 q) := zpow_le_zpow_right₀ (by norm_num) (by omega)
  linarith

theorem le_log10 {q : ℚ} (hq : 0 < q) {e : ℤ} (h : (10:ℚ) ^ e ≤ q) : e ≤ Int.log 10 q := by
  have hb := (log10_bounds hq).2
  by_contra hc
  have h1 : (10:ℚ) ^ (Int.log 10 q + 1) ≤ (10:ℚ) ^ e := zpow_le_zpow_right₀ (by norm_num) (by omega)
  linarith

/-- Where the first digit is, for numbers that `'%g'` writes without an exponent. -/
theorem sigDigits_place {q : ℚ} (h4 : tiny ≤ q) (h6 : q ≤ 999999) :
    -4 ≤ (sigDigits 6 q).2 ∧ (sigDigits 6 q).2 ≤ 5 := by
  have hq : 0 < q := lt_of_lt_of_le (by norm_num [tiny]) h4
  have hlo : -5 ≤ Int.log 10 q := le_log10 hq (le_trans (by norm_num [tiny]) h4)
  have hhi : Int.log 10 q ≤ 5 := log10_le hq (by
    have : (10:ℚ) ^ ((5:ℤ) + 1) = 1000000 := by norm_num
    rw [this]; linarith)
  simp only [sigDigits]
  split
  · rename_i hm
    refine ⟨by simp only; omega, ?_⟩
    simp only
    by_contra hc
    have h5 : Int.log 10 q = 5 := by omega
    rw [h5] at hm
    have e0 : (((6:ℕ):ℤ) - 1 - 5) = 0 := by norm_num
    rw [e0, zpow_zero, mul_one] at hm
    have : rhe q ≤ 999999 := rhe_le_of_le (by exact_mod_cast h6)
    omega
  · rename_i hm
    refine ⟨?_, hhi⟩
    simp only
    by_contra hc
    have h5 : Int.log 10 q = -5 := by omega
    rw [h5] at hm
    have e0 : (((6:ℕ):ℤ) - 1 - -5) = ((10:ℕ):ℤ) := by norm_num
    rw [e0, zpow_natCast] at hm
    have hb := (log10_bounds hq).2
    rw [h5, show (10:ℚ) ^ ((-5:ℤ) + 1) = 1 / 10 ^ 4 by norm_num] at hb
    have h1 : rhe (q * 10 ^ 10) ≤ 1000000 := rhe_le_of_le (by push_cast; linarith)
    have h2 : rhe (1999999 / 2) ≤ rhe (q * 10 ^ 10) := rhe_mono (by unfold tiny at h4; linarith)
    have h3 : rhe (1999999 / 2) = 1000000 := by decide +kernel
    omega

/-- `'%g'` of a number from a ten-thousandth up to 999999 is a decimal as in a time specification. -/
theorem fmtG_amount {q : ℚ} (h4 : tiny ≤ q) (h6 : q ≤ 999999) :
    ∃ a : Amount, a.neg = false ∧ a.Valid ∧ a.text = fmtG q ∧ a.value = six q := by
  have hq : 0 < q := lt_of_lt_of_le (by norm_num [tiny]) h4
  have h10 : (10:ℚ) ≠ 0 := by norm_num
  obtain ⟨p1, p2⟩ := sigDigits_place h4 h6
  have hsix : six q = sixPos q := by rw [six, if_neg hq.ne', if_neg (not_lt.2 hq.le)]
  have hfmt : fmtG q = gPos 6 q := by rw [fmtG, if_neg hq.ne', if_neg (not_lt.2 hq.le)]
  rw [hsix, hfmt, sixPos_eq hq]
  simp only [gPos]
  set m := (sigDigits 6 q).1
  set e := (sigDigits 6 q).2
  have e5 : ((6:ℕ):ℤ) - 1 = 5 := by norm_num
  set v : ℚ := (m:ℚ) * (10:ℚ) ^ (e - 5) with hv
  have hv' : (m:ℚ) * (10:ℚ) ^ (e - (((6:ℕ):ℤ) - 1)) = v := by rw [e5]
  rw [hv', if_pos ⟨p1, by push_cast; omega⟩]
  have hp : ((((6:ℕ):ℤ) - 1 - e).toNat : ℤ) = 5 - e := by
    rw [e5, Int.toNat_of_nonneg]; omega
  set p := (((6:ℕ):ℤ) - 1 - e).toNat
  have hvp : v * 10 ^ p = m := by
    rw [hv, mul_assoc, ← zpow_natCast, ← zpow_add₀ h10, hp]; simp
  have hval : v = (m:ℚ) / 10 ^ p := by
    rw [eq_div_iff (by positivity)]; exact hvp
  by_cases hp0 : p = 0
  · rw [if_pos hp0]
    rw [hp0, pow_zero, mul_one] at hvp
    have h0 : (rhe (v * 10 ^ 0)).toNat = m := fixedNN_exact_val (by rw [pow_zero, mul_one, hvp])
    have : fixedNN 0 v = natStr m := by simp only [fixedNN, h0]; simp
    refine ⟨⟨false, natStr m, []⟩, rfl, natAmount_valid _ _, ?_, ?_⟩
    · rw [this]; simp [Amount.text]
    · rw [natAmount_value, hvp]; simp
  · rw [if_neg hp0]
    simp only [fixedNN, if_neg hp0, fixedNN_exact_val hvp]
    have hval2 : ((natVal (natStr (m / 10 ^ p) ++ fracStr p (m % 10 ^ p)) : ℕ) : ℚ) / 10 ^ p = v := by
      rw [natVal_append, natVal_natStr, natVal_fracStr, fracStr_length, Nat.mod_mod, Nat.div_add_mod', hval]
    rcases stripZeros_cases (natStr (m / 10 ^ p)) (fracStr p (m % 10 ^ p)) (fracStr_digits _ _) with
      ⟨h, k, hk⟩ | ⟨g, k, hg, h⟩
    · have hkp : k = p := by
        have := congrArg List.length hk
        rw [fracStr_length, List.length_replicate] at this; exact this.symm
      refine ⟨⟨false, natStr (m / 10 ^ p), []⟩, rfl, natAmount_valid _ _, ?_, ?_⟩
      · rw [h]; simp [Amount.text]
      · rw [natAmount_value, ← hval2, hk, natVal_zeros, natVal_natStr, hkp]
        push_cast
        rw [mul_div_assoc, div_self (by positivity)]; simp
    · have hgd : ∀ c ∈ g, isDig c = true := fun c hc => fracStr_digits p (m % 10 ^ p) c (by rw [hg]; simp [hc])
      have hlen : p = g.length + k := by
        have := congrArg List.length hg
        rw [fracStr_length, List.length_append, List.length_replicate] at this; exact this
      by_cases hg0 : g = []
      · -- `stripZeros` would have removed the point
        subst hg0
        simp only [List.nil_append] at hg
        rw [hg, stripZeros_whole] at h
        have := congrArg List.length h
        simp at this
      · refine ⟨⟨false, natStr (m / 10 ^ p), g⟩, rfl, ⟨natStr_ne_nil _, natStr_digits _, hgd⟩, ?_, ?_⟩
        · rw [h]; simp [Amount.text, hg0]
        · have hpow : (10:ℚ) ^ p = 10 ^ g.length * 10 ^ k := by rw [hlen, pow_add]
          rw [← hval2, hg, ← List.append_assoc, natVal_zeros, hpow]
          simp only [Amount.value, Bool.false_eq_true, if_false, one_mul]
          push_cast
          rw [mul_div_mul_right _ _ (by positivity)]

/-- How far off six digits are. -/
theorem six_err {q : ℚ} (hq : 0 < q) : |six q - q| ≤ q / 200000 := by
  have h := sigDigits_err 6 (by norm_num) hq
  have e5 : ((6:ℕ):ℤ) - 1 = 5 := by norm_num
  rw [e5, ← sixPos_eq hq] at h
  rw [six, if_neg hq.ne', if_neg (not_lt.2 hq.le)]
  norm_num at h ⊢
  exact h

/-! ### The text of a time -/

theorem hmsParts_amt (n : ℕ) :
    amt (hmsParts n) .h = n / 3600 ∧ amt (hmsParts n) .m = n % 3600 / 60 ∧ amt (hmsParts n) .s = n % 60 ∧
      amt (hmsParts n) .f = 0 := by
  simp only [hmsParts, amt_append, any_optPart, amt_optPart, List.any_append]
  refine ⟨?_, ?_, ?_, by simp⟩
  · by_cases h : n / 3600 = 0 <;> simp [h]
  · by_cases h : n % 3600 / 60 = 0 <;> simp [h]
  · by_cases h : n % 60 = 0 <;> simp [h]

theorem hmsParts_units (n : ℕ) : ((hmsParts n).map Prod.snd).Nodup ∧ TimeUnit.f ∉ (hmsParts n).map Prod.snd := by
  unfold hmsParts optPart
  split <;> split <;> split <;> simp

theorem hmsParts_nil {n : ℕ} : hmsParts n = [] ↔ n = 0 := by
  unfold hmsParts optPart
  constructor
  · intro h
    simp only [List.append_eq_nil_iff, ite_eq_left_iff, imp_false, not_not, List.cons_ne_self] at h
    omega
  · rintro rfl; rfl

/-- Whole seconds, and then frames. -/
def secParts (n : ℕ) (a : Amount) : List Part :=
  mkParts false (hmsParts n) ++ [⟨if hmsParts n = [] then [] else [' '], a, .f⟩]

theorem secParts_valid (n : ℕ) {a : Amount} (ha : a.Valid) : ∀ p ∈ secParts n a, p.Valid := by
  intro p hp
  rcases List.mem_append.1 hp with hp | hp
  · exact mkParts_valid _ _ p hp
  · rw [List.mem_singleton] at hp; subst hp
    refine ⟨?_, ha⟩
    intro c hc
    simp only at hc
    split at hc
    · cases hc
    · rw [List.mem_singleton] at hc; subst hc; decide

theorem secParts_distinct (n : ℕ) (a : Amount) : Distinct (secParts n a) := by
  obtain ⟨h1, h2⟩ := hmsParts_units n
  rw [Distinct, secParts, List.map_append, mkParts_units, List.map_singleton]
  rw [List.nodup_append]
  refine ⟨h1, by simp, ?_⟩
  intro x hx y hy
  simp only [List.mem_singleton] at hy
  subst hy; rintro rfl; exact h2 hx

theorem join_snoc (l : List Str) (hl : l ≠ []) (x : Str) : join [' '] (l ++ [x]) = join [' '] l ++ ' ' :: x := by
  obtain ⟨y, l, rfl⟩ := List.exists_cons_of_ne_nil hl
  rw [List.cons_append, join_cons_flatMap, join_cons_flatMap]
  simp

theorem secParts_text (n : ℕ) (a : Amount) :
    specText (secParts n a) [] = join [' '] ((hmsParts n).map ptxt ++ [a.text ++ ['f']]) := by
  by_cases h : hmsParts n = []
  · simp [secParts, h, mkParts, specText, join, TimeUnit.char]
  · have := specText_mkParts false (hmsParts n) h
    rw [join_snoc _ (by simpa using h)]
    simp only [Bool.false_eq_true, if_false, List.nil_append] at this
    have e : specText (secParts n a) [] = specText (mkParts false (hmsParts n)) [] ++ ' ' :: (a.text ++ ['f']) := by
      simp [secParts, specText, h, TimeUnit.char]
    rw [e, this]; rfl

theorem secParts_lookup (F : Fl) (n : ℕ) (a : Amount) :
    (∀ u : TimeUnit, u ≠ .f → (partsOf F (secParts n a)).lookup u.char =
      (partsOf F (mkParts false (hmsParts n))).lookup u.char) ∧
    (partsOf F (secParts n a)).lookup 'f' = some (F.rnd a.value) := by
  constructor
  · intro u hu
    rw [lookup_partsOf, lookup_partsOf, secParts, List.find?_append]
    have : ((⟨if hmsParts n = [] then [] else [' '], a, .f⟩ : Part).unit == u) = false := by
      simpa using hu.symm
    simp [this]
  · have := lookup_partsOf F (secParts n a) .f
    rw [show TimeUnit.f.char = 'f' from rfl] at this
    rw [this, secParts, List.find?_append]
    have hn : (mkParts false (hmsParts n)).find? (fun p => p.unit == TimeUnit.f) = none := by
      rw [List.find?_eq_none]
      intro p hp hc
      have h2 := (hmsParts_units n).2
      rw [← mkParts_units false] at h2
      exact h2 (List.mem_map.2 ⟨p, hp, by simpa using hc⟩)
    rw [hn]; simp

theorem hms_whole (n : ℕ) : Whole (mkParts false (hmsParts n)) (n / 3600 : ℕ) (n % 3600 / 60 : ℕ) (n % 60 : ℕ) 0 := by
  obtain ⟨a, b, c, d⟩ := hmsParts_amt n
  constructor <;> rw [amount_mkParts_pos]
  · rw [a]; exact (Int.cast_natCast _).symm
  · rw [b]; exact (Int.cast_natCast _).symm
  · rw [c]; exact (Int.cast_natCast _).symm
  · rw [d]; simp

theorem hms_seconds {F : Fl} (hF : F.Lawful) {n : ℕ} (hn : n ≤ 2 ^ 53) :
    (secondsOf F (partsOf F (mkParts false (hmsParts n)))).getD 0 = n := by
  have hq := hms_sum n
  have e : |((n / 3600 : ℕ):ℤ) * 3600| + |((n % 3600 / 60 : ℕ):ℤ) * 60| + |((n % 60 : ℕ):ℤ)| = (n:ℤ) := by
    rw [abs_of_nonneg (by positivity), abs_of_nonneg (by positivity), abs_of_nonneg (by positivity)]
    exact_mod_cast hq
  rw [secondsOf_whole hF (hms_whole n) (by rw [e]; exact_mod_cast hn)]
  have : ((n / 3600 : ℕ):ℤ) * 3600 + ((n % 3600 / 60 : ℕ):ℤ) * 60 + ((n % 60 : ℕ):ℤ) = n := by exact_mod_cast hq
  rw [this]; simp

/-- Reading whole seconds and a number of frames. -/
theorem secParts_frames {F : Fl} (hF : F.Lawful) {n k : ℕ} (hk : 1 ≤ k) (hn : n * k ≤ 2 ^ 53) {a : Amount}
    (h0 : 0 ≤ a.value) :
    framesOf F (some (k:ℚ)) (partsOf F (secParts n a)) = .ok (F.rnd ((n:ℚ) * k + F.rnd a.value)) := by
  obtain ⟨l1, l2⟩ := secParts_lookup F n a
  have hs : secondsOf F (partsOf F (secParts n a)) = secondsOf F (partsOf F (mkParts false (hmsParts n))) := by
    have a1 := l1 .h (by decide); have a2 := l1 .m (by decide); have a3 := l1 .s (by decide)
    simp only [TimeUnit.char] at a1 a2 a3
    simp only [secondsOf, addSeconds, a1, a2, a3]
  have hn' : n ≤ 2 ^ 53 := le_trans (Nat.le_mul_of_pos_right n hk) hn
  have hsec := hms_seconds hF hn'
  rw [← hs] at hsec
  have hnk : F.rnd ((n:ℚ) * k) = (n:ℚ) * k := by
    have := hF.nat (n * k) hn; push_cast at this; exact this
  have hnn : ¬ F.rnd a.value < 0 := not_lt.2 (hF.nonneg h0)
  have hbase : (if ((n:ℕ):ℚ) ≠ 0 then (.ok (F.rnd (0 + F.rnd ((n:ℚ) * k))) : Res ℚ) else .ok 0) =
      .ok ((n:ℚ) * k) := by
    split
    · rw [hnk, zero_add, hnk]
    · rename_i h; push Not at h; rw [h, zero_mul]
  simp only [framesOf, hsec, hbase, l2]
  rw [if_neg (by tauto), if_neg (not_lt.2 (by positivity))]

/-- Reading whole seconds. -/
theorem hms_frames {F : Fl} (hF : F.Lawful) {n k : ℕ} (hk : 1 ≤ k) (hn : n * k ≤ 2 ^ 53) :
    framesOf F (some (k:ℚ)) (partsOf F (mkParts false (hmsParts n))) = .ok ((n:ℚ) * k) := by
  have hn' : n ≤ 2 ^ 53 := le_trans (Nat.le_mul_of_pos_right n hk) hn
  have hsec := hms_seconds hF hn'
  have hnk : F.rnd ((n:ℚ) * k) = (n:ℚ) * k := by
    have := hF.nat (n * k) hn; push_cast at this; exact this
  have hl : (partsOf F (mkParts false (hmsParts n))).lookup 'f' = none := by
    have := lookup_partsOf F (mkParts false (hmsParts n)) .f
    rw [show TimeUnit.f.char = 'f' from rfl] at this
    rw [this, Option.map_eq_none_iff, List.find?_eq_none]
    intro p hp hc
    have h2 := (hmsParts_units n).2
    rw [← mkParts_units false] at h2
    exact h2 (List.mem_map.2 ⟨p, hp, by simpa using hc⟩)
  have hbase : (if ((n:ℕ):ℚ) ≠ 0 then (.ok (F.rnd (0 + F.rnd ((n:ℚ) * k))) : Res ℚ) else .ok 0) =
      .ok ((n:ℚ) * k) := by
    split
    · rw [hnk, zero_add, hnk]
    · rename_i h; push Not at h; rw [h, zero_mul]
  simp only [framesOf, hsec, hbase, hl]

/-- How many whole seconds there are in `q` frames, and how `T.__str__` finds them. -/
theorem rnd_seconds {F : Fl} (hF : F.Lawful) {q : ℚ} (h0 : 0 ≤ q) (hq : q < 2 ^ 53) {k : ℕ} (hk : 1 ≤ k) :
    ∃ (n : ℕ) (ε : ℚ), F.rnd (q / k) = n + ε ∧ 0 ≤ ε ∧ ε < 1 ∧ |(n:ℚ) + ε - q / k| ≤ q / k / 2 ^ 53 ∧
      (ε ≠ 0 → ⌊q / k⌋ = n) := by
  have hk' : (1:ℚ) ≤ k := by exact_mod_cast hk
  have hd0 : 0 ≤ q / k := div_nonneg h0 (by linarith)
  have hlt : q / k < 2 ^ 53 := lt_of_le_of_lt (div_le_self h0 hk') hq
  obtain ⟨N, hN⟩ := Int.eq_ofNat_of_zero_le (Int.floor_nonneg.2 hd0)
  have hl := Int.floor_le (q / k)
  have hu := Int.lt_floor_add_one (q / k)
  rw [hN] at hl hu
  simp only [Int.cast_natCast] at hl hu
  have hN53 : N < 2 ^ 53 := by
    have : (N:ℚ) < 2 ^ 53 := lt_of_le_of_lt hl hlt
    exact_mod_cast this
  have r1 : (N:ℚ) ≤ F.rnd (q / k) := by
    rw [← hF.nat N hN53.le]; exact hF.mono hl
  have r2 : F.rnd (q / k) ≤ (N:ℚ) + 1 := by
    have := hF.nat (N + 1) hN53
    push_cast at this
    rw [← this]; exact hF.mono hu.le
  have herr := hF.err (q / k)
  rw [abs_of_nonneg hd0] at herr
  rcases lt_or_eq_of_le r2 with h | h
  · refine ⟨N, F.rnd (q / k) - N, by ring, by linarith, by linarith, ?_, fun _ => hN⟩
    rw [show (N:ℚ) + (F.rnd (q / k) - N) - q / k = F.rnd (q / k) - q / k by ring]; exact herr
  · refine ⟨N + 1, 0, by push_cast; linarith, le_refl _, by norm_num, ?_, fun h => absurd rfl h⟩
    rw [show ((N + 1 : ℕ):ℚ) + 0 - q / k = F.rnd (q / k) - q / k by rw [h]; push_cast; ring]; exact herr

end Sang
