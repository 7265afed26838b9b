import Verif.Props.TimeFraction

/-! Helper lemmas: the text of times at frame rates that aren't whole numbers. -/

namespace Sang
open Spec

/-- How many frames past a whole second `q` frames are, at `r` frames per second, whole or not. -/
def framesPast (q r : ℚ) : ℚ := q - r * ⌊q / r⌋

theorem framesPast_bounds {q r : ℚ} (hr : 0 < r) : 0 ≤ framesPast q r ∧ framesPast q r < r := by
  have h1 := Int.floor_le (q / r)
  have h2 := Int.lt_floor_add_one (q / r)
  rw [le_div_iff₀ hr] at h1
  rw [div_lt_iff₀ hr] at h2
  unfold framesPast
  constructor <;> nlinarith

/-- How many whole seconds there are in `q` frames, and how `T.__str__` finds them. -/
theorem rate_seconds {F : Fl} (hF : F.Lawful) {q r : ℚ} (h0 : 0 ≤ q) (hr : 0 < r) (hq : q / r < 2 ^ 53) :
    ∃ (n : ℕ) (ε : ℚ), n ≤ 2 ^ 53 ∧ F.rnd (q / r) = n + ε ∧ 0 ≤ ε ∧ ε < 1 ∧ |(n:ℚ) + ε - q / r| ≤ q / r / 2 ^ 53 ∧
      (ε ≠ 0 → ⌊q / r⌋ = n) := by
  have hd0 : 0 ≤ q / r := div_nonneg h0 hr.le
  obtain ⟨N, hN⟩ := Int.eq_ofNat_of_zero_le (Int.floor_nonneg.2 hd0)
  have hl := Int.floor_le (q / r)
  have hu := Int.lt_floor_add_one (q / r)
  rw [hN] at hl hu
  simp only [Int.cast_natCast] at hl hu
  have hN53 : N < 2 ^ 53 := by
    have : (N:ℚ) < 2 ^ 53 := lt_of_le_of_lt hl hq
    exact_mod_cast this
  have r1 : (N:ℚ) ≤ F.rnd (q / r) := by
    rw [← hF.nat N hN53.le]; exact hF.mono hl
  have r2 : F.rnd (q / r) ≤ (N:ℚ) + 1 := by
    have := hF.nat (N + 1) hN53
    push_cast at this
    rw [← this]; exact hF.mono hu.le
  have herr := hF.err (q / r)
  rw [abs_of_nonneg hd0] at herr
  rcases lt_or_eq_of_le r2 with h | h
  · refine ⟨N, F.rnd (q / r) - N, hN53.le, by ring, by linarith, by linarith, ?_, fun _ => hN⟩
    rw [show (N:ℚ) + (F.rnd (q / r) - N) - q / r = F.rnd (q / r) - q / r by ring]; exact herr
  · refine ⟨N + 1, 0, hN53, by push_cast; linarith, le_refl _, by norm_num, ?_, fun h => absurd rfl h⟩
    rw [show ((N + 1 : ℕ):ℚ) + 0 - q / r = F.rnd (q / r) - q / r by rw [h]; push_cast; ring]; exact herr

/-- The text of a time at a second: nothing is said about frames. -/
theorem rate_str_at {F : Fl} {q r : ℚ} (h0 : 0 ≤ q) {n : ℕ} (h : F.rnd (q / r) = n) (hn : n ≠ 0) :
    T.str F ⟨q, some r⟩ = specText (mkParts false (hmsParts n)) [] := by
  have hl := str_loop n 0 (le_refl _) (by norm_num)
  rw [add_zero] at hl
  have hne : hmsParts n ≠ [] := fun hc => hn (hmsParts_nil.1 hc)
  rw [specText_mkParts _ _ hne]
  simp only [T.str, h, abs_of_nonneg (Nat.cast_nonneg (α := ℚ) n), hl, if_neg (not_lt.2 h0)]
  rw [if_neg (by simp [hne])]
  rfl

/-- The text of a time between two seconds: the seconds, and the frames past them. -/
theorem rate_str_past {F : Fl} {q r : ℚ} (h0 : 0 ≤ q) {n : ℕ} {ε : ℚ} (h : F.rnd (q / r) = n + ε) (hε : 0 ≤ ε)
    (hε1 : ε < 1) (hne : ε ≠ 0) :
    T.str F ⟨q, some r⟩ = join [' '] ((hmsParts n).map ptxt ++ [fmtG (framesPast q r) ++ ['f']]) := by
  have hl := str_loop n ε hε hε1
  have hnn : (0:ℚ) ≤ (n:ℚ) + ε := by positivity
  simp only [T.str, h, abs_of_nonneg hnn, abs_of_nonneg h0, hl, if_neg (not_lt.2 h0)]
  rw [if_pos (Or.inl hne)]
  rfl

theorem rate_str_zero {F : Fl} (hF : F.Lawful) (r : ℚ) : T.str F ⟨0, some r⟩ = ['0', 'f'] := by
  have hl := str_loop 0 0 (le_refl _) (by norm_num)
  rw [Nat.cast_zero, add_zero] at hl
  simp only [T.str, zero_div, hF.zero, abs_zero, hl]
  simp [hmsParts, optPart, fmod, fmtG, join]

/-- Reading whole seconds and a number of frames. -/
theorem rate_frames {F : Fl} (hF : F.Lawful) {n : ℕ} {r : ℚ} (hn : n ≤ 2 ^ 53) {a : Amount}
    (h0 : 0 ≤ a.value) :
    framesOf F (some r) (partsOf F (secParts n a)) = .ok (F.rnd (F.rnd (n * r) + F.rnd a.value)) := by
  obtain ⟨l1, l2⟩ := secParts_lookup F n a
  have hs : secondsOf F (partsOf F (secParts n a)) = secondsOf F (partsOf F (mkParts false (hmsParts n))) := by
    have a1 := l1 .h (by decide); have a2 := l1 .m (by decide); have a3 := l1 .s (by decide)
    simp only [TimeUnit.char] at a1 a2 a3
    simp only [secondsOf, addSeconds, a1, a2, a3]
  have hsec := hms_seconds hF hn
  rw [← hs] at hsec
  have hnn : ¬ F.rnd a.value < 0 := not_lt.2 (hF.nonneg h0)
  have hbase : (if ((n:ℕ):ℚ) ≠ 0 then (.ok (F.rnd (0 + F.rnd ((n:ℚ) * r))) : Res ℚ) else .ok 0) =
      .ok (F.rnd ((n:ℚ) * r)) := by
    split
    · rw [zero_add, hF.idem]
    · rename_i h; push Not at h; rw [h, zero_mul, hF.zero]
  simp only [framesOf, hsec, hbase, l2]
  rw [if_neg (by tauto), if_neg (not_lt.2 (by positivity))]

/-- Reading whole seconds. -/
theorem rate_frames_at {F : Fl} (hF : F.Lawful) {n : ℕ} {r : ℚ} (hn : n ≤ 2 ^ 53) :
    framesOf F (some r) (partsOf F (mkParts false (hmsParts n))) = .ok (F.rnd (n * r)) := by
  have hsec := hms_seconds hF hn
  have hl : (partsOf F (mkParts false (hmsParts n))).lookup 'f' = none := by
    have := lookup_partsOf F (mkParts false (hmsParts n)) .f
    rw [show TimeUnit.f.char = 'f' from rfl] at this
    rw [this, Option.map_eq_none_iff, List.find?_eq_none]
    intro p hp hc
    have h2 := (hmsParts_units n).2
    rw [← mkParts_units false] at h2
    exact h2 (List.mem_map.2 ⟨p, hp, by simpa using hc⟩)
  have hbase : (if ((n:ℕ):ℚ) ≠ 0 then (.ok (F.rnd (0 + F.rnd ((n:ℚ) * r))) : Res ℚ) else .ok 0) =
      .ok (F.rnd ((n:ℚ) * r)) := by
    split
    · rw [zero_add, hF.idem]
    · rename_i h; push Not at h; rw [h, zero_mul, hF.zero]
  simp only [framesOf, hsec, hbase, hl]

/-- If the quotient isn't rounded to a whole number, then the time isn't at a second. -/
theorem framesPast_pos {F : Fl} (hF : F.Lawful) {q r : ℚ} (h0 : 0 ≤ q) (hr : 0 < r) (hq : q / r < 2 ^ 53)
    (hw : ∀ m : ℕ, F.rnd (q / r) ≠ m) : 0 < framesPast q r := by
  rcases lt_or_eq_of_le (framesPast_bounds (q := q) hr).1 with h | h
  · exact h
  · exfalso
    obtain ⟨N, hN⟩ := Int.eq_ofNat_of_zero_le (Int.floor_nonneg.2 (div_nonneg h0 hr.le))
    have hqk : q / r = N := by
      rw [div_eq_iff hr.ne']
      rw [framesPast, hN] at h
      push_cast at h
      linarith
    have hn53 : N ≤ 2 ^ 53 := by
      have : (N:ℚ) < 2 ^ 53 := by rw [← hqk]; exact hq
      have : N < 2 ^ 53 := by exact_mod_cast this
      exact this.le
    exact hw N (by rw [hqk]; exact hF.nat N hn53)

/-- What is read from the text of a time, if the frames past the second are written without an exponent. -/
theorem rate_read {F : Fl} (hF : F.Lawful) {root : Attrs} {q r : ℚ} (h0 : 0 ≤ q) (hr : 0 < r) (hr6 : r ≤ 999999)
    (hq : q / r < 2 ^ 53) (hroot : HasFps F root r)
    (hp : (∃ m : ℕ, F.rnd (q / r) = m) ∨ tiny ≤ framesPast q r) :
    ∃ n : ℕ, (F.rnd (q / r) = n ∧ |(n:ℚ) * r - q| ≤ q / 2 ^ 53 ∧
        T.new F (some root) (.str (T.str F ⟨q, some r⟩)) = .ok ⟨F.rnd (n * r), some r⟩) ∨
      ((∀ m : ℕ, F.rnd (q / r) ≠ m) ∧ (n:ℚ) * r + framesPast q r = q ∧ tiny ≤ framesPast q r ∧
        T.new F (some root) (.str (T.str F ⟨q, some r⟩)) =
          .ok ⟨F.rnd (F.rnd (n * r) + F.rnd (six (framesPast q r))), some r⟩) := by
  obtain ⟨n, ε, hn53, he, e0, e1, herr, hfl⟩ := rate_seconds hF h0 hr hq
  refine ⟨n, ?_⟩
  by_cases hε : ε = 0
  · left
    subst hε
    rw [add_zero] at he herr
    have herr' : |(n:ℚ) * r - q| ≤ q / 2 ^ 53 := by
      have e : (n:ℚ) * r - q = ((n:ℚ) - q / r) * r := by field_simp
      rw [e, abs_mul, abs_of_pos hr]
      calc _ ≤ q / r / 2 ^ 53 * r := by gcongr
        _ = q / 2 ^ 53 := by field_simp
    refine ⟨he, herr', ?_⟩
    by_cases hn : n = 0
    · subst hn
      have hq0 : q = 0 := by
        have h1 := (abs_le.1 herr').1
        rw [Nat.cast_zero, zero_mul, zero_sub] at h1
        have : q ≤ q / 2 ^ 53 := by linarith
        rw [le_div_iff₀ (by positivity)] at this
        nlinarith
      subst hq0
      rw [rate_str_zero hF, new_str hroot hr]
      have hz : (⟨false, ['0'], []⟩ : Amount).value = 0 := by simp [Amount.value, natVal, digV]
      have e : (['0', 'f'] : Str) = specText (secParts 0 ⟨false, ['0'], []⟩) [] := rfl
      rw [e, parseSpec_text F _ (secParts_valid 0 ⟨by simp, by decide, by simp⟩) (secParts_distinct 0 _) (by simp),
        rate_frames hF (by norm_num) (by rw [hz]), hz, hF.zero]
      simp [hF.zero]
    · rw [rate_str_at h0 he hn, new_str hroot hr, parseSpec_text F _ (mkParts_valid _ _)
        (by rw [Distinct, mkParts_units]; exact (hmsParts_units n).1) (by simp), rate_frames_at hF hn53]
  · right
    have hfl := hfl hε
    have hnq : (n:ℚ) * r + framesPast q r = q := by
      rw [framesPast, hfl]; push_cast; ring
    have hb := framesPast_bounds (q := q) hr
    have hwhole : ∀ m : ℕ, F.rnd (q / r) ≠ m := by
      intro m hm
      rw [he] at hm
      have h1 : (n:ℚ) ≤ m := by linarith
      have h2 : (m:ℚ) < (n + 1 : ℕ) := by push_cast; linarith
      have h3 := Nat.cast_le.1 h1
      have h4 := Nat.cast_lt.1 h2
      have : m = n := by omega
      subst this
      exact hε (by linarith)
    have hr4 : tiny ≤ framesPast q r := by
      rcases hp with hp | hp
      · obtain ⟨m, hm⟩ := hp
        exact absurd hm (hwhole m)
      · exact hp
    refine ⟨hwhole, hnq, hr4, ?_⟩
    obtain ⟨a, a1, a2, a3, a4⟩ := fmtG_amount hr4 (by linarith [hb.2])
    have hs0 : 0 ≤ a.value := by
      have h5 : 0 < framesPast q r := lt_of_lt_of_le (by norm_num [tiny]) hr4
      rw [a4, six, if_neg h5.ne', if_neg (not_lt.2 h5.le)]; exact (sixPos_pos h5).le
    rw [rate_str_past h0 he e0 e1 hε, ← a3, ← secParts_text, new_str hroot hr,
      parseSpec_text F _ (secParts_valid n a2) (secParts_distinct n a) (by simp), rate_frames hF hn53 hs0, a4]

/-- What is read is the time itself, but for what six digits lose and what floating point rounds off. -/
theorem rate_moved {F : Fl} (hF : F.Lawful) {root : Attrs} {q r : ℚ} (h0 : 0 ≤ q) (hr : 0 < r) (hr6 : r ≤ 999999)
    (hq : q / r < 2 ^ 53) (hroot : HasFps F root r)
    (hp : (∃ m : ℕ, F.rnd (q / r) = m) ∨ tiny ≤ framesPast q r) :
    ∃ x, T.new F (some root) (.str (T.str F ⟨q, some r⟩)) = .ok ⟨x, some r⟩ ∧
      (((∃ m : ℕ, F.rnd (q / r) = m) ∧ |x - q| ≤ q / 2 ^ 50) ∨
        ((∀ m : ℕ, F.rnd (q / r) ≠ m) ∧ |x - (q + (six (framesPast q r) - framesPast q r))| ≤ q / 2 ^ 50)) := by
  obtain ⟨n, ⟨hm, he, hn⟩ | ⟨hw, hnq, hr4, hn⟩⟩ := rate_read hF h0 hr hr6 hq hroot hp
  · refine ⟨_, hn, .inl ⟨⟨n, hm⟩, ?_⟩⟩
    have h1 := hF.err ((n:ℚ) * r)
    have hle : |(n:ℚ) * r| ≤ 2 * q := by
      have := abs_le.1 he
      have h53 : q / 2 ^ 53 ≤ q := div_le_self h0 (by norm_num)
      rw [abs_of_nonneg (by positivity)]; linarith
    have h2 : |(n:ℚ) * r| / 2 ^ 53 ≤ 2 * q / 2 ^ 53 := by gcongr
    rw [show F.rnd ((n:ℚ) * r) - q = (F.rnd ((n:ℚ) * r) - n * r) + (n * r - q) by ring]
    refine (abs_add_le _ _).trans ?_
    have : 2 * q / 2 ^ 53 + q / 2 ^ 53 ≤ q / 2 ^ 50 := by
      rw [← add_div, div_le_div_iff₀ (by positivity) (by positivity)]; nlinarith
    linarith
  · refine ⟨_, hn, .inr ⟨hw, ?_⟩⟩
    have hb := framesPast_bounds (q := q) hr
    set p := framesPast q r
    have hr0 : 0 < p := lt_of_lt_of_le (by norm_num [tiny]) hr4
    have h1 := six_err hr0
    have h2 := hF.err (six p)
    have h0' := hF.err ((n:ℚ) * r)
    have h3 := hF.err (F.rnd ((n:ℚ) * r) + F.rnd (six p))
    have hnr : 0 ≤ (n:ℚ) * r := by positivity
    have hs : |six p| ≤ 2 * p := by
      have := abs_le.1 h1
      rw [abs_le]; constructor <;> linarith
    have hs2 : |six p| / 2 ^ 53 ≤ 2 * p / 2 ^ 53 := by gcongr
    rw [abs_of_nonneg hnr] at h0'
    have h4 : |F.rnd ((n:ℚ) * r) + F.rnd (six p) - (q + (six p - p))| ≤ n * r / 2 ^ 53 + 2 * p / 2 ^ 53 := by
      rw [show F.rnd ((n:ℚ) * r) + F.rnd (six p) - (q + (six p - p)) =
        (F.rnd ((n:ℚ) * r) - n * r) + (F.rnd (six p) - six p) by rw [← hnq]; ring]
      exact (abs_add_le _ _).trans (by linarith)
    have h4' : (n:ℚ) * r / 2 ^ 53 + 2 * p / 2 ^ 53 ≤ 2 * q / 2 ^ 53 := by
      rw [← add_div, div_le_div_iff₀ (by positivity) (by positivity)]; nlinarith
    have h5 : |F.rnd ((n:ℚ) * r) + F.rnd (six p)| ≤ 3 * q := by
      have h6 := abs_le.1 h4
      have h7 := abs_le.1 h1
      have h8 : 2 * q / 2 ^ 53 ≤ q / 2 := by
        rw [div_le_div_iff₀ (by positivity) (by positivity)]; nlinarith
      rw [abs_le]; constructor <;> linarith
    have h6 : |F.rnd ((n:ℚ) * r) + F.rnd (six p)| / 2 ^ 53 ≤ 3 * q / 2 ^ 53 := by gcongr
    rw [show F.rnd (F.rnd ((n:ℚ) * r) + F.rnd (six p)) - (q + (six p - p)) =
      (F.rnd (F.rnd ((n:ℚ) * r) + F.rnd (six p)) - (F.rnd ((n:ℚ) * r) + F.rnd (six p))) +
        (F.rnd ((n:ℚ) * r) + F.rnd (six p) - (q + (six p - p))) by ring]
    refine (abs_add_le _ _).trans ?_
    have h9 : 2 * q / 2 ^ 53 + 3 * q / 2 ^ 53 ≤ q / 2 ^ 50 := by
      rw [← add_div, div_le_div_iff₀ (by positivity) (by positivity)]; nlinarith
    linarith

theorem rate_near {F : Fl} (hF : F.Lawful) {root : Attrs} {q r : ℚ} (h0 : 0 ≤ q) (hr : 0 < r) (hr6 : r ≤ 999999)
    (hq : q / r < 2 ^ 53) (hroot : HasFps F root r)
    (hp : (∃ m : ℕ, F.rnd (q / r) = m) ∨ tiny ≤ framesPast q r) :
    ∃ x, T.new F (some root) (.str (T.str F ⟨q, some r⟩)) = .ok ⟨x, some r⟩ ∧
      |x - q| ≤ 5 / 10 ^ 6 * r + q / 2 ^ 50 := by
  obtain ⟨x, hx, ⟨-, h⟩ | ⟨hw, h⟩⟩ := rate_moved hF h0 hr hr6 hq hroot hp
  · exact ⟨x, hx, h.trans (by linarith)⟩
  · refine ⟨x, hx, ?_⟩
    have hb := framesPast_bounds (q := q) hr
    have hp0 := framesPast_pos hF h0 hr hq hw
    have h1 := six_err hp0
    rw [show x - q = (x - (q + (six (framesPast q r) - framesPast q r))) + (six (framesPast q r) - framesPast q r) by ring]
    refine (abs_add_le _ _).trans ?_
    linarith [hb.2]

/-- The text of a time a tiny part of a frame past a second. -/
theorem rate_tiny {F : Fl} (hF : F.Lawful) {root : Attrs} {q r : ℚ} (h0 : 0 ≤ q) (hr : 0 < r)
    (hq : q / r < 2 ^ 53) (hroot : HasFps F root r) (hp : framesPast q r < tiny) (hw : ∀ m : ℕ, F.rnd (q / r) ≠ m) :
    ∃ (n d : ℕ), (n:ℚ) * r + framesPast q r = q ∧ 5 ≤ d ∧
      T.new F (some root) (.str (T.str F ⟨q, some r⟩)) =
        if n = 0 then .ok ⟨F.rnd (-(d:ℚ)), some r⟩ else .error .value := by
  obtain ⟨n, ε, hn53, he, e0, e1, herr, hfl⟩ := rate_seconds hF h0 hr hq
  have hε : ε ≠ 0 := fun h => hw n (by rw [he, h, add_zero])
  have hr0 := framesPast_pos hF h0 hr hq hw
  have hfl := hfl hε
  have hnq : (n:ℚ) * r + framesPast q r = q := by
    rw [framesPast, hfl]; push_cast; ring
  obtain ⟨a, d, ds, f1, f2, f3, f4, f5, f6, f7, f8⟩ := fmtG_small hr0 hp
  refine ⟨n, d, hnq, f7, ?_⟩
  have htext : T.str F ⟨q, some r⟩ = specText (mkParts false (hmsParts n)) [] ++
      ((if hmsParts n = [] then [] else [' ']) ++ (a.text ++ 'e' :: '-' :: ds ++ ['f'])) := by
    rw [rate_str_past h0 he e0 e1 hε, f1]
    by_cases h : hmsParts n = []
    · simp [h, mkParts, specText, join]
    · rw [join_snoc _ (by simpa using h), specText_mkParts _ _ h]
      simp only [Bool.false_eq_true, if_false, List.nil_append, h]
      rfl
  have hblank : ∀ c ∈ (if hmsParts n = [] then [] else [' '] : Str), isSpace c = true := by
    intro c hc
    split at hc
    · cases hc
    · rw [List.mem_singleton] at hc; subst hc; decide
  have hnil : mkParts false (hmsParts n) = [] → hmsParts n = [] := by
    intro h
    have := congrArg (List.map Part.unit) h
    rw [mkParts_units] at this
    simpa using this
  rw [htext, new_str hroot hr, parse_exponent F _ (mkParts_valid _ _)
    (by rw [Distinct, mkParts_units]; exact (hmsParts_units n).1)
    (by
      intro p hp hc
      have h2 := (hmsParts_units n).2
      rw [← mkParts_units false] at h2
      exact h2 (List.mem_map.2 ⟨p, hp, hc⟩))
    (by
      intro p hp
      cases hm : hmsParts n with
      | nil => rw [hm] at hp; simp [mkParts] at hp
      | cons x r =>
        rw [hm] at hp
        simp only [mkParts, List.head?_cons, Option.mem_def, Option.some.injEq] at hp
        rw [← hp])
    hblank (fun h => by rw [if_pos (hnil h)]) f3 f2 f4 f5, f6]
  set ps := partsOf F (mkParts false (hmsParts n)) with hps
  have hpf : ps.lookup 'f' = none := by
    have := lookup_partsOf F (mkParts false (hmsParts n)) .f
    rw [show TimeUnit.f.char = 'f' from rfl] at this
    rw [hps, this, Option.map_eq_none_iff, List.find?_eq_none]
    intro p hp hc
    have h2 := (hmsParts_units n).2
    rw [← mkParts_units false] at h2
    exact h2 (List.mem_map.2 ⟨p, hp, by simpa using hc⟩)
  have hlk : ∀ c : Char, c ≠ 'e' → c ≠ 'f' →
      (ps ++ [('e', F.rnd a.value), ('f', F.rnd (-(d:ℚ)))]).lookup c = ps.lookup c := by
    intro c h1 h2
    rw [show ps ++ [('e', F.rnd a.value), ('f', F.rnd (-(d:ℚ)))] =
      (ps ++ [('e', F.rnd a.value)]) ++ [('f', F.rnd (-(d:ℚ)))] by simp, lookup_append_single, lookup_append_single]
    simp [h1, h2]
  have hlf : (ps ++ [('e', F.rnd a.value), ('f', F.rnd (-(d:ℚ)))]).lookup 'f' = some (F.rnd (-(d:ℚ))) := by
    rw [show ps ++ [('e', F.rnd a.value), ('f', F.rnd (-(d:ℚ)))] =
      (ps ++ [('e', F.rnd a.value)]) ++ [('f', F.rnd (-(d:ℚ)))] by simp, lookup_append_single, lookup_append_single, hpf]
    simp
  have hsec : (secondsOf F (ps ++ [('e', F.rnd a.value), ('f', F.rnd (-(d:ℚ)))])).getD 0 = n := by
    rw [← hms_seconds hF hn53]
    simp only [secondsOf, addSeconds, hlk 'h' (by decide) (by decide), hlk 'm' (by decide) (by decide),
      hlk 's' (by decide) (by decide)]
    rfl
  have hneg : F.rnd (-(d:ℚ)) < 0 := by
    rw [hF.neg]
    have : 0 < F.rnd (d:ℚ) := hF.pos (by exact_mod_cast (by omega : 0 < d))
    linarith
  by_cases hn : n = 0
  · subst hn
    simp only [framesOf, hsec, hlf, Nat.cast_zero, ne_eq, not_true_eq_false, if_false, if_true, false_and,
      lt_irrefl, zero_add, hF.idem]
  · have hn' : (n:ℚ) ≠ 0 := by exact_mod_cast hn
    simp only [framesOf, hsec, hlf, if_neg hn, if_pos hn', if_pos (And.intro hn' hneg)]

/-- Six digits are enough for thousandths below a thousand. -/
theorem six_thousandths {c : ℕ} (h0 : c ≠ 0) (h : c < 10 ^ 6) : six ((c:ℚ) / 1000) = (c:ℚ) / 1000 := by
  have hc : (0:ℚ) < c := by exact_mod_cast Nat.pos_of_ne_zero h0
  have hq : (0:ℚ) < (c:ℚ) / 1000 := by positivity
  rw [six, if_neg hq.ne', if_neg (not_lt.2 hq.le)]
  have hl : Int.log 10 ((c:ℚ) / 1000) ≤ 2 := log10_le hq (by
    have h' : (c:ℚ) < 10 ^ 6 := by exact_mod_cast h
    have e6 : (10:ℚ) ^ ((2:ℤ) + 1) = 10 ^ 3 := by norm_num
    rw [e6, div_lt_iff₀ (by norm_num)]; linarith)
  obtain ⟨d, hd⟩ := Int.eq_ofNat_of_zero_le (show 0 ≤ 2 - Int.log 10 ((c:ℚ) / 1000) by omega)
  have hd1 : 5 - Int.log 10 ((c:ℚ) / 1000) = ((d + 3 : ℕ):ℤ) := by push_cast; omega
  have hd2 : Int.log 10 ((c:ℚ) / 1000) - 5 = -((d + 3 : ℕ):ℤ) := by push_cast; omega
  rw [sixPos, hd1, hd2]
  have e : (c:ℚ) / 1000 * (10:ℚ) ^ ((d + 3 : ℕ):ℤ) = ((c * 10 ^ d : ℕ) : ℚ) := by
    rw [zpow_natCast, pow_add]; push_cast; ring
  rw [e, rhe_nat, zpow_neg, zpow_natCast, pow_add]
  push_cast
  field_simp
  norm_num

/-- Whole frames at a rate of so many eighths. -/
theorem eighths_written {F : Fl} (hF : F.Lawful) {n a : ℕ} (ha : 0 < a) (hn : n < 2 ^ 49) :
    (n:ℚ) / ((a:ℚ) / 8) < 2 ^ 53 ∧
      ((∃ m : ℕ, F.rnd ((n:ℚ) / ((a:ℚ) / 8)) = m) ∨ tiny ≤ framesPast n ((a:ℚ) / 8)) := by
  have haq : (1:ℚ) ≤ a := by exact_mod_cast ha
  have hr : (0:ℚ) < (a:ℚ) / 8 := by positivity
  have hnq : (n:ℚ) < 2 ^ 49 := by exact_mod_cast hn
  have hn0 : (0:ℚ) ≤ n := Nat.cast_nonneg n
  have hq : (n:ℚ) / ((a:ℚ) / 8) < 2 ^ 53 := by
    rw [div_lt_iff₀ hr]
    have : (2:ℚ) ^ 53 * (1 / 8) ≤ 2 ^ 53 * ((a:ℚ) / 8) := by gcongr
    have e49 : (2:ℚ) ^ 49 ≤ 2 ^ 53 * (1 / 8) := by norm_num
    linarith
  refine ⟨hq, ?_⟩
  by_contra hc
  push Not at hc
  have hpos := framesPast_pos hF hn0 hr hq hc.1
  have h2 := hc.2
  have e : framesPast (n:ℚ) ((a:ℚ) / 8) = (((8 * n : ℤ) - a * ⌊(n:ℚ) / ((a:ℚ) / 8)⌋ : ℤ):ℚ) / 8 := by
    rw [framesPast]; push_cast; ring
  rw [e] at hpos h2
  have h3 : (0:ℚ) < (((8 * n : ℤ) - a * ⌊(n:ℚ) / ((a:ℚ) / 8)⌋ : ℤ):ℚ) := by linarith
  have h4 : (1:ℤ) ≤ (8 * n : ℤ) - a * ⌊(n:ℚ) / ((a:ℚ) / 8)⌋ := by exact_mod_cast Int.cast_pos.1 h3
  have h5 : (1:ℚ) ≤ (((8 * n : ℤ) - a * ⌊(n:ℚ) / ((a:ℚ) / 8)⌋ : ℤ):ℚ) := by exact_mod_cast h4
  have : tiny < 1 / 8 := by norm_num [tiny]
  linarith

end Sang
