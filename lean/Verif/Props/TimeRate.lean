import Verif.Lemmas.TRate

/-!
# Frame rates that aren't whole numbers (C158)

Television and films have 29.97 or 23.976 frames per second. The text of a time gives its whole seconds, and the frames
past the last of them with six digits; at such a rate these aren't a whole number even if the time is at a whole frame.
-/

namespace Sang
open Spec

/-- C158. At any frame rate, which times come back to within five millionths of a second (and what floating point
rounds off): those whose number of seconds, in floating point, is whole, and those at least 0.00009999995 of a frame past
a second. -/
theorem c158_near_iff {F : Fl} (hF : F.Lawful) (root : Attrs) (q r : ℚ) (h0 : 0 ≤ q) (hr : 0 < r) (hr6 : r ≤ 999999)
    (hq : q / r < 2 ^ 53) (hroot : HasFps F root r) :
    (∃ x, T.new F (some root) (.str (T.str F ⟨q, some r⟩)) = .ok ⟨x, some r⟩ ∧
      |x - q| ≤ 5 / 10 ^ 6 * r + q / 2 ^ 50) ↔
    (∃ m : ℕ, F.rnd (q / r) = m) ∨ 9999995 / 10 ^ 11 ≤ q - r * ⌊q / r⌋ := by
  refine ⟨?_, rate_near hF h0 hr hr6 hq hroot⟩
  rintro ⟨x, hx, hb⟩
  by_contra hc
  push Not at hc
  obtain ⟨n, d, hnq, hd, h⟩ := rate_tiny hF h0 hr hq hroot hc.2 hc.1
  rw [h] at hx
  split at hx
  · rename_i hn
    injection hx with hx
    injection hx with hx
    have h5 : x ≤ -5 := by
      have e : F.rnd (-(5:ℚ)) = -5 := by rw [hF.neg]; exact congrArg _ (by exact_mod_cast hF.nat 5 (by norm_num))
      rw [← hx, ← e]
      apply hF.mono
      have : (5:ℚ) ≤ d := by exact_mod_cast hd
      linarith
    have h7 : q / 2 ^ 50 ≤ q := div_le_self h0 (by norm_num)
    have h8 := (abs_le.1 hb).1
    linarith
  · cases hx

/-- C158, violated. If the frames past the second have more than six digits (and that is more than floating point
rounds), the time that is read back is another. -/
theorem c158_fails_digits {F : Fl} (hF : F.Lawful) (root : Attrs) (q r : ℚ) (h0 : 0 ≤ q) (hr : 0 < r)
    (hr6 : r ≤ 999999) (hq : q / r < 2 ^ 53) (hroot : HasFps F root r) (hw : ∀ m : ℕ, F.rnd (q / r) ≠ m)
    (h6 : q / 2 ^ 50 < |six (q - r * ⌊q / r⌋) - (q - r * ⌊q / r⌋)|) :
    T.new F (some root) (.str (T.str F ⟨q, some r⟩)) ≠ .ok ⟨q, some r⟩ := by
  intro h
  by_cases hp : tiny ≤ framesPast q r
  · obtain ⟨x, hx, ⟨⟨m, hm⟩, -⟩ | ⟨-, hx2⟩⟩ := rate_moved hF h0 hr hr6 hq hroot (.inr hp)
    · exact hw m hm
    · rw [h] at hx
      injection hx with hx
      injection hx with hx
      subst hx
      rw [show q - (q + (six (framesPast q r) - framesPast q r)) = -(six (framesPast q r) - framesPast q r) by ring,
        abs_neg] at hx2
      unfold framesPast at hx2
      linarith
  · obtain ⟨n, d, hnq, hd, hx⟩ := rate_tiny hF h0 hr hq hroot (not_le.1 hp) hw
    rw [h] at hx
    split at hx
    · injection hx with hx
      injection hx with hx
      rw [hF.neg] at hx
      have : 0 < F.rnd (d:ℚ) := hF.pos (by exact_mod_cast (by omega : 0 < d))
      linarith
    · cases hx

/-- C158. At a rate that is a whole number of eighths of a frame per second, below a thousand, every whole frame comes
back as itself. -/
theorem c158_eighths {F : Fl} (hF : F.Lawful) (root : Attrs) (n a : ℕ) (ha : 0 < a) (ha' : a < 8000) (hn : n < 2 ^ 49)
    (hroot : HasFps F root ((a:ℚ) / 8)) :
    T.new F (some root) (.str (T.str F ⟨n, some ((a:ℚ) / 8)⟩)) = .ok ⟨n, some ((a:ℚ) / 8)⟩ := by
  have haq : (1:ℚ) ≤ a := by exact_mod_cast ha
  have haq' : (a:ℚ) < 8000 := by exact_mod_cast ha'
  have hr : (0:ℚ) < (a:ℚ) / 8 := by positivity
  have hnq : (n:ℚ) < 2 ^ 49 := by exact_mod_cast hn
  have hn0 : (0:ℚ) ≤ n := Nat.cast_nonneg n
  have heighth : ∀ m : ℕ, m ≤ 2 ^ 53 → F.rnd ((m:ℚ) / 8) = m / 8 := by
    intro m hm
    have := hF.exact m (-3) (by rw [abs_of_nonneg (by positivity)]; exact_mod_cast hm)
    have e : ((m:ℤ):ℚ) * (2:ℚ) ^ (-3:ℤ) = (m:ℚ) / 8 := by push_cast; norm_num [div_eq_mul_inv]
    rwa [e] at this
  have hrep : F.rnd (n:ℚ) = n := hF.nat n (by omega)
  obtain ⟨hq, hp⟩ := eighths_written hF ha hn
  obtain ⟨m, ⟨-, he, hx⟩ | ⟨hw, hmq, hr4, hx⟩⟩ := rate_read hF hn0 hr (by linarith) hq hroot hp
  · have hz : (m:ℚ) * (a / 8) = n := by
      have h1 : (n:ℚ) / 2 ^ 53 < 1 / 8 := by
        have e49 : (2:ℚ) ^ 49 * 8 ≤ 2 ^ 53 := by norm_num
        rw [div_lt_div_iff₀ (by positivity) (by positivity)]; linarith
      have h2 := lt_of_le_of_lt he h1
      have e : (m:ℚ) * (a / 8) - n = (((m:ℤ) * a - 8 * n : ℤ):ℚ) / 8 := by push_cast; ring
      rw [e, abs_div, abs_of_pos (show (0:ℚ) < 8 by norm_num), div_lt_div_iff_of_pos_right (by norm_num)] at h2
      have h3 : |((m:ℤ) * a - 8 * n : ℤ)| < 1 := by exact_mod_cast h2
      have h4 : (m:ℤ) * a - 8 * n = 0 := Int.abs_lt_one_iff.1 h3
      have h5 : (m:ℚ) * (a / 8) - n = 0 := by rw [e, h4]; simp
      linarith
    rw [hx, hz, hrep]
  · have hb := framesPast_bounds (q := (n:ℚ)) hr
    have hp0 := framesPast_pos hF hn0 hr hq hw
    set p := framesPast (n:ℚ) ((a:ℚ) / 8)
    have hma : m * a ≤ 8 * n := by
      have : (m:ℚ) * a ≤ 8 * n := by linarith
      exact_mod_cast this
    obtain ⟨c, hc⟩ := Nat.exists_eq_add_of_le hma
    have hpc : p = (c:ℚ) / 8 := by
      have : (8:ℚ) * n = m * a + c := by exact_mod_cast hc
      linarith
    have hc0 : c ≠ 0 := by rintro rfl; rw [hpc] at hp0; norm_num at hp0
    have hc8 : c < 8000 := by
      have : (c:ℚ) < 8000 := by rw [hpc] at hb; linarith [hb.2]
      exact_mod_cast this
    have hsix : six p = p := by
      have := six_thousandths (c := 125 * c) (by omega) (by omega)
      have e : ((125 * c : ℕ):ℚ) / 1000 = p := by rw [hpc]; push_cast; ring
      rwa [e] at this
    have hrp : F.rnd p = p := by rw [hpc]; exact heighth c (by omega)
    have hrm : F.rnd ((m:ℚ) * (a / 8)) = m * (a / 8) := by
      have := heighth (m * a) (by omega)
      have e : ((m * a : ℕ):ℚ) / 8 = (m:ℚ) * (a / 8) := by push_cast; ring
      rwa [e] at this
    rw [hx, hsix, hrp, hrm, hmq, hrep]

/-- The hypotheses are met: frame 31 at 29.97 frames per second is written `1s 1.03f`; at 30000/1001, `1s 1.02997f`,
which is another time; and frame 26 at 12.5 frames per second, `2s 1f`. -/
example : T.str double ⟨31, some (double.rnd (2997 / 100))⟩ = "1s 1.03f".toList ∧
    9999995 / 10 ^ 11 ≤ 31 - double.rnd (2997 / 100) * ⌊31 / double.rnd (2997 / 100)⌋ ∧
    T.str double ⟨31, some (double.rnd (30000 / 1001))⟩ = "1s 1.02997f".toList ∧
    31 / 2 ^ 50 < |six (31 - double.rnd (30000 / 1001) * ⌊31 / double.rnd (30000 / 1001)⌋) -
      (31 - double.rnd (30000 / 1001) * ⌊31 / double.rnd (30000 / 1001)⌋)| ∧
    T.str double ⟨26, some ((100:ℕ) / 8)⟩ = "2s 1f".toList ∧
    HasFps double [("fps", .str "12.5".toList)] ((100:ℕ) / 8) := by
  refine ⟨by decide +kernel, by decide +kernel, by decide +kernel, by decide +kernel, by decide +kernel, _, rfl, ?_⟩
  decide +kernel

end Sang
