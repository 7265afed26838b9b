import Verif.Py
import Mathlib.Tactic.Linarith
import Mathlib.Tactic.Ring
import Mathlib.Tactic.FieldSimp
import Mathlib.Tactic.Positivity
import Mathlib.Tactic.NormNum
import Mathlib.Tactic.IntervalCases

/-! Helper lemmas about number text: digits, natural numbers, rounding. -/

namespace Sang

theorem digV_digC {d : ℕ} (h : d < 10) : digV (digC d) = d := by
  interval_cases d <;> rfl

theorem isDig_digC {d : ℕ} (h : d < 10) : isDig (digC d) = true := by
  interval_cases d <;> rfl

theorem isDig_not_space {c : Char} (h : isDig c = true) : isSpace c = false := by
  simp only [isDig, Bool.and_eq_true, decide_eq_true_eq] at h
  obtain ⟨h1, h2⟩ := h
  simp only [isSpace]
  simp only [Bool.or_eq_false_iff, Bool.and_eq_false_iff, decide_eq_false_iff_not, beq_eq_false_iff_ne]
  omega

theorem isDig_ascii {c : Char} (h : isDig c = true) : decide (128 ≤ c.toNat) = false := by
  simp only [isDig, Bool.and_eq_true, decide_eq_true_eq] at h
  simp only [decide_eq_false_iff_not]; omega

/-! ### natVal -/

theorem natVal_foldl (s : Str) (a : ℕ) :
    s.foldl (fun a c => 10 * a + digV c) a = a * 10 ^ s.length + natVal s := by
  induction s generalizing a with
  | nil => simp [natVal]
  | cons c s ih =>
    simp only [List.foldl_cons, natVal, List.length_cons]
    rw [ih, ih (10 * 0 + digV c)]
    ring

theorem natVal_append (s t : Str) : natVal (s ++ t) = natVal s * 10 ^ t.length + natVal t := by
  rw [natVal, List.foldl_append, natVal_foldl]; rfl

@[simp] theorem natVal_nil : natVal [] = 0 := rfl

theorem natVal_singleton (c : Char) : natVal [c] = digV c := by simp [natVal]

theorem natVal_cons (c : Char) (s : Str) : natVal (c :: s) = digV c * 10 ^ s.length + natVal s := by
  rw [show c :: s = [c] ++ s from rfl, natVal_append, natVal_singleton]

/-! ### natStr -/

theorem natStrAux_val (f n : ℕ) (acc : Str) (h : n < f) :
    natVal (natStrAux f n acc) = n * 10 ^ acc.length + natVal acc := by
  induction f generalizing n acc with
  | zero => omega
  | succ f ih =>
    simp only [natStrAux]
    split
    · rename_i h10
      rw [natVal_cons, digV_digC h10]
    · rw [ih _ _ (by omega), natVal_cons, digV_digC (Nat.mod_lt _ (by norm_num)), List.length_cons]
      have := Nat.div_add_mod n 10
      calc n / 10 * 10 ^ (acc.length + 1) + (n % 10 * 10 ^ acc.length + natVal acc)
          = (10 * (n / 10) + n % 10) * 10 ^ acc.length + natVal acc := by ring
        _ = _ := by rw [this]

@[simp] theorem natVal_natStr (n : ℕ) : natVal (natStr n) = n := by
  rw [natStr, natStrAux_val _ _ _ (Nat.lt_succ_self n)]; simp

theorem natStrAux_digits (f n : ℕ) (acc : Str) (h : ∀ c ∈ acc, isDig c = true) :
    ∀ c ∈ natStrAux f n acc, isDig c = true := by
  induction f generalizing n acc with
  | zero => simpa [natStrAux] using h
  | succ f ih =>
    simp only [natStrAux]
    split
    · rename_i h10
      intro c hc
      rcases List.mem_cons.1 hc with rfl | hc
      · exact isDig_digC h10
      · exact h c hc
    · apply ih
      intro c hc
      rcases List.mem_cons.1 hc with rfl | hc
      · exact isDig_digC (Nat.mod_lt _ (by norm_num))
      · exact h c hc

theorem natStr_digits (n : ℕ) : ∀ c ∈ natStr n, isDig c = true :=
  natStrAux_digits _ _ _ (by simp)

theorem natStrAux_ne_nil (f n : ℕ) (acc : Str) (h : n < f) : natStrAux f n acc ≠ [] := by
  induction f generalizing n acc with
  | zero => omega
  | succ f ih =>
    simp only [natStrAux]
    split
    · simp
    · exact ih _ _ (by omega)

theorem natStr_ne_nil (n : ℕ) : natStr n ≠ [] := natStrAux_ne_nil _ _ _ (Nat.lt_succ_self n)

theorem natStr_inj {a b : ℕ} (h : natStr a = natStr b) : a = b := by
  simpa using congrArg natVal h

/-! ### fracStr -/

@[simp] theorem fracStr_length (k m : ℕ) : (fracStr k m).length = k := by
  induction k generalizing m with
  | zero => rfl
  | succ k ih => simp [fracStr, ih]

theorem fracStr_digits (k m : ℕ) : ∀ c ∈ fracStr k m, isDig c = true := by
  induction k generalizing m with
  | zero => simp [fracStr]
  | succ k ih =>
    intro c hc
    simp only [fracStr, List.mem_append, List.mem_singleton] at hc
    rcases hc with hc | rfl
    · exact ih _ c hc
    · exact isDig_digC (Nat.mod_lt _ (by norm_num))

@[simp] theorem natVal_fracStr (k m : ℕ) : natVal (fracStr k m) = m % 10 ^ k := by
  induction k generalizing m with
  | zero => simp [fracStr, Nat.mod_one]
  | succ k ih =>
    rw [fracStr, natVal_append, ih, natVal_singleton, digV_digC (Nat.mod_lt _ (by norm_num))]
    simp only [List.length_singleton, pow_one]
    rw [pow_succ, mul_comm (10 ^ k) 10, Nat.mod_mul]
    ring

theorem fracStr_zero (k : ℕ) : fracStr k 0 = List.replicate k '0' := by
  induction k with
  | zero => rfl
  | succ k ih =>
    rw [fracStr, Nat.zero_div, ih, List.replicate_succ']; rfl

/-! ### rhe -/

theorem rhe_err (q : ℚ) : |(rhe q : ℚ) - q| ≤ 1/2 := by
  have h1 := Int.floor_le q
  have h2 := Int.lt_floor_add_one q
  simp only [rhe]
  split
  · rw [abs_le]; constructor <;> linarith
  · split
    · rw [abs_le]; push_cast; constructor <;> linarith
    · split
      · rw [abs_le]; constructor <;> linarith
      · rw [abs_le]; push_cast; constructor <;> linarith

@[simp] theorem rhe_int (n : ℤ) : rhe (n : ℚ) = n := by
  simp [rhe]

@[simp] theorem rhe_nat (n : ℕ) : rhe (n : ℚ) = n := by
  have := rhe_int (n : ℤ); simpa using this

theorem rhe_mono {p q : ℚ} (h : p ≤ q) : rhe p ≤ rhe q := by
  by_contra hc
  push Not at hc
  have hp := abs_le.1 (rhe_err p)
  have hq := abs_le.1 (rhe_err q)
  have hc' : (rhe q : ℚ) + 1 ≤ rhe p := by exact_mod_cast hc
  have e1 : p = q := by linarith [hp.2, hq.1]
  subst e1
  exact lt_irrefl _ hc

theorem rhe_nonneg {q : ℚ} (h : 0 ≤ q) : 0 ≤ rhe q := by
  have := rhe_mono h
  rwa [show (0:ℚ) = ((0:ℤ):ℚ) by simp, rhe_int] at this

theorem rhe_unique {q : ℚ} {n : ℤ} (h : |(n:ℚ) - q| < 1/2) : rhe q = n := by
  have h1 := abs_lt.1 h
  have h2 := abs_le.1 (rhe_err q)
  have a : (rhe q : ℚ) < n + 1 := by linarith [h1.1, h2.2]
  have b : (n : ℚ) < rhe q + 1 := by linarith [h1.2, h2.1]
  have a' : rhe q < n + 1 := by exact_mod_cast a
  have b' : n < rhe q + 1 := by exact_mod_cast b
  omega

theorem rhe_neg (q : ℚ) : rhe (-q) = -rhe q := by
  by_cases hint : ∃ n : ℤ, q = n
  · obtain ⟨n, rfl⟩ := hint
    rw [← Int.cast_neg, rhe_int, rhe_int]
  · have hfl : ⌊-q⌋ = -⌊q⌋ - 1 := by
      rw [Int.floor_eq_iff]
      have h1 := Int.floor_le q
      have h2 := Int.lt_floor_add_one q
      have h3 : (⌊q⌋ : ℚ) ≠ q := fun h => hint ⟨_, h.symm⟩
      have h4 : (⌊q⌋ : ℚ) < q := lt_of_le_of_ne h1 h3
      push_cast
      constructor <;> linarith
    simp only [rhe, hfl]
    push_cast
    have key : -q - (-(⌊q⌋:ℚ) - 1) = 1 - (q - ⌊q⌋) := by ring
    rw [key]
    generalize hr : q - (⌊q⌋:ℚ) = r
    rcases lt_trichotomy r (1/2) with h | h | h
    · rw [if_neg (by linarith), if_pos (by linarith), if_pos h]; ring
    · subst h
      norm_num
      by_cases he : ⌊q⌋ % 2 = 0
      · rw [if_neg (by omega), if_pos (by omega)]
      · rw [if_pos (by omega), if_neg (by omega)]; ring
    · rw [if_pos (by linarith), if_neg (by linarith), if_pos h]; ring

theorem rhe_le_of_le {q : ℚ} {n : ℤ} (h : q ≤ n) : rhe q ≤ n := by
  simpa using rhe_mono h

theorem le_rhe_of_le {q : ℚ} {n : ℤ} (h : (n:ℚ) ≤ q) : n ≤ rhe q := by
  simpa using rhe_mono h

end Sang
