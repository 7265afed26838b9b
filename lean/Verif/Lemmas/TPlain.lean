import Verif.Lemmas.Reload
import Verif.Lemmas.TRate

/-! Helper lemmas: the text of a time stays as it is in an attribute. -/

namespace Sang
open Spec

theorem plain_append {a b : Str} (ha : Plain a) (hb : Plain b) : Plain (a ++ b) := by
  intro c hc
  rcases List.mem_append.1 hc with h | h
  · exact ha c h
  · exact hb c h

theorem plain_digits {a : Str} (h : ∀ c ∈ a, isDig c = true) : Plain a := by
  intro c hc
  have := h c hc
  refine ⟨?_, ?_, ?_⟩ <;> rintro rfl <;> exact absurd this (by decide)

theorem part_plain (n : ℕ) {a : Amount} (ha : a.Valid) : Plain (specText (secParts n a) []) := by
  have h := specText_plain (hmsParts n) false
  intro c hc
  have ht : Plain (a.text ++ ['f']) := by
    refine plain_append ?_ (by decide)
    rw [Amount.text]
    refine plain_append (plain_append ?_ (plain_digits ha.2.1)) ?_
    · split <;> decide
    · split
      · decide
      · exact plain_append (a := ['.']) (by decide) (plain_digits ha.2.2)
  rw [secParts, specText, List.flatMap_append, List.append_nil] at hc
  rcases List.mem_append.1 hc with hc | hc
  · exact h c (by rw [specText, List.append_nil]; exact hc)
  · simp only [List.flatMap_cons, List.flatMap_nil, List.append_nil] at hc
    rcases List.mem_append.1 hc with hc | hc
    · rcases List.mem_append.1 hc with hc | hc
      · split at hc
        · cases hc
        · rw [List.mem_singleton] at hc; subst hc; decide
      · exact ht c (List.mem_append_left _ hc)
    · exact ht c (List.mem_append_right _ hc)

/-- At any frame rate. -/
theorem rate_plain {F : Fl} (hF : F.Lawful) {q r : ℚ} (h0 : 0 ≤ q) (hr : 0 < r) (hr6 : r ≤ 999999)
    (hq : q / r < 2 ^ 53) (hp : (∃ m : ℕ, F.rnd (q / r) = m) ∨ tiny ≤ framesPast q r) :
    Plain (T.str F ⟨q, some r⟩) := by
  obtain ⟨n, ε, hn53, he, e0, e1, herr, -⟩ := rate_seconds hF h0 hr hq
  by_cases hε : ε = 0
  · subst hε
    rw [add_zero] at he herr
    by_cases hn : n = 0
    · subst hn
      have hz : q / r ≤ q / r / 2 ^ 53 := by
        rw [Nat.cast_zero, zero_sub, abs_neg, abs_of_nonneg (by positivity)] at herr
        exact herr
      have hq0 : q = 0 := by
        rw [le_div_iff₀ (by positivity)] at hz
        have h1 : 0 ≤ q / r := by positivity
        have h2 : q / r = 0 := by nlinarith
        rcases div_eq_zero_iff.1 h2 with h | h
        · exact h
        · exact absurd h hr.ne'
      subst hq0
      rw [rate_str_zero hF]; decide
    · rw [rate_str_at h0 he hn]; exact specText_plain _ _
  · rw [rate_str_past h0 he e0 e1 hε]
    have hp4 : tiny ≤ framesPast q r := by
      rcases hp with ⟨m, hm⟩ | hp
      · exfalso
        rw [he] at hm
        have h1 : (n:ℚ) ≤ m := by linarith
        have h2 : (m:ℚ) < (n + 1 : ℕ) := by push_cast; linarith
        have h3 := Nat.cast_le.1 h1
        have h4 := Nat.cast_lt.1 h2
        have : m = n := by omega
        subst this
        exact hε (by linarith)
      · exact hp
    have hb := framesPast_bounds (q := q) hr
    obtain ⟨a, a1, a2, a3, a4⟩ := fmtG_amount hp4 (by linarith [hb.2])
    rw [← a3, ← secParts_text]
    exact part_plain n a2

end Sang
