import Verif.Lemmas.TWhole

/-! Helper lemmas: the text `T.__str__` writes, as a specification. -/

namespace Sang
open Spec

/-- Parts separated by single spaces, the first one possibly negative. -/
def mkParts (neg : Bool) : List (ℕ × TimeUnit) → List Part
  | [] => []
  | (a, u) :: r =>
    ⟨[], ⟨neg, natStr a, []⟩, u⟩ :: r.map (fun x => ⟨[' '], ⟨false, natStr x.1, []⟩, x.2⟩)

theorem natAmount_valid (neg : Bool) (a : ℕ) : Amount.Valid ⟨neg, natStr a, []⟩ :=
  ⟨natStr_ne_nil a, natStr_digits a, by simp⟩

theorem natAmount_value (neg : Bool) (a : ℕ) :
    Amount.value ⟨neg, natStr a, []⟩ = (if neg then -1 else 1) * (a:ℚ) := by
  simp [Amount.value]

theorem mkParts_valid (neg : Bool) (l : List (ℕ × TimeUnit)) : ∀ p ∈ mkParts neg l, p.Valid := by
  cases l with
  | nil => simp [mkParts]
  | cons x r =>
    obtain ⟨a, u⟩ := x
    intro p hp
    simp only [mkParts, List.mem_cons, List.mem_map] at hp
    rcases hp with rfl | ⟨x, _, rfl⟩
    · exact ⟨by simp, natAmount_valid _ _⟩
    · exact ⟨by simp; decide, natAmount_valid _ _⟩

theorem mkParts_units (neg : Bool) (l : List (ℕ × TimeUnit)) :
    (mkParts neg l).map Part.unit = l.map Prod.snd := by
  cases l with
  | nil => rfl
  | cons x r => simp [mkParts, Function.comp_def]

theorem join_cons_flatMap (x : Str) (r : List Str) :
    join [' '] (x :: r) = x ++ r.flatMap (fun y => ' ' :: y) := by
  induction r generalizing x with
  | nil => simp [join]
  | cons y r ih => rw [join, ih]; simp

theorem specText_mkParts (neg : Bool) (l : List (ℕ × TimeUnit)) (hne : l ≠ []) :
    specText (mkParts neg l) [] =
      (if neg then ['-'] else []) ++ join [' '] (l.map fun x => natStr x.1 ++ [x.2.char]) := by
  cases l with
  | nil => exact absurd rfl hne
  | cons x r =>
    obtain ⟨a, u⟩ := x
    rw [List.map_cons, join_cons_flatMap]
    simp [mkParts, specText, Amount.text, List.flatMap_map, List.append_assoc]

/-- The amount of a unit in a list of (amount, unit). -/
def amt (l : List (ℕ × TimeUnit)) (u : TimeUnit) : ℕ :=
  ((l.find? (fun x => x.2 == u)).map Prod.fst).getD 0

theorem amount_map (r : List (ℕ × TimeUnit)) (u : TimeUnit) :
    amount (r.map (fun x => (⟨[' '], ⟨false, natStr x.1, []⟩, x.2⟩ : Part))) u = amt r u := by
  induction r with
  | nil => simp [amount, amt]
  | cons x r ih =>
    by_cases h : x.2 = u
    · simp [amount, amt, h, natAmount_value]
    · simp only [amount, amt, List.map_cons, List.find?_cons, beq_false_of_ne h] at ih ⊢
      exact ih

theorem amount_mkParts_pos (l : List (ℕ × TimeUnit)) (u : TimeUnit) :
    amount (mkParts false l) u = amt l u := by
  cases l with
  | nil => simp [amount, amt, mkParts]
  | cons x r =>
    obtain ⟨a, v⟩ := x
    by_cases h : v = u
    · simp [amount, amt, mkParts, h, natAmount_value]
    · have := amount_map r u
      simp only [amount, amt, mkParts, List.find?_cons, beq_false_of_ne h] at this ⊢
      exact this

theorem amount_mkParts_neg (a : ℕ) (v : TimeUnit) (r : List (ℕ × TimeUnit)) (u : TimeUnit) :
    amount (mkParts true ((a, v) :: r)) u = if u = v then -(a:ℚ) else amt r u := by
  by_cases h : v = u
  · subst h; simp [amount, mkParts, natAmount_value]
  · have := amount_map r u
    rw [if_neg (Ne.symm h)]
    simp only [amount, amt, mkParts, List.find?_cons, beq_false_of_ne h] at this ⊢
    exact this

/-! ### the loop over units -/

/-- A part is written only if its amount isn't zero. -/
def optPart (a : ℕ) (u : TimeUnit) : List (ℕ × TimeUnit) := if a = 0 then [] else [(a, u)]

def ptxt (x : ℕ × TimeUnit) : Str := natStr x.1 ++ [x.2.char]

theorem strUnit_step (a : ℕ) (ε : ℚ) (h0 : 0 ≤ ε) (h1 : ε < 1) (l : List Str) (u : TimeUnit)
    (s : ℕ) (hs : 1 ≤ s) :
    strUnit ((a:ℚ) + ε, l) u.char (s:ℚ) =
      (((a % s : ℕ):ℚ) + ε, l ++ (optPart (a / s) u).map ptxt) := by
  have hs' : (0:ℚ) < s := by exact_mod_cast hs
  have hfl : ⌊((a:ℚ) + ε) / s⌋ = ((a / s : ℕ):ℤ) := by
    rw [Int.floor_eq_iff]
    have hd := Nat.div_add_mod a s
    have hm := Nat.mod_lt a hs
    have hd' : (s:ℚ) * ((a / s : ℕ):ℚ) + ((a % s : ℕ):ℚ) = a := by exact_mod_cast hd
    have hm' : ((a % s : ℕ):ℚ) + 1 ≤ s := by exact_mod_cast hm
    have hm0 : (0:ℚ) ≤ ((a % s : ℕ):ℚ) := by positivity
    rw [le_div_iff₀ hs', div_lt_iff₀ hs']
    rw [Int.cast_natCast]
    constructor
    · rw [← hd']; nlinarith
    · rw [← hd']; nlinarith
  have hmod : fmod ((a:ℚ) + ε) s = ((a % s : ℕ):ℚ) + ε := by
    rw [fmod, hfl, Int.cast_natCast]
    have hd' : (s:ℚ) * ((a / s : ℕ):ℚ) + ((a % s : ℕ):ℚ) = a := by exact_mod_cast Nat.div_add_mod a s
    linarith
  have hcond : (s:ℚ) ≤ (a:ℚ) + ε ↔ a / s ≠ 0 := by
    rw [Ne, Nat.div_eq_zero_iff, not_or, not_lt]
    constructor
    · intro h
      refine ⟨by omega, ?_⟩
      by_contra hc
      push Not at hc
      have : (a:ℚ) + 1 ≤ s := by exact_mod_cast hc
      linarith
    · rintro ⟨_, h⟩
      have : (s:ℚ) ≤ a := by exact_mod_cast h
      linarith
  unfold strUnit optPart
  by_cases h : a / s = 0
  · rw [if_neg (by rw [hcond, not_not]; exact h), if_pos h]
    have hlt : a % s = a := Nat.mod_eq_of_lt (by
      rcases Nat.div_eq_zero_iff.1 h with h' | h'
      · omega
      · exact h')
    simp [hlt]
  · rw [if_pos (hcond.2 h), if_neg h]
    simp only [hmod, hfl, Int.toNat_natCast, List.map_cons, List.map_nil, ptxt]

/-- Hours, minutes and seconds parts of `q` seconds. -/
def hmsParts (q : ℕ) : List (ℕ × TimeUnit) :=
  optPart (q / 3600) .h ++ optPart (q % 3600 / 60) .m ++ optPart (q % 60) .s

theorem str_loop (q : ℕ) (ε : ℚ) (h0 : 0 ≤ ε) (h1 : ε < 1) :
    strUnit (strUnit (strUnit ((q:ℚ) + ε, []) 'h' 3600) 'm' 60) 's' 1 =
      (ε, (hmsParts q).map ptxt) := by
  have e1 := strUnit_step q ε h0 h1 [] .h 3600 (by norm_num)
  have e2 := strUnit_step (q % 3600) ε h0 h1 ([] ++ (optPart (q / 3600) .h).map ptxt) .m 60 (by norm_num)
  have e3 := strUnit_step (q % 3600 % 60) ε h0 h1
    (([] ++ (optPart (q / 3600) .h).map ptxt) ++ (optPart (q % 3600 / 60) .m).map ptxt) .s 1 (by norm_num)
  simp only [TimeUnit.char, Nat.cast_ofNat, Nat.cast_one] at e1 e2 e3
  rw [e1, e2, e3]
  have : q % 3600 % 60 = q % 60 := by omega
  simp [hmsParts, this, Nat.mod_one]

/-- The whole part of `rnd (n/k)` is `n / k`, and it is whole exactly when `k` divides `n`. -/
theorem rnd_div_split {F : Fl} (hF : F.Lawful) {n k : ℕ} (hn : n < 2 ^ 53) (hk : 1 ≤ k) :
    ∃ ε : ℚ, 0 ≤ ε ∧ ε < 1 ∧ F.rnd ((n:ℚ) / k) = ((n / k : ℕ):ℚ) + ε ∧ (ε = 0 ↔ n % k = 0) := by
  have hk' : (0:ℚ) < k := by exact_mod_cast hk
  have hd' : (k:ℚ) * ((n / k : ℕ):ℚ) + ((n % k : ℕ):ℚ) = n := by exact_mod_cast Nat.div_add_mod n k
  have hm' : ((n % k : ℕ):ℚ) + 1 ≤ k := by exact_mod_cast Nat.mod_lt n hk
  have hx : (n:ℚ) / k = ((n / k : ℕ):ℚ) + ((n % k : ℕ):ℚ) / k := by
    field_simp; linarith
  by_cases hr : n % k = 0
  · refine ⟨0, le_refl _, by norm_num, ?_, by simp [hr]⟩
    rw [hx, hr]
    simp only [Nat.cast_zero, zero_div, add_zero]
    apply hF.nat
    exact le_trans (Nat.div_le_self n k) hn.le
  · have hr1 : (1:ℚ) ≤ ((n % k : ℕ):ℚ) := by exact_mod_cast Nat.one_le_iff_ne_zero.2 hr
    have herr := hF.err ((n:ℚ) / k)
    rw [abs_of_nonneg (by positivity : (0:ℚ) ≤ (n:ℚ) / k)] at herr
    have hlt : (n:ℚ) / k / 2 ^ 53 < 1 / k := by
      rw [div_div, div_lt_div_iff₀ (by positivity) hk', one_mul]
      have : (n:ℚ) < 2 ^ 53 := by exact_mod_cast hn
      nlinarith
    have h2 := abs_lt.1 (lt_of_le_of_lt herr hlt)
    have hlo : (1:ℚ) / k ≤ ((n % k : ℕ):ℚ) / k := by gcongr
    have hhi : ((n % k : ℕ):ℚ) / k + 1 / k ≤ 1 := by
      rw [← add_div, div_le_one hk']; exact hm'
    refine ⟨F.rnd ((n:ℚ) / k) - ((n / k : ℕ):ℚ), ?_, ?_, by ring, ?_⟩
    · linarith [h2.1]
    · linarith [h2.2]
    · constructor
      · intro h; exfalso; linarith [h2.1]
      · intro h; exact absurd h hr

/-- The parts `T.__str__` writes for `n` frames at `k` frames per second. -/
def strParts (n k : ℕ) : List (ℕ × TimeUnit) :=
  hmsParts (n / k) ++ (if n % k ≠ 0 ∨ hmsParts (n / k) = [] then [(n % k, .f)] else [])

theorem strParts_ne_nil (n k : ℕ) : strParts n k ≠ [] := by
  unfold strParts
  by_cases h : hmsParts (n / k) = []
  · simp [h]
  · simp [h]

theorem str_eq {F : Fl} (hF : F.Lawful) {n k : ℕ} (hn : n < 2 ^ 53) (hk : 1 ≤ k) (hk6 : k < 10 ^ 6)
    (neg : Bool) (hneg : neg = true → n ≠ 0) :
    T.str F ⟨(if neg then -1 else 1) * (n:ℚ), some (k:ℚ)⟩ = specText (mkParts neg (strParts n k)) [] := by
  obtain ⟨ε, h0, h1, he, hz⟩ := rnd_div_split hF hn hk
  have habs : |F.rnd ((if neg then -1 else 1) * (n:ℚ) / k)| = ((n / k : ℕ):ℚ) + ε := by
    cases neg
    · simp only [Bool.false_eq_true, if_false, one_mul]
      rw [he, abs_of_nonneg (by positivity)]
    · simp only [if_true, neg_one_mul, neg_div]
      rw [hF.neg, abs_neg, he, abs_of_nonneg (by positivity)]
  have habs2 : |(if neg then -1 else 1) * (n:ℚ)| = n := by
    cases neg <;> simp
  have hk' : (0:ℚ) < k := by exact_mod_cast hk
  have hmod : fmod (n:ℚ) k = ((n % k : ℕ):ℚ) := by
    have hfl : ⌊(n:ℚ) / k⌋ = ((n / k : ℕ):ℤ) := by
      rw [Int.floor_eq_iff]
      have hd' : (k:ℚ) * ((n / k : ℕ):ℚ) + ((n % k : ℕ):ℚ) = n := by exact_mod_cast Nat.div_add_mod n k
      have hm' : ((n % k : ℕ):ℚ) + 1 ≤ k := by exact_mod_cast Nat.mod_lt n hk
      have hm0 : (0:ℚ) ≤ ((n % k : ℕ):ℚ) := by positivity
      rw [le_div_iff₀ hk', div_lt_iff₀ hk', Int.cast_natCast]
      constructor <;> nlinarith
    rw [fmod, hfl, Int.cast_natCast]
    have hd' : (k:ℚ) * ((n / k : ℕ):ℚ) + ((n % k : ℕ):ℚ) = n := by exact_mod_cast Nat.div_add_mod n k
    linarith
  have hg : fmtG ((n % k : ℕ):ℚ) = natStr (n % k) :=
    fmtG_nat (lt_of_lt_of_le (Nat.mod_lt n hk) hk6.le)
  have hsign : ((if neg then -1 else 1) * (n:ℚ) < 0) ↔ neg = true := by
    cases neg
    · simp
    · simp only [if_true, neg_one_mul]
      have : n ≠ 0 := hneg rfl
      have : (0:ℚ) < n := by positivity
      constructor
      · simp
      · intro _; linarith
  simp only [T.str, habs, habs2, str_loop _ _ h0 h1, hmod, hg, hsign]
  rw [specText_mkParts _ _ (strParts_ne_nil n k)]
  congr 2
  unfold strParts
  have hc : (ε ≠ 0 ∨ (hmsParts (n / k)).map ptxt = []) ↔ (n % k ≠ 0 ∨ hmsParts (n / k) = []) := by
    rw [Ne, hz, List.map_eq_nil_iff]
  by_cases h : n % k ≠ 0 ∨ hmsParts (n / k) = []
  · rw [if_pos (hc.2 h), if_pos h]; simp [ptxt, TimeUnit.char]
  · rw [if_neg (fun h' => h (hc.1 h')), if_neg h]; simp [ptxt]

theorem amt_append (a b : List (ℕ × TimeUnit)) (u : TimeUnit) :
    amt (a ++ b) u = if a.any (fun x => x.2 == u) then amt a u else amt b u := by
  induction a with
  | nil => simp
  | cons x a ih =>
    by_cases h : x.2 = u
    · simp [amt, h]
    · simp only [amt, List.cons_append, List.find?_cons, beq_false_of_ne h, List.any_cons,
        Bool.false_or] at ih ⊢
      exact ih

theorem amt_optPart (a : ℕ) (u v : TimeUnit) : amt (optPart a u) v = if u = v then a else 0 := by
  unfold optPart amt
  by_cases h : a = 0
  · simp [h]
  · by_cases h2 : u = v
    · simp [h, h2]
    · simp [h, h2]

theorem any_optPart (a : ℕ) (u v : TimeUnit) :
    (optPart a u).any (fun x => x.2 == v) = (decide (a ≠ 0) && decide (u = v)) := by
  unfold optPart
  by_cases h : a = 0
  · simp [h]
  · by_cases h2 : u = v <;> simp [h, h2]

theorem strParts_amt (n k : ℕ) :
    amt (strParts n k) .h = n / k / 3600 ∧ amt (strParts n k) .m = n / k % 3600 / 60 ∧
      amt (strParts n k) .s = n / k % 60 ∧ amt (strParts n k) .f = n % k := by
  have hf : ∀ u, u ≠ TimeUnit.f →
      amt (if n % k ≠ 0 ∨ hmsParts (n / k) = [] then [(n % k, TimeUnit.f)] else []) u = 0 := by
    intro u hu
    split
    · simp [amt, hu.symm]
    · rfl
  have hff : amt (if n % k ≠ 0 ∨ hmsParts (n / k) = [] then [(n % k, TimeUnit.f)] else []) .f = n % k := by
    split
    · simp [amt]
    · rename_i h; push Not at h; rw [h.1]; rfl
  have key : ∀ u, amt (strParts n k) u = if (hmsParts (n / k)).any (fun x => x.2 == u) then
      amt (hmsParts (n / k)) u else
      amt (if n % k ≠ 0 ∨ hmsParts (n / k) = [] then [(n % k, TimeUnit.f)] else []) u :=
    fun u => by rw [strParts, amt_append]
  refine ⟨?_, ?_, ?_, ?_⟩
  · rw [key, hf _ (by decide)]
    simp only [hmsParts, amt_append, any_optPart, amt_optPart, List.any_append]
    by_cases h : n / k / 3600 = 0 <;> simp [h]
  · rw [key, hf _ (by decide)]
    simp only [hmsParts, amt_append, any_optPart, amt_optPart, List.any_append]
    by_cases h : n / k % 3600 / 60 = 0 <;> simp [h]
  · rw [key, hf _ (by decide)]
    simp only [hmsParts, amt_append, any_optPart, amt_optPart, List.any_append]
    by_cases h : n / k % 60 = 0 <;> simp [h]
  · rw [key, hff]
    simp only [hmsParts, any_optPart, List.any_append]
    simp

theorem strParts_distinct (n k : ℕ) (neg : Bool) : Distinct (mkParts neg (strParts n k)) := by
  rw [Distinct, mkParts_units]
  unfold strParts hmsParts optPart
  split <;> split <;> split <;> split <;> simp

end Sang
