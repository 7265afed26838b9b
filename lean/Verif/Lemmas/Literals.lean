import Verif.Text
import Verif.Spec.Literals
import Verif.Lemmas.Repr
import Verif.Lemmas.ValueNum

/-! # Lemmas: the text of numbers, strings and tuples denotes them -/

namespace Sang
open Spec

theorem isDig_mem {c : Char} (h : isDig c = true) : c ∈ "0123456789".toList := by
  simp only [isDig, Bool.and_eq_true, decide_eq_true_eq] at h
  obtain ⟨h1, h2⟩ := h
  have : c = Char.ofNat c.toNat := (Char.ofNat_toNat c).symm
  rw [this]
  generalize c.toNat = n at *
  interval_cases n <;> decide

theorem mem_isDig {c : Char} (h : c ∈ "0123456789".toList) : isDig c = true := by
  revert c; decide

theorem digits_of {s : Str} (hne : s ≠ []) (h : ∀ c ∈ s, isDig c = true) : Digits s :=
  ⟨hne, fun c hc => isDig_mem (h c hc)⟩

theorem digits_natStr (n : ℕ) : Digits (natStr n) := digits_of (natStr_ne_nil n) (natStr_digits n)

theorem natStrAux_head (f n : ℕ) (acc : Str) (h : n < f) (hn : n ≠ 0) :
    (natStrAux f n acc).head? ≠ some '0' := by
  induction f generalizing n acc with
  | zero => omega
  | succ f ih =>
    simp only [natStrAux]
    split
    · rename_i h10
      have : ∀ n < 10, n ≠ 0 → digC n ≠ '0' := by decide
      simpa using this n h10 hn
    · exact ih _ _ (by omega) (by omega)

theorem literal_natStr (F : Fl) (n : ℕ) : LiteralFor F (natStr n) (.int n) := by
  have h := LiteralFor.int (F := F) (natStr n) (digits_natStr n) (by
    by_cases h : n = 0
    · subst h; right; rfl
    · left; exact natStrAux_head _ _ _ (Nat.lt_succ_self n) h)
  rwa [natVal_natStr] at h

theorem literal_intStr (F : Fl) (i : ℤ) : LiteralFor F (intStr i) (.int i) := by
  rw [intStr]
  split
  · have := LiteralFor.minusInt _ _ (literal_natStr F i.natAbs)
    rwa [show -((i.natAbs : ℕ) : ℤ) = i by omega] at this
  · have := literal_natStr F i.natAbs
    rwa [show ((i.natAbs : ℕ) : ℤ) = i by omega] at this

theorem expStr_form (e : ℤ) : ∃ ed : Str, expStr e = (if decide (e < 0) then '-' else '+') :: ed ∧
    Digits ed ∧ natVal ed = e.natAbs := by
  refine ⟨if e.natAbs < 10 then '0' :: natStr e.natAbs else natStr e.natAbs, by simp [expStr], ?_, ?_⟩
  · split
    · refine digits_of (by simp) fun c hc => ?_
      rcases List.mem_cons.1 hc with rfl | hc
      · rfl
      · exact natStr_digits _ c hc
    · exact digits_natStr _
  · split
    · rw [natVal_cons, natVal_natStr]; simp [digV]
    · exact natVal_natStr _

theorem digits_fracStr {k : ℕ} (hk : k ≠ 0) (m : ℕ) : Digits (fracStr k m) :=
  digits_of (fun h => hk (by rw [← fracStr_length k m, h]; rfl)) (fracStr_digits k m)

/-- The text of `'%.kf'` of a decimal with at most `k` places denotes it. -/
theorem literal_fixedNN (F : Fl) {p m : ℕ} (hp : p ≠ 0) {v : ℚ} (hv : v * 10 ^ p = m) :
    LiteralFor F (fixedNN p v) (.float (F.rnd v)) := by
  have h := LiteralFor.float (F := F) (natStr (m / 10 ^ p)) (fracStr p (m % 10 ^ p)) (digits_natStr _)
    (digits_fracStr hp _)
  rw [natVal_append, natVal_natStr, natVal_fracStr, fracStr_length, Nat.mod_mod, Nat.div_add_mod',
    ← hv, mul_div_assoc, div_self (by positivity), mul_one] at h
  simpa only [fixedNN, fixedNN_exact_val hv, if_neg hp] using h

theorem literal_reprPos {F : Fl} (hF : F.Lawful) {q : ℚ} (hq : 0 < q) (hr : F.rep q) :
    LiteralFor F (reprPos F q) (.float q) := by
  have hsh := shortest_spec (F := F) q 16 1 (le_refl _) (seventeen hF hq hr)
  simp only [reprPos]
  set n := shortest F q 16 1 with hn
  obtain ⟨hn1, hv⟩ := hsh
  set m := (sigDigits n q).1 with hm
  set e := (sigDigits n q).2 with he
  set v : ℚ := (m:ℚ) * (10:ℚ) ^ (e - ((n:ℤ) - 1)) with hvdef
  split
  · rename_i hrange
    split
    · rename_i hp0
      have hle : (n:ℤ) - 1 - e ≤ 0 := Int.toNat_eq_zero.1 hp0
      obtain ⟨k, hk⟩ := Int.eq_ofNat_of_zero_le (show 0 ≤ e - ((n:ℤ) - 1) by omega)
      have hvint : v = ((m * 10 ^ k : ℕ) : ℚ) := by
        rw [hvdef, hk]; push_cast; simp
      have hrv : (rhe v).toNat = m * 10 ^ k := by rw [hvint, rhe_nat, Int.toNat_natCast]
      rw [hrv]
      have h := LiteralFor.float (F := F) (natStr (m * 10 ^ k)) ['0'] (digits_natStr _)
        ⟨by simp, by decide⟩
      rw [natVal_append, natVal_natStr] at h
      have e1 : (((m * 10 ^ k * 10 ^ (['0'] : Str).length + natVal ['0'] : ℕ) : ℚ)) /
          10 ^ (['0'] : Str).length = v := by
        rw [hvint]; simp [natVal, digV]
      rw [e1, hv] at h
      exact h
    · rename_i hp0
      set p := ((n:ℤ) - 1 - e).toNat with hpdef
      have hpz : (p:ℤ) = (n:ℤ) - 1 - e := by omega
      have hvp : v * 10 ^ p = m := by
        rw [hvdef, mul_assoc, ← zpow_natCast, ← zpow_add₀ (by norm_num), hpz]
        ring_nf; simp
      have h := literal_fixedNN F hp0 hvp
      rwa [hv] at h
  · obtain ⟨ed, h1, h2, h3⟩ := expStr_form e
    split
    · rename_i hn1'
      have h := LiteralFor.floatExp (F := F) (natStr m) ed (decide (e < 0)) (digits_natStr _) h2
      rw [natVal_natStr, h3, exp_val] at h
      rw [h1]
      have e1 : (m:ℚ) * (10:ℚ) ^ e = v := by rw [hvdef, hn1']; norm_num
      rwa [e1, hv] at h
    · rename_i hn1'
      have hk : n - 1 ≠ 0 := by omega
      have hvp : ((m:ℚ) / 10 ^ (n - 1)) * 10 ^ (n - 1) = m := div_mul_cancel₀ _ (by positivity)
      simp only [fixedNN, if_neg hk, fixedNN_exact_val hvp]
      have h := LiteralFor.floatFracExp (F := F) (natStr (m / 10 ^ (n - 1)))
        (fracStr (n - 1) (m % 10 ^ (n - 1))) ed (decide (e < 0)) (digits_natStr _)
        (digits_fracStr hk _) h2
      rw [natVal_append, natVal_natStr, natVal_fracStr, fracStr_length, Nat.mod_mod,
        Nat.div_add_mod', h3, exp_val] at h
      have e1 : (m:ℚ) / 10 ^ (n - 1) * (10:ℚ) ^ e = v := by
        rw [hvdef, zpow_sub₀ (by norm_num), div_mul_eq_mul_div, mul_div_assoc]
        congr 2
        rw [show ((n:ℤ) - 1) = ((n - 1 : ℕ) : ℤ) by omega, zpow_natCast]
      rw [e1, hv] at h
      rw [h1, List.append_assoc, List.cons_append]
      exact h

/-- `str(x)` is a literal for `x`, for every float `x`. -/
theorem literal_reprF {F : Fl} (hF : F.Lawful) {q : ℚ} (hr : F.rep q) :
    LiteralFor F (reprF F q) (.float q) := by
  unfold reprF
  split
  · rename_i h0
    subst h0
    have h := LiteralFor.float (F := F) ['0'] ['0'] ⟨by simp, by decide⟩ ⟨by simp, by decide⟩
    rw [show ((natVal (['0'] ++ ['0']) : ℕ) : ℚ) / 10 ^ (['0'] : Str).length = 0 by
      simp [natVal, digV], hF.zero] at h
    exact h
  · rename_i h0
    split
    · rename_i hneg
      have hr' : F.rep (-q) := by rw [Fl.rep, hF.neg, hr]
      have h := LiteralFor.minusFloat _ _ (literal_reprPos hF (q := -q) (by linarith) hr')
      rwa [neg_neg] at h
    · rename_i hneg
      exact literal_reprPos hF (lt_of_le_of_ne (not_lt.1 hneg) (Ne.symm h0)) hr

/-! ## Text -/

theorem hexDigit?_hexC {d : ℕ} (h : d < 16) : hexDigit? (hexC d) = some d := by
  revert d; decide

theorem hexNumber?_append (s : Str) (c : Char) : hexNumber? (s ++ [c]) =
    match hexNumber? s, hexDigit? c with
    | some n, some d => some (16 * n + d)
    | _, _ => none := by
  rw [hexNumber?, List.foldl_append]; rfl

theorem hexStr_length (k n : ℕ) : (hexStr k n).length = k := by
  induction k generalizing n with
  | zero => rfl
  | succ k ih => simp [hexStr, ih]

theorem hexNumber?_hexStr (k n : ℕ) : hexNumber? (hexStr k n) = some (n % 16 ^ k) := by
  induction k generalizing n with
  | zero => simp [hexStr, hexNumber?, Nat.mod_one]
  | succ k ih =>
    rw [hexStr, hexNumber?_append, ih, hexDigit?_hexC (Nat.mod_lt _ (by norm_num))]
    simp only [Option.some.injEq]
    rw [pow_succ, mul_comm (16 ^ k) 16, Nat.mod_mul]
    omega

theorem char_lt (c : Char) : c.toNat < 16 ^ 8 := by
  have := c.valid
  have h : c.toNat < 0x110000 := by
    rcases this with h | ⟨h1, h2⟩
    · exact lt_of_lt_of_le h (by norm_num)
    · exact h2
  exact lt_of_lt_of_le h (by norm_num)

theorem between_reprChar (pr : Char → Bool) (q : Char) (hq : q = '\'' ∨ q = '"') (c : Char) (t s : Str)
    (h : Between q t s) : Between q (reprChar pr q c ++ t) (c :: s) := by
  unfold reprChar
  split
  · rename_i h1
    exact .same c t s (by rcases h1 with rfl | rfl <;> tauto) h
  · rename_i h1
    push Not at h1
    split
    · rename_i h2; subst h2; exact .tab t s h
    · rename_i h2
      split
      · rename_i h3; subst h3; exact .newline t s h
      · rename_i h3
        split
        · rename_i h4; subst h4; exact .return t s h
        · rename_i h4
          split
          · exact .plain c t s h1.1 h1.2 h3 h4 h
          · split
            · exact .plain c t s h1.1 h1.2 h3 h4 h
            · have key : ∀ k (u : Char), (u, k) ∈ [('x', 2), ('u', 4), ('U', 8)] →
                  c.toNat < 16 ^ k →
                  Between q ('\\' :: u :: (hexStr k c.toNat ++ t)) (c :: s) := by
                intro k u hu hk
                refine .hex u _ t s c (by rwa [hexStr_length]) ?_ h
                rw [hexNumber?_hexStr, Nat.mod_eq_of_lt hk]
              split
              · rename_i h5; exact key 2 'x' (by simp) h5
              · split
                · rename_i h6; exact key 4 'u' (by simp) h6
                · exact key 8 'U' (by simp) (char_lt c)

theorem between_repr (pr : Char → Bool) (q : Char) (hq : q = '\'' ∨ q = '"') (s : Str) :
    Between q (s.flatMap (reprChar pr q)) s := by
  induction s with
  | nil => exact .nil
  | cons c s ih =>
    rw [List.flatMap_cons]
    exact between_reprChar pr q hq c _ _ ih

/-- `repr(s)` is a literal for `s`, for every text. -/
theorem literal_pyRepr (F : Fl) (pr : Char → Bool) (s : Str) : LiteralFor F (pyRepr pr s) (.str s) := by
  have hq : reprQuote s = '\'' ∨ reprQuote s = '"' := by unfold reprQuote; split <;> simp
  exact .str _ _ _ hq (between_repr pr _ hq s)

/-! ## Tuples and dicts -/

theorem blank_nil : OnlySpace [] := by simp [OnlySpace]

theorem blank_space : OnlySpace [' '] := by simp [OnlySpace]

theorem items_join {F : Fl} (hF : F.Lawful) (l : List ℚ) (hl : ∀ q ∈ l, F.rep q) (hne : l ≠ [])
    (a : Str) (ha : OnlySpace a) :
    Items F (a ++ join [',', ' '] (l.map (reprF F))) (l.map .float) := by
  induction l generalizing a with
  | nil => exact absurd rfl hne
  | cons x l ih =>
    cases l with
    | nil =>
      have := Items.one a (reprF F x) [] (.float x) ha blank_nil (literal_reprF hF (hl x (by simp)))
      simpa [join] using this
    | cons y l =>
      have h := ih (fun q hq => hl q (by simp [hq])) (by simp) [' '] blank_space
      have := Items.cons a (reprF F x) [] _ (.float x) _ ha blank_nil
        (literal_reprF hF (hl x (by simp))) h
      simpa [join, List.append_assoc] using this

/-- The text of a tuple of floats denotes it. -/
theorem literal_tupleStr {F : Fl} (hF : F.Lawful) (l : List ℚ) (hl : ∀ q ∈ l, F.rep q)
    (h2 : 2 ≤ l.length) : LiteralFor F (tupleStr F l) (.tuple (l.map .float)) := by
  refine .tuple _ _ (by simpa using h2) ?_
  have := items_join hF l hl (by rintro rfl; simp at h2) [] blank_nil
  simpa using this

end Sang
