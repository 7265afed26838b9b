import Verif.Props.TimeFraction

/-!
# Times before the start, between frames (C150)
-/

namespace Sang
open Spec

/-- The text of a time before the start is that of the time as much after it, with a minus sign. -/
theorem str_neg {F : Fl} (hF : F.Lawful) {q : ℚ} (h0 : 0 < q) (k : ℚ) :
    T.str F ⟨-q, some k⟩ = '-' :: T.str F ⟨q, some k⟩ := by
  simp only [T.str, neg_div, hF.neg, abs_neg, if_neg (not_lt.2 h0.le), if_pos (neg_lt_zero.2 h0)]
  rfl

/-- With a minus sign before the first part. -/
def negFirst : List Part → List Part
  | [] => []
  | p :: r => ⟨p.blanks, ⟨true, p.amt.whole, p.amt.frac⟩, p.unit⟩ :: r

theorem negFirst_text {p : Part} {r : List Part} (hb : p.blanks = []) (hn : p.amt.neg = false) :
    specText (negFirst (p :: r)) [] = '-' :: specText (p :: r) [] := by
  simp [negFirst, specText, hb, Amount.text, hn]

theorem negFirst_valid {ps : List Part} (h : ∀ p ∈ ps, p.Valid) : ∀ p ∈ negFirst ps, p.Valid := by
  cases ps with
  | nil => simp [negFirst]
  | cons p r =>
    intro x hx
    rcases List.mem_cons.1 hx with rfl | hx
    · exact h p (by simp)
    · exact h x (by simp [hx])

theorem negFirst_distinct {ps : List Part} (h : Distinct ps) : Distinct (negFirst ps) := by
  cases ps with
  | nil => exact h
  | cons p r => exact h

theorem negFirst_parts {F : Fl} (hF : F.Lawful) {p : Part} (r : List Part) (hn : p.amt.neg = false) :
    partsOf F (negFirst (p :: r)) = (p.unit.char, -F.rnd p.amt.value) :: partsOf F r := by
  simp only [negFirst, partsOf, List.map_cons]
  congr 2
  rw [← hF.neg]
  congr 1
  simp [Amount.value, hn]

/-- Reading one part in hours, minutes or seconds, and perhaps frames: with a minus sign, the time is as much before
the start. -/
theorem framesOf_neg {F : Fl} (hF : F.Lawful) {k : ℚ} {u : TimeUnit} (hu : u ≠ .f) {y : ℚ} (hy : 0 < y)
    {r : Parts} (hr : r = [] ∨ ∃ z, 0 ≤ z ∧ r = [('f', z)]) :
    framesOf F (some k) ((u.char, -y) :: r) = (framesOf F (some k) ((u.char, y) :: r)).map Neg.neg := by
  have key : ∀ r : Parts, (r = [] ∨ ∃ z, 0 ≤ z ∧ r = [('f', z)]) → ∃ s, 0 < s ∧
      secondsOf F ((u.char, y) :: r) = some s ∧ secondsOf F ((u.char, -y) :: r) = some (-s) := by
    have h1 : ∀ c : ℚ, 0 < c → 0 < F.rnd (0 + F.rnd (y * c)) := fun c hc => by
      rw [zero_add]; exact hF.pos (hF.pos (by positivity))
    have h2 : ∀ c : ℚ, F.rnd (0 + F.rnd (-y * c)) = -F.rnd (0 + F.rnd (y * c)) := fun c => by
      rw [neg_mul, hF.neg, zero_add, zero_add, hF.neg]
    rintro r (rfl | ⟨z, -, rfl⟩)
    all_goals
      cases u with
      | h => exact ⟨_, h1 3600 (by norm_num), rfl, congrArg some (h2 3600)⟩
      | m => exact ⟨_, h1 60 (by norm_num), rfl, congrArg some (h2 60)⟩
      | s => exact ⟨_, h1 1 (by norm_num), rfl, congrArg some (h2 1)⟩
      | f => exact absurd rfl hu
  obtain ⟨s, hs, e1, e2⟩ := key r hr
  have hl : ∀ x : ℚ, ((u.char, x) :: r).lookup 'f' = r.lookup 'f' := by
    intro x
    have : ('f' == u.char) = false := by cases u <;> first | rfl | exact absurd rfl hu
    rw [List.lookup, this]
  have hs' : s ≠ 0 := hs.ne'
  have hs'' : -s ≠ 0 := neg_ne_zero.2 hs'
  have hbase : F.rnd (0 + F.rnd (-s * k)) = -F.rnd (0 + F.rnd (s * k)) := by
    rw [neg_mul, hF.neg, zero_add, zero_add, hF.neg]
  simp only [framesOf, e1, e2, Option.getD_some, if_pos hs', if_pos hs'', hl, hbase]
  rcases hr with rfl | ⟨z, hz, rfl⟩
  · rfl
  · have hlz : ([('f', z)] : Parts).lookup 'f' = some z := rfl
    simp only [hlz]
    have a1 : ¬ (-s ≠ 0 ∧ z < 0) := fun h => not_lt.2 hz h.2
    have a2 : ¬ (s ≠ 0 ∧ z < 0) := fun h => not_lt.2 hz h.2
    rw [if_neg a1, if_neg a2, if_pos (neg_lt_zero.2 hs), if_neg (not_lt.2 hs.le)]
    simp only [Except.map]
    rw [← hF.neg (F.rnd (0 + F.rnd (s * k)) + z)]
    exact congrArg (fun t => Except.ok (F.rnd t)) (by ring)

theorem framesOf_neg_frames {F : Fl} (hF : F.Lawful) {k : Option ℚ} (y : ℚ) :
    framesOf F k [('f', -y)] = (framesOf F k [('f', y)]).map Neg.neg := by
  have hs : ∀ x : ℚ, secondsOf F [('f', x)] = none := fun x => rfl
  have hl : ∀ x : ℚ, ([('f', x)] : Parts).lookup 'f' = some x := fun x => rfl
  simp only [framesOf, hs, hl, Option.getD_none, ne_eq, not_true_eq_false, if_false, false_and, lt_irrefl, zero_add,
    hF.neg, Except.map]

/-- One of hours, minutes and seconds is enough. -/
theorem hmsParts_one {n : ℕ} (h : n < 60 ∨ (n < 3600 ∧ n % 60 = 0) ∨ n % 3600 = 0) :
    hmsParts n = [] ∨ ∃ a u, u ≠ .f ∧ a ≠ 0 ∧ hmsParts n = [(a, u)] := by
  unfold hmsParts optPart
  rcases h with h | ⟨h, h'⟩ | h
  · have h1 : n / 3600 = 0 := by omega
    have h2 : n % 3600 / 60 = 0 := by omega
    by_cases h3 : n % 60 = 0
    · left; simp [h1, h2, h3]
    · right; exact ⟨n % 60, .s, by decide, h3, by simp [h1, h2, h3]⟩
  · have h1 : n / 3600 = 0 := by omega
    by_cases h2 : n % 3600 / 60 = 0
    · left; simp [h1, h2, h']
    · right; exact ⟨_, .m, by decide, h2, by simp [h1, h2, h']⟩
  · have h2 : n % 3600 / 60 = 0 := by omega
    have h3 : n % 60 = 0 := by omega
    by_cases h1 : n / 3600 = 0
    · left; simp [h1, h2, h3]
    · right; exact ⟨_, .h, by decide, h1, by simp [h1, h2, h3]⟩

/-- The text of a time after the start, in parts. -/
theorem str_parts {F : Fl} (hF : F.Lawful) {q : ℚ} {k n : ℕ} (h0 : 0 < q) (hq : q < 2 ^ 53)
    (hk : 1 ≤ k) (hk6 : k < 10 ^ 6) (hr : (∃ m : ℕ, F.rnd (q / k) = m) ∨ tiny ≤ pastSecond q k)
    (hn : ⌊F.rnd (q / k)⌋ = n) :
    ∃ ps, T.str F ⟨q, some (k:ℚ)⟩ = specText ps [] ∧
      ((ps = mkParts false (hmsParts n) ∧ n ≠ 0) ∨
        ∃ a : Amount, ps = secParts n a ∧ a.neg = false ∧ a.Valid ∧ 0 ≤ a.value) := by
  have hk' : (0:ℚ) < k := by exact_mod_cast hk
  obtain ⟨m, ε, he, e0, e1, -, -⟩ := rnd_seconds hF h0.le hq hk
  have hm : m = n := by
    have : ⌊F.rnd (q / k)⌋ = (m:ℤ) := by
      rw [he, Int.floor_eq_iff]; push_cast; constructor <;> linarith
    rw [this] at hn; exact_mod_cast hn
  subst hm
  by_cases hε : ε = 0
  · subst hε
    rw [add_zero] at he
    have hm0 : m ≠ 0 := by
      rintro rfl
      have := hF.pos (show 0 < q / k by positivity)
      rw [he] at this
      simp at this
    exact ⟨_, str_at_second h0.le he hm0, Or.inl ⟨rfl, hm0⟩⟩
  · have hr4 : tiny ≤ pastSecond q k := by
      rcases hr with ⟨j, hj⟩ | hr
      · exfalso
        rw [he] at hj
        have h1 : (m:ℚ) ≤ j := by linarith
        have h2 : (j:ℚ) < (m + 1 : ℕ) := by push_cast; linarith
        have h3 := Nat.cast_le.1 h1
        have h4 := Nat.cast_lt.1 h2
        have : j = m := by omega
        subst this
        exact hε (by linarith)
      · exact hr
    have hk6' : (k:ℚ) ≤ 999999 := by
      have : k ≤ 999999 := by omega
      exact_mod_cast this
    have hb := pastSecond_bounds (q := q) k hk
    obtain ⟨a, a1, a2, a3, a4⟩ := fmtG_amount hr4 (by linarith [hb.2])
    have hs0 : 0 ≤ a.value := by
      have h5 : 0 < pastSecond q k := lt_of_lt_of_le (by norm_num [tiny]) hr4
      rw [a4, six, if_neg h5.ne', if_neg (not_lt.2 h5.le)]; exact (sixPos_pos h5).le
    refine ⟨_, ?_, Or.inr ⟨a, rfl, a1, a2, hs0⟩⟩
    rw [str_past_second h0.le he e0 e1 hε, ← a3, secParts_text]

/-- C150. A time before the start is read back as far before it as the time as much after it is read back after it, if
its text has at most one of hours, minutes and seconds. (`n` is its number of whole seconds.) -/
theorem c150_before_the_start {F : Fl} (hF : F.Lawful) (root : Attrs) (q : ℚ) (k n : ℕ) (h0 : 0 < q)
    (hq : q < 2 ^ 53) (hk : 1 ≤ k) (hk6 : k < 10 ^ 6) (hroot : HasFps F root k)
    (hr : (∃ m : ℕ, F.rnd (q / k) = m) ∨ 9999995 / 10 ^ 11 ≤ pastSecond q k) (hn : ⌊F.rnd (q / k)⌋ = n)
    (hone : n < 60 ∨ (n < 3600 ∧ n % 60 = 0) ∨ n % 3600 = 0) :
    ∃ x, T.new F (some root) (.str (T.str F ⟨q, some (k:ℚ)⟩)) = .ok ⟨x, some (k:ℚ)⟩ ∧
      T.new F (some root) (.str (T.str F ⟨-q, some (k:ℚ)⟩)) = .ok ⟨-x, some (k:ℚ)⟩ ∧
      |x - q| ≤ 5 / 10 ^ 6 * k + q / 2 ^ 51 := by
  have hk' : (0:ℚ) < k := by exact_mod_cast hk
  obtain ⟨x, hx, hb⟩ := roundtrip_near hF root q k h0.le hq hk hk6 hroot hr
  refine ⟨x, hx, ?_, hb⟩
  obtain ⟨ps, ht, hps⟩ := str_parts hF h0 hq hk hk6 hr hn
  rw [str_neg hF h0, ht]
  rw [ht] at hx
  have hval : (∀ p ∈ ps, p.Valid) ∧ Distinct ps ∧ ∃ p r, ps = p :: r ∧ p.blanks = [] ∧ p.amt.neg = false ∧
      framesOf F (some (k:ℚ)) ((p.unit.char, -F.rnd p.amt.value) :: partsOf F r) =
        (framesOf F (some (k:ℚ)) ((p.unit.char, F.rnd p.amt.value) :: partsOf F r)).map Neg.neg := by
    have hpos : ∀ a : ℕ, a ≠ 0 → 0 < F.rnd (⟨false, natStr a, []⟩ : Amount).value := by
      intro a ha
      rw [natAmount_value]
      apply hF.pos
      have : (0:ℚ) < a := by exact_mod_cast Nat.pos_of_ne_zero ha
      simpa using this
    rcases hps with ⟨rfl, hn0⟩ | ⟨a, rfl, a1, a2, a3⟩
    · refine ⟨mkParts_valid _ _, by rw [Distinct, mkParts_units]; exact (hmsParts_units n).1, ?_⟩
      rcases hmsParts_one hone with h | ⟨a, u, hu, ha, h⟩
      · exact absurd (hmsParts_nil.1 h) hn0
      · rw [h]
        exact ⟨_, _, rfl, rfl, rfl, framesOf_neg hF hu (hpos a ha) (Or.inl rfl)⟩
    · refine ⟨secParts_valid n a2, secParts_distinct n a, ?_⟩
      rcases hmsParts_one hone with h | ⟨b, u, hu, hb, h⟩
      · exact ⟨⟨[], a, .f⟩, [], by simp [secParts, h, mkParts], rfl, a1, framesOf_neg_frames hF _⟩
      · refine ⟨⟨[], ⟨false, natStr b, []⟩, u⟩, [⟨[' '], a, .f⟩], by simp [secParts, h, mkParts], rfl, rfl, ?_⟩
        exact framesOf_neg hF hu (hpos b hb) (Or.inr ⟨_, hF.nonneg a3, rfl⟩)
  obtain ⟨v1, v2, p, r, rfl, p1, p2, hfr⟩ := hval
  rw [new_str hroot hk', parseSpec_text F _ v1 v2 (by simp)] at hx
  rw [← negFirst_text p1 p2, new_str hroot hk', parseSpec_text F _ (negFirst_valid v1) (negFirst_distinct v2) (by simp),
    negFirst_parts hF r p2, hfr]
  have e : partsOf F (p :: r) = (p.unit.char, F.rnd p.amt.value) :: partsOf F r := rfl
  rw [e] at hx
  cases hf : framesOf F (some (k:ℚ)) ((p.unit.char, F.rnd p.amt.value) :: partsOf F r) with
  | error e => rw [hf] at hx; cases hx
  | ok y =>
    rw [hf] at hx
    simp only [Except.ok.injEq, T.mk.injEq, and_true] at hx
    subst hx
    rfl

/-- C150 before the start: 100.5 frames before it, at 24 frames per second. -/
example : T.str double ⟨-(201 / 2), some 24⟩ = "-4s 4.5f".toList ∧
    T.new double (some exRoot) (.str "-4s 4.5f".toList) = .ok ⟨-(201 / 2), some 24⟩ ∧
    ⌊double.rnd ((201 / 2) / 24)⌋ = (4:ℕ) ∧ 9999995 / 10 ^ 11 ≤ pastSecond (201 / 2) 24 := by
  refine ⟨by decide +kernel, by decide +kernel, by decide +kernel, by decide +kernel⟩

end Sang
