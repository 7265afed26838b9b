import Verif.Lemmas.TStr

/-!
# Properties of times (C01–C11)
-/

namespace Sang
open Spec

/-- The root element `root` gives the frame rate `r`. -/
def HasFps (F : Fl) (root : Attrs) (r : ℚ) : Prop :=
  ∃ a, root.get "fps" = some a ∧ a.toFloat F = .ok r

theorem readFps_of {F : Fl} {root : Attrs} {r : ℚ} (h : HasFps F root r) (hr : 0 < r) :
    readFps F (some root) = .ok (some r) := by
  obtain ⟨a, h1, h2⟩ := h
  simp [readFps, h1, h2, not_le.2 hr]

theorem new_str {F : Fl} {root : Attrs} {r : ℚ} (h : HasFps F root r) (hr : 0 < r) (s : Str) :
    T.new F (some root) (.str s) =
      match parseSpec F (some r) s with
      | .error e => .error e
      | .ok x => .ok ⟨x, some r⟩ := by
  simp only [T.new, readFps_of h hr]
  cases parseSpec F (some r) s <;> rfl

/-! ## C07: the meaning of a specification -/

/-- C07. Neither the order of the parts nor the blanks around them matter, for any amounts
(whole or not), any ref and any float rounding. -/
theorem c07_order_and_blanks_irrelevant (F : Fl) (root : Option Attrs) (ps qs : List Part)
    (tr tr' : Str) (hp : ∀ p ∈ ps, p.Valid) (hq : ∀ p ∈ qs, p.Valid)
    (ht : ∀ c ∈ tr, isSpace c = true) (ht' : ∀ c ∈ tr', isSpace c = true)
    (hd : Distinct ps)
    (hperm : (ps.map fun p => (p.amt, p.unit)).Perm (qs.map fun p => (p.amt, p.unit))) :
    T.new F root (.str (specText ps tr)) = T.new F root (.str (specText qs tr')) := by
  have hd' : Distinct qs := by
    have h1 := (hperm.map Prod.snd).nodup_iff
    simp only [List.map_map, Function.comp_def] at h1
    exact h1.1 hd
  have hpar : ∀ fps, parseSpec F fps (specText ps tr) = parseSpec F fps (specText qs tr') := by
    intro fps
    rw [parseSpec_text F fps hp hd ht, parseSpec_text F fps hq hd' ht']
    apply framesOf_congr
    intro u
    -- both dictionaries are those of the parts with their blanks removed
    have strip : ∀ l : List Part, partsOf F l =
        partsOf F ((l.map fun p => (p.amt, p.unit)).map fun x => ⟨[], x.1, x.2⟩) := by
      intro l; simp [partsOf, Function.comp_def]
    rw [strip ps, strip qs, lookup_partsOf, lookup_partsOf,
      find?_perm_of_distinct (hperm.map _)]
    simpa [Distinct, Function.comp_def] using hd
  simp only [T.new, hpar]

/-- C07. With whole amounts and a whole frame rate the specification denotes exactly
`(3600h + 60m + s)·fps ± f` frames. -/
theorem c07_whole_spec_value {F : Fl} (hF : F.Lawful) (root : Attrs) (r : ℕ) (hr : 1 ≤ r)
    (hroot : HasFps F root r) (ps : List Part) (tr : Str) (hp : ∀ p ∈ ps, p.Valid)
    (ht : ∀ c ∈ tr, isSpace c = true) (hd : Distinct ps) (H M S G : ℤ)
    (hH : amount ps .h = H) (hM : amount ps .m = M) (hS : amount ps .s = S)
    (hG : amount ps .f = G)
    (hb : (|H * 3600| + |M * 60| + |S|) * r + |G| ≤ 2 ^ 53)
    (hsign : seconds ps = 0 ∨ 0 ≤ G) :
    T.new F (some root) (.str (specText ps tr)) = .ok ⟨frames r ps, some (r:ℚ)⟩ := by
  have hr' : (0:ℚ) < r := by exact_mod_cast hr
  rw [new_str hroot hr', parseSpec_text F _ hp hd ht, framesOf_whole hF ⟨hH, hM, hS, hG⟩ hr hb, if_neg]
  rintro ⟨h1, h2⟩
  rcases hsign with h | h
  · exact h1 h
  · rw [hG] at h2; have : G < 0 := by exact_mod_cast h2
    omega

/-- An example header: 24 frames per second, five seconds. -/
def exRoot : Attrs :=
  [("fps", .str "24.000".toList), ("begin-time", .str "0f".toList), ("end-time", .str "5s".toList)]

theorem exRoot_fps : HasFps double exRoot 24 := ⟨_, rfl, by decide +kernel⟩

/-- The hypotheses of C07 are met by `" 2m  1h 3f"`, which denotes 89283 frames at 24 fps. -/
example : T.new double (some exRoot) (.str " 2m  1h 3f".toList) = .ok ⟨89283, some 24⟩ := by
  have h := c07_whole_spec_value double_lawful exRoot 24 (by norm_num) (by exact_mod_cast exRoot_fps)
    [⟨[' '], ⟨false, ['2'], []⟩, .m⟩, ⟨[' ', ' '], ⟨false, ['1'], []⟩, .h⟩,
      ⟨[' '], ⟨false, ['3'], []⟩, .f⟩] [] (by
        intro p hp
        simp only [List.mem_cons, List.not_mem_nil, or_false] at hp
        rcases hp with rfl | rfl | rfl <;> exact ⟨by decide, by decide, by decide, by decide⟩)
    (by simp) (by unfold Distinct; decide) 1 2 0 3 (by decide +kernel) (by decide +kernel)
    (by decide +kernel) (by decide +kernel) (by decide) (Or.inr (by decide))
  have e : frames (24:ℕ) [⟨[' '], ⟨false, ['2'], []⟩, .m⟩, ⟨[' ', ' '], ⟨false, ['1'], []⟩, .h⟩,
      ⟨[' '], ⟨false, ['3'], []⟩, .f⟩] = 89283 := by decide +kernel
  rw [e] at h
  exact_mod_cast h

/-! ## C01, C02: writing and reading back -/

/-- Breaking `q` seconds into hours, minutes and seconds loses nothing. -/
theorem hms_sum (q : ℕ) : q / 3600 * 3600 + q % 3600 / 60 * 60 + q % 60 = q := by omega

/-- C01. The text of a time at a whole, non-negative frame reads back as the same time. -/
theorem c01_time_text_roundtrip {F : Fl} (hF : F.Lawful) (root : Attrs) (n k : ℕ)
    (hn : n < 2 ^ 53) (hk : 1 ≤ k) (hk6 : k < 10 ^ 6) (hroot : HasFps F root k) :
    T.new F (some root) (.str (T.str F ⟨n, some (k:ℚ)⟩)) = .ok ⟨n, some (k:ℚ)⟩ := by
  have hstr := str_eq hF hn hk hk6 false (by simp)
  simp only [Bool.false_eq_true, if_false, one_mul] at hstr
  rw [hstr]
  obtain ⟨ah, am, as, af⟩ := strParts_amt n k
  have hq := hms_sum (n / k)
  have hd := Nat.div_add_mod n k
  set l := strParts n k
  have hnk : ((n / k : ℕ) : ℤ) * k + ((n % k : ℕ):ℤ) = n := by
    have : n / k * k + n % k = n := by rw [mul_comm]; exact hd
    exact_mod_cast this
  have key := c07_whole_spec_value hF root k hk hroot (mkParts false l) [] (mkParts_valid _ _) (by simp)
    (strParts_distinct n k false) (n / k / 3600 : ℕ) (n / k % 3600 / 60 : ℕ) (n / k % 60 : ℕ) (n % k : ℕ)
    (by rw [amount_mkParts_pos, ah]; exact (Int.cast_natCast _).symm) (by rw [amount_mkParts_pos, am]; exact (Int.cast_natCast _).symm)
    (by rw [amount_mkParts_pos, as]; exact (Int.cast_natCast _).symm) (by rw [amount_mkParts_pos, af]; exact (Int.cast_natCast _).symm)
    (by
      have e : |((n / k / 3600 : ℕ):ℤ) * 3600| + |((n / k % 3600 / 60 : ℕ):ℤ) * 60| + |((n / k % 60 : ℕ):ℤ)|
          = ((n / k : ℕ):ℤ) := by
        rw [abs_of_nonneg (by positivity), abs_of_nonneg (by positivity), abs_of_nonneg (by positivity)]
        exact_mod_cast hq
      rw [e, abs_of_nonneg (by positivity), hnk]
      exact_mod_cast hn.le)
    (Or.inr (by positivity))
  rw [key]
  have hsec : seconds (mkParts false l) = ((n / k : ℕ):ℚ) := by
    rw [seconds, amount_mkParts_pos, amount_mkParts_pos, amount_mkParts_pos, ah, am, as]
    have : ((n / k / 3600 * 3600 + n / k % 3600 / 60 * 60 + n / k % 60 : ℕ):ℚ) = ((n / k : ℕ):ℚ) := by
      rw [hq]
    rw [← this]; push_cast; ring
  have : frames k (mkParts false l) = n := by
    rw [frames, hsec, if_neg (not_lt.2 (by positivity)), amount_mkParts_pos, af]
    exact_mod_cast hnk
  rw [this]

/-- The hypotheses of C01 are met: frame 89356 at 24 fps is written `1h 2m 3s 4f`. -/
example : T.str double ⟨89356, some 24⟩ = "1h 2m 3s 4f".toList ∧
    T.new double (some exRoot) (.str "1h 2m 3s 4f".toList) = .ok ⟨89356, some 24⟩ := by
  have h1 : T.str double ⟨89356, some 24⟩ = "1h 2m 3s 4f".toList := by decide +kernel
  refine ⟨h1, ?_⟩
  rw [← h1]
  have := c01_time_text_roundtrip double_lawful exRoot 89356 24 (by norm_num) (by norm_num)
    (by norm_num) (by exact_mod_cast exRoot_fps)
  exact_mod_cast this

/-- The text of `-n` frames has at most one of the hour, minute and second parts. -/
def OneBigPart (n k : ℕ) : Prop :=
  n / k < 60 ∨ (n / k < 3600 ∧ n / k % 60 = 0) ∨ n / k % 3600 = 0

theorem neg_read {F : Fl} (hF : F.Lawful) (root : Attrs) (n k : ℕ) (hn : n < 2 ^ 53)
    (hk : 1 ≤ k) (hroot : HasFps F root k) (l : List (ℕ × TimeUnit)) (hl : l = strParts n k)
    (H M S G : ℤ) (hH : amount (mkParts true l) .h = H) (hM : amount (mkParts true l) .m = M)
    (hS : amount (mkParts true l) .s = S) (hG : amount (mkParts true l) .f = G)
    (aH : |H| = (n / k / 3600 : ℕ)) (aM : |M| = (n / k % 3600 / 60 : ℕ)) (aS : |S| = (n / k % 60 : ℕ))
    (aG : |G| = (n % k : ℕ)) (hsign : seconds (mkParts true l) = 0 ∨ 0 ≤ G) :
    T.new F (some root) (.str (specText (mkParts true l) [])) =
      .ok ⟨frames k (mkParts true l), some (k:ℚ)⟩ := by
  refine c07_whole_spec_value hF root k hk hroot _ [] (mkParts_valid _ _) (by simp)
    (by rw [hl]; exact strParts_distinct n k true) H M S G hH hM hS hG ?_ hsign
  have hq := hms_sum (n / k)
  have hd : n / k * k + n % k = n := by rw [mul_comm]; exact Nat.div_add_mod n k
  rw [abs_mul, abs_mul, aH, aM, aS, aG]
  have e3600 : |(3600:ℤ)| = 3600 := rfl
  have e60 : |(60:ℤ)| = 60 := rfl
  rw [e3600, e60]
  have : (((n / k / 3600 : ℕ):ℤ) * 3600 + ((n / k % 3600 / 60 : ℕ):ℤ) * 60 + ((n / k % 60 : ℕ):ℤ)) * k
      + ((n % k : ℕ):ℤ) = n := by
    have : (n / k / 3600 * 3600 + n / k % 3600 / 60 * 60 + n / k % 60) * k + n % k = n := by
      rw [hq, hd]
    exact_mod_cast this
  rw [this]; exact_mod_cast hn.le

theorem amt_cons (a : ℕ) (v u : TimeUnit) (r : List (ℕ × TimeUnit)) :
    amt ((a, v) :: r) u = if u = v then a else amt r u := by
  by_cases h : v = u
  · subst h; simp [amt]
  · rw [if_neg (Ne.symm h)]; simp [amt, beq_false_of_ne h]

/-- Which part comes first, and so gets the minus sign. -/
theorem strParts_head (n k : ℕ) : ∃ r, ∃ v : TimeUnit, ∃ a, strParts n k = (a, v) :: r ∧
    (v = .h ∧ n / k / 3600 ≠ 0 ∨
     v = .m ∧ n / k / 3600 = 0 ∧ n / k % 3600 / 60 ≠ 0 ∨
     v = .s ∧ n / k / 3600 = 0 ∧ n / k % 3600 / 60 = 0 ∧ n / k % 60 ≠ 0 ∨
     v = .f ∧ n / k / 3600 = 0 ∧ n / k % 3600 / 60 = 0 ∧ n / k % 60 = 0) := by
  by_cases h1 : n / k / 3600 = 0
  · by_cases h2 : n / k % 3600 / 60 = 0
    · by_cases h3 : n / k % 60 = 0
      · exact ⟨[], .f, n % k, by simp [strParts, hmsParts, optPart, h1, h2, h3], by simp [h1, h2, h3]⟩
      · exact ⟨_, .s, _, by simp only [strParts, hmsParts, optPart, h1, h2, h3, if_true, if_false, List.nil_append, List.cons_append]; exact rfl, by simp [h1, h2, h3]⟩
    · exact ⟨_, .m, _, by simp only [strParts, hmsParts, optPart, h1, h2, if_true, if_false, List.nil_append, List.cons_append]; exact rfl, by simp [h1, h2]⟩
  · exact ⟨_, .h, _, by simp only [strParts, hmsParts, optPart, h1, if_false, List.cons_append]; exact rfl, by simp [h1]⟩

/-- Reading back the text of `-n` frames: the minus sign applies to the first part only. -/
theorem neg_value {F : Fl} (hF : F.Lawful) (root : Attrs) (n k : ℕ) (hn : n < 2 ^ 53) (h0 : n ≠ 0)
    (hk : 1 ≤ k) (hk6 : k < 10 ^ 6) (hroot : HasFps F root k) :
    ∃ x : ℤ, T.new F (some root) (.str (T.str F ⟨-(n:ℚ), some (k:ℚ)⟩)) = .ok ⟨x, some (k:ℚ)⟩ ∧
      x = if n / k / 3600 ≠ 0 then
            (-((n / k / 3600 * 3600 : ℕ) : ℤ) + (n / k % 3600 : ℕ)) * k - (n % k : ℕ)
          else if n / k / 60 ≠ 0 then
            (-((n / k / 60 * 60 : ℕ) : ℤ) + (n / k % 60 : ℕ)) * k - (n % k : ℕ)
          else -(n:ℤ) := by
  have hstr := str_eq hF hn hk hk6 true (fun _ => h0)
  simp only [if_true, neg_one_mul] at hstr
  rw [hstr]
  obtain ⟨r, v, a, hl, hv⟩ := strParts_head n k
  obtain ⟨ah, am, as, af⟩ := strParts_amt n k
  have hd : n / k * k + n % k = n := by rw [mul_comm]; exact Nat.div_add_mod n k
  have hdz : ((n / k : ℕ) : ℤ) * k + ((n % k : ℕ):ℤ) = n := by exact_mod_cast hd
  have hkz : (0:ℚ) < k := by exact_mod_cast hk
  rw [hl] at ah am as af
  rw [amt_cons] at ah am as af
  have hr := fun u => amount_mkParts_neg a v r u
  rw [hl]
  generalize hQ : n / k = q at *
  generalize hR : n % k = g at *
  rcases hv with ⟨rfl, h1⟩ | ⟨rfl, h1, h2⟩ | ⟨rfl, h1, h2, h3⟩ | ⟨rfl, h1, h2, h3⟩
  · -- hours first
    simp only [reduceCtorEq, if_true, if_false] at ah am as af
    have eh : amount (mkParts true ((a, .h) :: r)) .h = ((-(q / 3600 : ℕ) : ℤ):ℚ) := by
      rw [hr, if_pos rfl, ah]; push_cast; rfl
    have em : amount (mkParts true ((a, .h) :: r)) .m = (((q % 3600 / 60 : ℕ) : ℤ):ℚ) := by
      rw [hr, if_neg (by decide), am]; push_cast; rfl
    have es : amount (mkParts true ((a, .h) :: r)) .s = (((q % 60 : ℕ) : ℤ):ℚ) := by
      rw [hr, if_neg (by decide), as]; push_cast; rfl
    have ef : amount (mkParts true ((a, .h) :: r)) .f = (((g : ℕ) : ℤ):ℚ) := by
      rw [hr, if_neg (by decide), af]; push_cast; rfl
    have := neg_read hF root n k hn hk hroot ((a, .h) :: r) hl.symm _ _ _ _ eh em es ef
      (by rw [abs_neg, hQ, Nat.abs_cast]) (by rw [hQ, Nat.abs_cast]) (by rw [hQ, Nat.abs_cast]) (by rw [hR, Nat.abs_cast])
      (Or.inr (by positivity))
    rw [this]
    refine ⟨(-((q / 3600 * 3600 : ℕ):ℤ) + (q % 3600 : ℕ)) * k - (g : ℕ), ?_, by rw [if_pos h1]⟩
    congr 2
    have hsec : seconds (mkParts true ((a, .h) :: r)) = ((-(q / 3600 * 3600 : ℕ) + (q % 3600 : ℕ) : ℤ):ℚ) := by
      rw [seconds, eh, em, es]
      have : q % 3600 = q % 3600 / 60 * 60 + q % 60 := by omega
      conv_rhs => rw [this]
      push_cast; ring
    have hneg : seconds (mkParts true ((a, .h) :: r)) < 0 := by
      rw [hsec]
      have : (-(q / 3600 * 3600 : ℕ) + (q % 3600 : ℕ) : ℤ) < 0 := by omega
      exact_mod_cast this
    rw [frames, if_pos hneg, hsec, ef]; push_cast; ring
  · -- minutes first
    simp only [reduceCtorEq, if_true, if_false] at ah am as af
    have hq60 : q / 60 ≠ 0 := by omega
    have hm60 : q % 3600 / 60 = q / 60 := by omega
    have eh : amount (mkParts true ((a, .m) :: r)) .h = ((0 : ℤ):ℚ) := by
      rw [hr, if_neg (by decide), ah, h1]; simp
    have em : amount (mkParts true ((a, .m) :: r)) .m = ((-(q % 3600 / 60 : ℕ) : ℤ):ℚ) := by
      rw [hr, if_pos rfl, am]; push_cast; rfl
    have es : amount (mkParts true ((a, .m) :: r)) .s = (((q % 60 : ℕ) : ℤ):ℚ) := by
      rw [hr, if_neg (by decide), as]; push_cast; rfl
    have ef : amount (mkParts true ((a, .m) :: r)) .f = (((g : ℕ) : ℤ):ℚ) := by
      rw [hr, if_neg (by decide), af]; push_cast; rfl
    have := neg_read hF root n k hn hk hroot ((a, .m) :: r) hl.symm _ _ _ _ eh em es ef
      (by rw [hQ, h1]; simp) (by rw [abs_neg, hQ, Nat.abs_cast]) (by rw [hQ, Nat.abs_cast]) (by rw [hR, Nat.abs_cast])
      (Or.inr (by positivity))
    rw [this]
    refine ⟨(-((q / 60 * 60 : ℕ):ℤ) + (q % 60 : ℕ)) * k - (g : ℕ), ?_, by
      rw [if_neg (by simpa using h1), if_pos hq60]⟩
    congr 2
    have hsec : seconds (mkParts true ((a, .m) :: r)) = ((-(q / 60 * 60 : ℕ) + (q % 60 : ℕ) : ℤ):ℚ) := by
      rw [seconds, eh, em, es, hm60]
      push_cast; ring
    have hneg : seconds (mkParts true ((a, .m) :: r)) < 0 := by
      rw [hsec]
      have : (-(q / 60 * 60 : ℕ) + (q % 60 : ℕ) : ℤ) < 0 := by omega
      exact_mod_cast this
    rw [frames, if_pos hneg, hsec, ef]; push_cast; ring
  · -- seconds first
    simp only [reduceCtorEq, if_true, if_false] at ah am as af
    have hq60 : q / 60 = 0 := by omega
    have hs60 : q % 60 = q := by omega
    have eh : amount (mkParts true ((a, .s) :: r)) .h = ((0 : ℤ):ℚ) := by
      rw [hr, if_neg (by decide), ah, h1]; simp
    have em : amount (mkParts true ((a, .s) :: r)) .m = ((0 : ℤ):ℚ) := by
      rw [hr, if_neg (by decide), am, h2]; simp
    have es : amount (mkParts true ((a, .s) :: r)) .s = ((-(q % 60 : ℕ) : ℤ):ℚ) := by
      rw [hr, if_pos rfl, as]; push_cast; rfl
    have ef : amount (mkParts true ((a, .s) :: r)) .f = (((g : ℕ) : ℤ):ℚ) := by
      rw [hr, if_neg (by decide), af]; push_cast; rfl
    have := neg_read hF root n k hn hk hroot ((a, .s) :: r) hl.symm _ _ _ _ eh em es ef
      (by rw [hQ, h1]; simp) (by rw [hQ, h2]; simp) (by rw [abs_neg, hQ, Nat.abs_cast]) (by rw [hR, Nat.abs_cast])
      (Or.inr (by positivity))
    rw [this]
    refine ⟨-(n:ℤ), ?_, by rw [if_neg (by simpa using h1), if_neg (by simpa using hq60)]⟩
    congr 2
    have hsec : seconds (mkParts true ((a, .s) :: r)) = -(q:ℚ) := by
      rw [seconds, eh, em, es, hs60]
      push_cast; ring
    have hneg : seconds (mkParts true ((a, .s) :: r)) < 0 := by
      rw [hsec]
      have : 0 < q := by omega
      have : (0:ℚ) < q := by exact_mod_cast this
      linarith
    rw [frames, if_pos hneg, hsec, ef, ← hdz]; push_cast; ring
  · -- frames only
    simp only [reduceCtorEq, if_true, if_false] at ah am as af
    have hq60 : q / 60 = 0 := by omega
    have hq0 : q = 0 := by omega
    have eh : amount (mkParts true ((a, .f) :: r)) .h = ((0 : ℤ):ℚ) := by
      rw [hr, if_neg (by decide), ah, h1]; simp
    have em : amount (mkParts true ((a, .f) :: r)) .m = ((0 : ℤ):ℚ) := by
      rw [hr, if_neg (by decide), am, h2]; simp
    have es : amount (mkParts true ((a, .f) :: r)) .s = ((0 : ℤ):ℚ) := by
      rw [hr, if_neg (by decide), as, h3]; simp
    have ef : amount (mkParts true ((a, .f) :: r)) .f = ((-((g : ℕ) : ℤ) : ℤ):ℚ) := by
      rw [hr, if_pos rfl, af]; push_cast; rfl
    have hsec : seconds (mkParts true ((a, .f) :: r)) = 0 := by
      rw [seconds, eh, em, es]; simp
    have := neg_read hF root n k hn hk hroot ((a, .f) :: r) hl.symm _ _ _ _ eh em es ef
      (by rw [hQ, h1]; simp) (by rw [hQ, h2]; simp) (by rw [hQ, h3]; simp) (by rw [abs_neg, hR, Nat.abs_cast])
      (Or.inl hsec)
    rw [this]
    refine ⟨-(n:ℤ), ?_, by rw [if_neg (by simpa using h1), if_neg (by simpa using hq60)]⟩
    congr 2
    rw [frames, hsec, if_neg (lt_irrefl _), ef, ← hdz, hq0]; push_cast; ring

/-- C02. The text of a negative time at a whole frame reads back as the same time exactly when
it has at most one of the hour, minute and second parts; it always reads back as *some* time. -/
theorem c02_negative_time_text_roundtrip_iff {F : Fl} (hF : F.Lawful) (root : Attrs) (n k : ℕ)
    (hn : n < 2 ^ 53) (h0 : n ≠ 0) (hk : 1 ≤ k) (hk6 : k < 10 ^ 6) (hroot : HasFps F root k) :
    (T.new F (some root) (.str (T.str F ⟨-(n:ℚ), some (k:ℚ)⟩)) = .ok ⟨-(n:ℚ), some (k:ℚ)⟩ ↔
      OneBigPart n k) ∧
    ∃ t, T.new F (some root) (.str (T.str F ⟨-(n:ℚ), some (k:ℚ)⟩)) = .ok t := by
  obtain ⟨x, hx, hval⟩ := neg_value hF root n k hn h0 hk hk6 hroot
  refine ⟨?_, _, hx⟩
  rw [hx]
  have e : (.ok ⟨(x:ℚ), some (k:ℚ)⟩ : Res T) = .ok ⟨-(n:ℚ), some (k:ℚ)⟩ ↔ x = -(n:ℤ) := by
    constructor
    · intro h
      injection h with h; injection h with h
      exact_mod_cast h
    · rintro rfl; push_cast; rfl
  rw [e, hval]
  have hd : n / k * k + n % k = n := by rw [mul_comm]; exact Nat.div_add_mod n k
  have hdz : ((n / k : ℕ) : ℤ) * k + ((n % k : ℕ):ℤ) = n := by exact_mod_cast hd
  have hk0 : (k:ℤ) ≠ 0 := by positivity
  unfold OneBigPart
  generalize n / k = q at *
  generalize n % k = g at *
  -- in the big cases, equality says that the rest is zero
  have cancel : ∀ a b : ℤ, a + b = q → ((-a + b) * k - g = -(n:ℤ) ↔ b = 0) := by
    intro a b hab
    rw [← hdz, ← hab]
    constructor
    · intro h
      have : 2 * b * k = 0 := by linarith
      rcases mul_eq_zero.1 this with h | h
      · omega
      · exact absurd h hk0
    · rintro rfl; ring
  by_cases h1 : q / 3600 = 0
  · rw [if_neg (by simpa using h1)]
    by_cases h2 : q / 60 = 0
    · rw [if_neg (by simpa using h2)]
      constructor
      · intro _; left; omega
      · intro _; rfl
    · rw [if_pos h2, cancel _ _ (by push_cast; omega)]
      constructor
      · intro h; right; left; omega
      · intro h; omega
  · rw [if_pos h1, cancel _ _ (by push_cast; omega)]
    constructor
    · intro h; right; right; omega
    · intro h; omega

/-- C02's hypotheses are met on both sides: −27 frames (`-1s 3f`) survives at 24 fps, and
−62 seconds (`-1m 2s`) doesn't: it reads back as −58 seconds. -/
example : OneBigPart 27 24 ∧ ¬ OneBigPart (62 * 24) 24 ∧
    T.str double ⟨-(62 * 24), some 24⟩ = "-1m 2s".toList ∧
    T.new double (some exRoot) (.str "-1m 2s".toList) = .ok ⟨-(58 * 24), some 24⟩ := by
  refine ⟨?_, ?_, ?_, ?_⟩
  · left; decide
  · unfold OneBigPart; decide
  · decide +kernel
  · decide +kernel

/-! ## C03, C04, C05: comparison and hashing -/

/-- Two times may be compared if their frame rates agree, or one is unknown. -/
def Comparable (a b : T) : Prop := a.fps = none ∨ b.fps = none ∨ a.fps = b.fps

theorem compare_of_comparable {a b : T} (h : Comparable a b) (op : ℚ → ℚ → Bool) :
    a.compare (.t b) op = .ok (op a.frames b.frames) := by
  obtain ⟨x, fa⟩ := a
  obtain ⟨y, fb⟩ := b
  cases fa <;> cases fb <;> simp_all [Comparable, T.compare]

/-- C03, for finite numbers (C166 has the others). Within one frame rate (or when one is unknown) exactly one of `<`, `==`, `>` holds,
and all five comparisons agree with comparing frame numbers. -/
theorem c03_comparison_agrees_with_frames_partial (a b : T) (h : Comparable a b) :
    a.lt (.t b) = .ok (decide (a.frames < b.frames)) ∧
    a.eq (.t b) = .ok (decide (a.frames = b.frames)) ∧
    a.gt (.t b) = .ok (decide (a.frames > b.frames)) ∧
    a.le (.t b) = .ok (decide (a.frames ≤ b.frames)) ∧
    a.ge (.t b) = .ok (decide (a.frames ≥ b.frames)) := by
  have hlt : a.lt (.t b) = .ok (decide (a.frames < b.frames)) := compare_of_comparable h _
  have heq : a.eq (.t b) = .ok (decide (a.frames = b.frames)) := compare_of_comparable h _
  refine ⟨hlt, heq, ?_, ?_, ?_⟩
  · simp only [T.gt, hlt, heq]
    rcases lt_trichotomy a.frames b.frames with h | h | h
    · simp [h, h.le]
    · simp [h]
    · simp [h, h.not_gt, h.ne']
  · simp only [T.le, hlt, heq]
    rcases lt_trichotomy a.frames b.frames with h | h | h
    · simp [h, h.le]
    · simp [h]
    · simp [h, h.not_gt, h.ne']
  · simp only [T.ge, hlt]
    rcases lt_trichotomy a.frames b.frames with h | h | h
    · simp [h]
    · simp [h]
    · simp [h.not_gt, h.le]

/-- C03, for finite numbers (C166 has the others). Exactly one of `a < b`, `a == b`, `a > b`. -/
theorem c03_trichotomy_partial (a b : T) (h : Comparable a b) :
    (a.lt (.t b) = .ok true ∧ a.eq (.t b) = .ok false ∧ a.gt (.t b) = .ok false) ∨
    (a.lt (.t b) = .ok false ∧ a.eq (.t b) = .ok true ∧ a.gt (.t b) = .ok false) ∨
    (a.lt (.t b) = .ok false ∧ a.eq (.t b) = .ok false ∧ a.gt (.t b) = .ok true) := by
  obtain ⟨h1, h2, h3, _⟩ := c03_comparison_agrees_with_frames_partial a b h
  rw [h1, h2, h3]
  rcases lt_trichotomy a.frames b.frames with h | h | h
  · left; simp [h, h.ne, h.le]
  · right; left; simp [h]
  · right; right; simp [h, h.not_gt, h.ne']

/-- C03. `<` is transitive. -/
theorem c03_lt_trans (a b c : T) (hac : Comparable a c) (h1 : a.lt (.t b) = .ok true)
    (h2 : b.lt (.t c) = .ok true) : a.lt (.t c) = .ok true := by
  have key : ∀ x y : T, x.lt (.t y) = .ok true → x.frames < y.frames := by
    intro x y h
    obtain ⟨p, fa⟩ := x
    obtain ⟨q, fb⟩ := y
    cases fa <;> cases fb <;> simp_all [T.lt, T.compare]
    split at h <;> simp_all
  rw [(c03_comparison_agrees_with_frames_partial a c hac).1]
  simp [(key a b h1).trans (key b c h2)]

/-- C03. Comparing with a plain number compares the frame number. -/
theorem c03_compare_number (a : T) (q : ℚ) :
    a.lt (.num q) = .ok (decide (a.frames < q)) ∧ a.eq (.num q) = .ok (decide (a.frames = q)) ∧
    a.gt (.num q) = .ok (decide (a.frames > q)) ∧ a.le (.num q) = .ok (decide (a.frames ≤ q)) ∧
    a.ge (.num q) = .ok (decide (a.frames ≥ q)) := by
  have hlt : a.lt (.num q) = .ok (decide (a.frames < q)) := rfl
  have heq : a.eq (.num q) = .ok (decide (a.frames = q)) := rfl
  refine ⟨hlt, heq, ?_, ?_, ?_⟩
  · simp only [T.gt, hlt, heq]
    rcases lt_trichotomy a.frames q with h | h | h
    · simp [h, h.le]
    · simp [h]
    · simp [h, h.not_gt, h.ne']
  · simp only [T.le, hlt, heq]
    rcases lt_trichotomy a.frames q with h | h | h
    · simp [h, h.le]
    · simp [h]
    · simp [h, h.not_gt, h.ne']
  · simp only [T.ge, hlt]
    rcases lt_trichotomy a.frames q with h | h | h
    · simp [h]
    · simp [h]
    · simp [h.not_gt, h.le]

/-- The hypotheses of C03 are met by times with equal and with unknown frame rates. -/
example : Comparable ⟨3, some 24⟩ ⟨5, some 24⟩ ∧ Comparable ⟨3, none⟩ ⟨5, some 24⟩ ∧
    (T.mk 3 none).lt (.t ⟨5, some 24⟩) = .ok true := by
  refine ⟨by simp [Comparable], by simp [Comparable], by decide +kernel⟩

/-- C04. Every comparison of times with known, different frame rates raises `ValueError`, even
at frame zero. -/
theorem c04_different_fps_refused (a b : T) (r s : ℚ) (ha : a.fps = some r) (hb : b.fps = some s)
    (hne : r ≠ s) :
    a.lt (.t b) = .error .value ∧ a.eq (.t b) = .error .value ∧ a.gt (.t b) = .error .value ∧
    a.le (.t b) = .error .value ∧ a.ge (.t b) = .error .value := by
  have h : ∀ op, a.compare (.t b) op = .error .value := by
    intro op; simp [T.compare, ha, hb, Ne.symm hne]
  have hlt : a.lt (.t b) = .error .value := h _
  have heq : a.eq (.t b) = .error .value := h _
  simp [T.gt, T.le, T.ge, hlt, heq]

/-- C04. And that is the only reason for a comparison to be refused. -/
theorem c04_refused_only_for_different_fps (a b : T) (e : Err) :
    (a.lt (.t b) = .error e ∨ a.eq (.t b) = .error e ∨ a.gt (.t b) = .error e ∨
      a.le (.t b) = .error e ∨ a.ge (.t b) = .error e) → ¬ Comparable a b := by
  intro h hc
  obtain ⟨h1, h2, h3, h4, h5⟩ := c03_comparison_agrees_with_frames_partial a b hc
  rw [h1, h2, h3, h4, h5] at h
  simp at h

/-- C05. Equal times with the same `fps`, or at frame zero, have equal hashes, whatever hash
Python uses for pairs. -/
theorem c05_equal_hash_partial (h : ℚ × Option ℚ → ℤ) (a b : T) (heq : a.eq (.t b) = .ok true)
    (hf : a.fps = b.fps ∨ a.frames = 0) : a.hash h = b.hash h := by
  have hfr : a.frames = b.frames := by
    obtain ⟨p, fa⟩ := a
    obtain ⟨q, fb⟩ := b
    cases fa <;> cases fb <;> simp_all [T.eq, T.compare]
    split at heq <;> simp_all
  rcases hf with hf | hf
  · simp [T.hash, hfr, hf]
  · have hb : b.frames = 0 := by rw [← hfr, hf]
    simp [T.hash, hf, hb]

/-- C05. The full contract fails: a `T` of unknown `fps` equals one of known `fps` at the same
frame, but the hashes are those of different pairs. -/
theorem c05_equal_hash_fails (h : ℚ × Option ℚ → ℤ) (hinj : h (5, none) ≠ h (5, some 24)) :
    ∃ a b : T, a.eq (.t b) = .ok true ∧ a.hash h ≠ b.hash h :=
  ⟨⟨5, none⟩, ⟨5, some 24⟩, by decide +kernel, by simpa [T.hash] using hinj⟩

/-- A case of C05 with non-zero frames. -/
example : (T.mk 7 (some 24)).eq (.t ⟨7, some 24⟩) = .ok true := by decide +kernel

/-! ## C06: negative frame numbers -/

/-- C06. A negative frame number counts back from one past the end. The times of the header are
read as the same code would read them on their own. -/
theorem c06_negative_counts_from_end {F : Fl} (root : Attrs) (q : ℚ)
    (hneg : F.rnd q < 0) (E B : T) (te tb : Str)
    (he : root.get "end-time" = some (.str te)) (hb : root.get "begin-time" = some (.str tb))
    (hE : T.new F (some root) (.str te) = .ok E) (hB : T.new F (some root) (.str tb) = .ok B) :
    T.new F (some root) (.num q) =
      .ok ⟨F.rnd (F.rnd (1 + F.rnd (E.frames - B.frames)) + F.rnd q), E.fps⟩ := by
  simp only [T.new] at hE hB ⊢
  cases hr : readFps F (some root) with
  | error e => rw [hr] at hE; cases hE
  | ok fps =>
    rw [hr] at hE hB
    simp only at hE hB ⊢
    cases h1 : parseSpec F fps te with
    | error e => rw [h1] at hE; cases hE
    | ok x =>
      cases h2 : parseSpec F fps tb with
      | error e => rw [h2] at hB; cases hB
      | ok y =>
        rw [h1] at hE; rw [h2] at hB
        injection hE with hE; injection hB with hB
        subst hE hB
        simp [framesOfNumber, hneg, parseAttr, he, hb, h1, h2]

/-- C06, exactly: for whole times, `T(-j)` is frame `(end - begin + 1) - j`. -/
theorem c06_negative_counts_from_end_whole {F : Fl} (hF : F.Lawful) (root : Attrs) (j e b : ℕ)
    (hj : 1 ≤ j) (fps : Option ℚ) (te tb : Str)
    (he : root.get "end-time" = some (.str te)) (hb : root.get "begin-time" = some (.str tb))
    (hE : T.new F (some root) (.str te) = .ok ⟨e, fps⟩)
    (hB : T.new F (some root) (.str tb) = .ok ⟨b, fps⟩)
    (hsize : e + b + j + 1 ≤ 2 ^ 53) :
    T.new F (some root) (.num (-(j:ℚ))) = .ok ⟨((e:ℚ) - b + 1) - j, fps⟩ := by
  have h1 : F.rnd (-(j:ℚ)) = -(j:ℚ) := by rw [hF.neg, hF.nat j (by omega)]
  have hneg : F.rnd (-(j:ℚ)) < 0 := by
    rw [h1]; have : (1:ℚ) ≤ j := by exact_mod_cast hj
    linarith
  rw [c06_negative_counts_from_end root _ hneg _ _ te tb he hb hE hB, h1]
  have e1 : F.rnd ((e:ℚ) - b) = (e:ℚ) - b := by
    have := hF.int ((e:ℤ) - b) (by rw [abs_le]; constructor <;> omega)
    push_cast at this; exact this
  have e2 : F.rnd (1 + ((e:ℚ) - b)) = 1 + ((e:ℚ) - b) := by
    have := hF.int (1 + ((e:ℤ) - b)) (by rw [abs_le]; constructor <;> omega)
    push_cast at this; exact this
  have e3 : F.rnd (1 + ((e:ℚ) - b) + -(j:ℚ)) = (e:ℚ) - b + 1 - j := by
    have := hF.int (1 + ((e:ℤ) - b) + -(j:ℤ)) (by rw [abs_le]; constructor <;> omega)
    push_cast at this; rw [this]; ring
  simp only [e1, e2, e3]

/-- C06. Without a ref, or with one outside any animation, a negative number is refused. -/
theorem c06_negative_needs_ref {F : Fl} (q : ℚ) (hneg : F.rnd q < 0) :
    T.new F none (.num q) = .error .value := by
  simp [T.new, readFps, framesOfNumber, hneg]

/-- C06. A T with negative frames is treated the same as the number of them. -/
theorem c06_negative_T {F : Fl} (root : Option Attrs) (t : T) (hrep : F.rep t.frames) :
    T.new F root (.t t) = T.new F root (.num t.frames) := by
  simp only [T.new, show F.rnd t.frames = t.frames from hrep]

/-- C03. `int(t)` is the number of frames without its fraction, whatever the sign. -/
theorem c03_int (t : T) : |((t.toInt : ℤ) : ℚ)| ≤ |t.frames| ∧ |t.frames| < |((t.toInt : ℤ) : ℚ)| + 1 ∧
    0 ≤ t.toInt * t.frames := by
  have h1 := Int.floor_le t.frames
  have h2 := Int.lt_floor_add_one t.frames
  have h3 := Int.le_ceil t.frames
  have h4 := Int.ceil_lt_add_one t.frames
  simp only [T.toInt, truncQ]
  split
  · rename_i h
    have hc : ((⌈t.frames⌉ : ℤ) : ℚ) ≤ 0 := by exact_mod_cast Int.ceil_le.2 (by simpa using h.le)
    rw [Int.floor_neg, neg_neg, abs_of_neg h, abs_of_nonpos hc]
    exact ⟨by linarith, by linarith, mul_nonneg_of_nonpos_of_nonpos hc h.le⟩
  · rename_i h
    push Not at h
    have hc : (0:ℚ) ≤ ((⌊t.frames⌋ : ℤ) : ℚ) := by exact_mod_cast Int.floor_nonneg.2 h
    rw [abs_of_nonneg h, abs_of_nonneg hc]
    exact ⟨by linarith, by linarith, mul_nonneg hc h⟩

/-- The hypotheses of C06 are met: in the example (5 s at 24 fps) `T(-1)` is frame 120. -/
example : T.new double (some exRoot) (.num (-1)) = .ok ⟨120, some 24⟩ := by
  have := c06_negative_counts_from_end_whole double_lawful exRoot 1 120 0 (by norm_num) (some 24)
    "5s".toList "0f".toList rfl rfl (by decide +kernel) (by decide +kernel) (by norm_num)
  norm_num at this
  exact this

/-! ## C08, C09: what is refused -/

/-- C08. Without a ref, a specification in whole numbers is refused exactly when its seconds
are not zero. -/
theorem c08_seconds_need_ref {F : Fl} (hF : F.Lawful) (ps : List Part) (tr : Str)
    (hp : ∀ p ∈ ps, p.Valid) (ht : ∀ c ∈ tr, isSpace c = true) (hd : Distinct ps) (H M S G : ℤ)
    (hH : amount ps .h = H) (hM : amount ps .m = M) (hS : amount ps .s = S)
    (hG : amount ps .f = G) (hb : |H * 3600| + |M * 60| + |S| ≤ 2 ^ 53) (hG' : |G| ≤ 2 ^ 53) :
    T.new F none (.str (specText ps tr)) =
      if seconds ps ≠ 0 then .error .value else .ok ⟨amount ps .f, none⟩ := by
  simp only [T.new, readFps]
  rw [parseSpec_text F _ hp hd ht, framesOf_whole_none hF ⟨hH, hM, hS, hG⟩ hb hG']
  by_cases h : seconds ps = 0 <;> simp [h]

/-- C08. Frames alone, whole or not, never need a ref. -/
theorem c08_frames_need_no_ref {F : Fl} (hF : F.Lawful) (p : Part) (tr : Str) (hp : p.Valid)
    (ht : ∀ c ∈ tr, isSpace c = true) (hu : p.unit = .f) :
    T.new F none (.str (specText [p] tr)) = .ok ⟨F.rnd p.amt.value, none⟩ := by
  simp only [T.new, readFps]
  rw [parseSpec_text F _ (by simpa using hp) (by simp [Distinct]) ht]
  simp [framesOf, secondsOf, addSeconds, partsOf, hu, TimeUnit.char, List.lookup, hF.idem]

/-- C08's hypotheses are met: `1m` is refused without a ref, `0s 2f` is not. -/
example : T.new double none (.str "1m".toList) = .error .value ∧
    T.new double none (.str "0s 2f".toList) = .ok ⟨2, none⟩ := by
  constructor <;> decide +kernel

/-- C09. Giving a unit twice is refused, whatever the amounts, ref and rounding. -/
theorem c09_repeated_unit_refused (F : Fl) (root : Option Attrs) (ps : List Part) (tr : Str)
    (hp : ∀ p ∈ ps, p.Valid) (ht : ∀ c ∈ tr, isSpace c = true) (hd : ¬ Distinct ps)
    (hroot : ∃ fps, readFps F root = .ok fps) :
    T.new F root (.str (specText ps tr)) = .error .value := by
  obtain ⟨fps, h⟩ := hroot
  simp only [T.new, h]
  rw [parseSpec_dup F _ hp hd ht]

/-- C09. Non-zero seconds with negative frames are refused (whole amounts, whole rate). -/
theorem c09_negative_frames_with_seconds_refused {F : Fl} (hF : F.Lawful) (root : Attrs) (r : ℕ)
    (hr : 1 ≤ r) (hroot : HasFps F root r) (ps : List Part) (tr : Str) (hp : ∀ p ∈ ps, p.Valid)
    (ht : ∀ c ∈ tr, isSpace c = true) (hd : Distinct ps) (H M S G : ℤ)
    (hH : amount ps .h = H) (hM : amount ps .m = M) (hS : amount ps .s = S)
    (hG : amount ps .f = G) (hb : (|H * 3600| + |M * 60| + |S|) * r + |G| ≤ 2 ^ 53)
    (hsec : seconds ps ≠ 0) (hneg : G < 0) :
    T.new F (some root) (.str (specText ps tr)) = .error .value := by
  have hr' : (0:ℚ) < r := by exact_mod_cast hr
  rw [new_str hroot hr', parseSpec_text F _ hp hd ht, framesOf_whole hF ⟨hH, hM, hS, hG⟩ hr hb, if_pos]
  refine ⟨hsec, ?_⟩
  rw [hG]; exact_mod_cast hneg

/-- C09's hypotheses are met, and so is the exception noted in its statement. -/
example : T.new double (some exRoot) (.str "1s 2f 3s".toList) = .error .value ∧
    T.new double (some exRoot) (.str "1s -2f".toList) = .error .value ∧
    T.new double (some exRoot) (.str "5x".toList) = .ok ⟨0, some 24⟩ := by
  refine ⟨?_, ?_, ?_⟩ <;> decide +kernel

/-! ## C10, C11 -/

/-- C10, for finite numbers (C166 has the others). Whatever the arguments, a `T` that comes out of the constructor either has no frame
rate (no ref) or exactly its ref's frame rate, which is positive. -/
theorem c10_fps_positive_partial (F : Fl) (root : Option Attrs) (v : TArg) (t : T)
    (h : T.new F root v = .ok t) :
    (root = none ∧ t.fps = none) ∨
    ∃ a fpsAttr r, root = some a ∧ a.get "fps" = some fpsAttr ∧ fpsAttr.toFloat F = .ok r ∧
      t.fps = some r ∧ 0 < r := by
  simp only [T.new] at h
  cases hr : readFps F root with
  | error e => rw [hr] at h; cases h
  | ok fps =>
    rw [hr] at h
    have hfps : t.fps = fps := by
      simp only at h
      split at h
      · cases h
      · injection h with h; rw [← h]
    cases root with
    | none =>
      left
      simp only [readFps] at hr
      injection hr with hr
      exact ⟨rfl, by rw [hfps, ← hr]⟩
    | some a =>
      right
      simp only [readFps] at hr
      cases hg : a.get "fps" with
      | none => rw [hg] at hr; cases hr
      | some x =>
        rw [hg] at hr
        simp only at hr
        cases hx : x.toFloat F with
        | error e => rw [hx] at hr; cases hr
        | ok r =>
          rw [hx] at hr
          simp only at hr
          split at hr
          · cases hr
          · rename_i hpos
            injection hr with hr
            exact ⟨a, x, r, rfl, hg, hx, by rw [hfps, ← hr], not_le.1 hpos⟩

/-- C10, for finite numbers (C166 has the others). A ref whose frame rate isn't positive makes every construction raise `ValueError`. -/
theorem c10_bad_fps_refused_partial (F : Fl) (root : Attrs) (r : ℚ) (h : HasFps F root r) (hr : r ≤ 0)
    (v : TArg) : T.new F (some root) v = .error .value := by
  obtain ⟨a, h1, h2⟩ := h
  simp [T.new, readFps, h1, h2, hr]

example : T.new double (some [("fps", .str "0".toList)]) (.num 3) = .error .value :=
  c10_bad_fps_refused_partial _ _ 0 ⟨_, rfl, by decide +kernel⟩ (le_refl _) _

/-- C11. Seconds are frames over frame rate; without a rate only frame zero has seconds. -/
theorem c11_seconds (F : Fl) (t : T) :
    t.seconds F = match t.fps with
      | some r => .ok (F.rnd (t.frames / r))
      | none => if t.frames = 0 then .ok 0 else .error .value := by
  unfold T.seconds
  cases t.fps <;> rfl

/-- C11. Converting a whole number of seconds to frames and back is exact, for a whole rate. -/
theorem c11_seconds_roundtrip {F : Fl} (hF : F.Lawful) (root : Attrs) (r : ℕ) (hr : 1 ≤ r)
    (hroot : HasFps F root r) (s : ℕ) (hs : s * r ≤ 2 ^ 53) :
    ∃ t, T.new F (some root) (.str (natStr s ++ ['s'])) = .ok t ∧ t.seconds F = .ok (s:ℚ) := by
  have hr' : (0:ℚ) < r := by exact_mod_cast hr
  have hs53 : s ≤ 2 ^ 53 := le_trans (Nat.le_mul_of_pos_right s hr) hs
  have htext : specText [⟨[], ⟨false, natStr s, []⟩, .s⟩] [] = natStr s ++ ['s'] := by
    simp [specText, Amount.text, TimeUnit.char]
  have ha : ∀ u, amount [⟨[], ⟨false, natStr s, []⟩, .s⟩] u = if u = .s then (s:ℚ) else 0 := by
    intro u
    cases u <;> simp [amount, natAmount_value]
  have := c07_whole_spec_value hF root r hr hroot [⟨[], ⟨false, natStr s, []⟩, .s⟩] []
    (by simpa using ⟨by simp, natAmount_valid _ _⟩) (by simp) (by simp [Distinct]) 0 0 s 0
    (by rw [ha]; simp) (by rw [ha]; simp) (by rw [ha]; simp) (by rw [ha]; simp)
    (by simp; exact_mod_cast hs) (Or.inr (le_refl _))
  rw [htext] at this
  refine ⟨_, this, ?_⟩
  have hfr : frames r [⟨[], ⟨false, natStr s, []⟩, .s⟩] = (s:ℚ) * r := by
    simp [frames, seconds, ha]
  simp only [T.seconds, hfr]
  rw [mul_div_assoc, div_self hr'.ne', mul_one, hF.nat s hs53]

example : (T.mk 60 (some 24)).seconds double = .ok (5/2) := by decide +kernel

end Sang
