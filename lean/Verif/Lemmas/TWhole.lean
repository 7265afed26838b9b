import Verif.Lemmas.TSpec

/-! Helper lemmas: specifications made of whole numbers are read exactly. -/

namespace Sang
open Spec

/-- Whole amounts for the four units. -/
structure Whole (ps : List Part) (H M S G : ℤ) : Prop where
  h : amount ps .h = H
  m : amount ps .m = M
  s : amount ps .s = S
  f : amount ps .f = G

theorem lookup_getD {F : Fl} (hF : F.Lawful) {ps : List Part} {u : TimeUnit} {z : ℤ}
    (h : amount ps u = z) (hz : |z| ≤ 2 ^ 53) :
    ((partsOf F ps).lookup u.char).getD 0 = z := by
  rw [lookup_partsOf]
  unfold amount at h
  cases hf : ps.find? (fun p => p.unit == u) with
  | none => rw [hf] at h; simpa using h
  | some p =>
    rw [hf] at h
    simp only [Option.map_some, Option.getD_some] at h ⊢
    rw [h, hF.int z hz]

theorem addSeconds_whole {F : Fl} (hF : F.Lawful) {parts : Parts} {sec : Option ℚ} {u : Char}
    {z a : ℤ} {size : ℕ} (hz : sec.getD 0 = z) (ha : (parts.lookup u).getD 0 = a)
    (h1 : |a * size| ≤ 2 ^ 53) (h2 : |z + a * size| ≤ 2 ^ 53) :
    (addSeconds F parts sec u (size : ℚ)).getD 0 = ((z + a * size : ℤ) : ℚ) := by
  unfold addSeconds
  cases hl : parts.lookup u with
  | none =>
    rw [hl] at ha
    have : a = 0 := by
      have : (0:ℚ) = a := by simpa using ha
      exact_mod_cast this.symm
    simp [this, hz]
  | some x =>
    rw [hl] at ha
    simp only [Option.getD_some] at ha ⊢
    rw [hz, ha]
    have e1 : F.rnd ((a:ℚ) * size) = ((a * size : ℤ) : ℚ) := by
      have := hF.int (a * size) h1; push_cast at this ⊢; exact this
    rw [e1]
    have := hF.int (z + a * size) h2
    push_cast at this ⊢; exact this

theorem abs_bounds {a b c B : ℤ} (h : |a| + |b| + |c| ≤ B) :
    |a| ≤ B ∧ |b| ≤ B ∧ |c| ≤ B ∧ |a + b| ≤ B ∧ |a + b + c| ≤ B := by
  have h1 := abs_add_le a b
  have h2 := abs_add_le (a + b) c
  have := abs_nonneg a; have := abs_nonneg b; have := abs_nonneg c
  refine ⟨?_, ?_, ?_, ?_, ?_⟩ <;> linarith

theorem secondsOf_whole {F : Fl} (hF : F.Lawful) {ps : List Part} {H M S G : ℤ}
    (hw : Whole ps H M S G) (hb : |H * 3600| + |M * 60| + |S| ≤ 2 ^ 53) :
    (secondsOf F (partsOf F ps)).getD 0 = ((H * 3600 + M * 60 + S : ℤ) : ℚ) := by
  obtain ⟨b1, b2, b3, b4, b5⟩ := abs_bounds hb
  have bH : |H| ≤ 2 ^ 53 := by rw [abs_mul] at b1; norm_num at b1; linarith [abs_nonneg H]
  have bM : |M| ≤ 2 ^ 53 := by rw [abs_mul] at b2; norm_num at b2; linarith [abs_nonneg M]
  have lh := lookup_getD hF hw.h bH
  have lm := lookup_getD hF hw.m bM
  have ls := lookup_getD hF hw.s b3
  simp only [TimeUnit.char] at lh lm ls
  have e1 := addSeconds_whole hF (parts := partsOf F ps) (sec := none) (u := 'h') (z := 0) (a := H)
    (size := 3600) (by simp) lh b1 (by simpa using b1)
  have e2 := addSeconds_whole hF (parts := partsOf F ps) (u := 'm') (a := M)
    (size := 60) e1 lm b2 (by simpa using b4)
  have e3 := addSeconds_whole hF (parts := partsOf F ps) (u := 's') (a := S)
    (size := 1) e2 ls (by simpa using b3) (by simpa using b5)
  have : secondsOf F (partsOf F ps) = addSeconds F (partsOf F ps) (addSeconds F (partsOf F ps)
      (addSeconds F (partsOf F ps) none 'h' ((3600:ℕ):ℚ)) 'm' ((60:ℕ):ℚ)) 's' ((1:ℕ):ℚ) := by
    simp [secondsOf]
  rw [this, e3]; push_cast; ring

theorem seconds_whole {ps : List Part} {H M S G : ℤ} (hw : Whole ps H M S G) :
    seconds ps = ((H * 3600 + M * 60 + S : ℤ) : ℚ) := by
  rw [seconds, hw.h, hw.m, hw.s]; push_cast; ring

/-- Reading whole amounts at a whole frame rate is exact. -/
theorem framesOf_whole {F : Fl} (hF : F.Lawful) {ps : List Part} {H M S G : ℤ}
    (hw : Whole ps H M S G) {r : ℕ} (hr : 1 ≤ r)
    (hb : (|H * 3600| + |M * 60| + |S|) * r + |G| ≤ 2 ^ 53) :
    framesOf F (some (r:ℚ)) (partsOf F ps) =
      if seconds ps ≠ 0 ∧ amount ps .f < 0 then .error .value
      else .ok (frames r ps) := by
  have hr' : (1:ℤ) ≤ r := by exact_mod_cast hr
  have hnn : 0 ≤ |H * 3600| + |M * 60| + |S| := by positivity
  have hG := abs_nonneg G
  have hb1 : |H * 3600| + |M * 60| + |S| ≤ 2 ^ 53 := by nlinarith
  have hsec := secondsOf_whole hF hw hb1
  set Z := H * 3600 + M * 60 + S with hZ
  have hZb : |Z * r| ≤ (|H * 3600| + |M * 60| + |S|) * r := by
    rw [abs_mul, abs_of_nonneg (by positivity : (0:ℤ) ≤ r)]
    apply mul_le_mul_of_nonneg_right _ (by positivity)
    have h1 := abs_add_le (H * 3600) (M * 60)
    have h2 := abs_add_le (H * 3600 + M * 60) S
    linarith
  have hG53 : |G| ≤ 2 ^ 53 := by nlinarith
  have hGabs : ((partsOf F ps).lookup 'f').getD 0 = G := lookup_getD hF hw.f hG53
  have e1 : F.rnd (0 + F.rnd ((Z:ℚ) * r)) = ((Z * r : ℤ):ℚ) := by
    have h1 := hF.int (Z * r) (by linarith)
    push_cast at h1 ⊢
    rw [h1, zero_add, h1]
  have hplus : F.rnd (((Z * r : ℤ):ℚ) + G) = ((Z * r + G : ℤ) : ℚ) := by
    have h2 : |Z * r + G| ≤ 2 ^ 53 := by have := abs_add_le (Z * r) G; linarith
    have := hF.int _ h2; push_cast at this ⊢; exact this
  have hminus : F.rnd (((Z * r : ℤ):ℚ) - G) = ((Z * r - G : ℤ) : ℚ) := by
    have h2 : |Z * r - G| ≤ 2 ^ 53 := by have := abs_sub (Z * r) G; linarith
    have := hF.int _ h2; push_cast at this ⊢; exact this
  have hbase : (if ((Z:ℤ):ℚ) ≠ 0 then (.ok (F.rnd (0 + F.rnd ((Z:ℚ) * r))) : Res ℚ) else .ok 0) =
      .ok ((Z * r : ℤ):ℚ) := by
    split
    · rw [e1]
    · rename_i h0; push Not at h0
      have : Z = 0 := by exact_mod_cast h0
      simp [this]
  simp only [framesOf, hsec, hbase, seconds_whole hw, hw.f, ← hZ]
  cases hl : (partsOf F ps).lookup 'f' with
  | none =>
    rw [hl] at hGabs
    have hG0 : G = 0 := by
      have : (0:ℚ) = G := by simpa using hGabs
      exact_mod_cast this.symm
    rw [if_neg (by rw [hG0]; simp)]
    rw [frames, seconds_whole hw, hw.f, hG0, ← hZ]
    simp
  | some g =>
    rw [hl] at hGabs
    simp only [Option.getD_some] at hGabs
    subst hGabs
    simp only
    split
    · rfl
    · split
      · rename_i hneg
        rw [hminus, frames, seconds_whole hw, hw.f, ← hZ, if_pos hneg]; push_cast; congr 1; ring
      · rename_i hneg
        rw [hplus, frames, seconds_whole hw, hw.f, ← hZ, if_neg hneg]; push_cast; congr 1

/-- Without a frame rate, only specifications of zero seconds can be read. -/
theorem framesOf_whole_none {F : Fl} (hF : F.Lawful) {ps : List Part} {H M S G : ℤ}
    (hw : Whole ps H M S G) (hb : |H * 3600| + |M * 60| + |S| ≤ 2 ^ 53) (hG : |G| ≤ 2 ^ 53) :
    framesOf F none (partsOf F ps) =
      if seconds ps ≠ 0 then .error .value else .ok (amount ps .f) := by
  have hsec := secondsOf_whole hF hw hb
  have hGabs : ((partsOf F ps).lookup 'f').getD 0 = G := lookup_getD hF hw.f hG
  simp only [framesOf, hsec, seconds_whole hw, hw.f]
  by_cases h0 : ((H * 3600 + M * 60 + S : ℤ):ℚ) = 0
  · rw [if_neg (by simpa using h0), if_neg (by simpa using h0), h0]
    cases hl : (partsOf F ps).lookup 'f' with
    | none =>
      rw [hl] at hGabs; simp only [Option.getD_none] at hGabs; rw [← hGabs]
    | some g =>
      rw [hl] at hGabs
      simp only [Option.getD_some] at hGabs
      subst hGabs
      simp [hF.int G hG]
  · rw [if_pos h0, if_pos h0]

end Sang
