import Verif.Lemmas.TFrac

/-! Helper lemmas: a time a tiny fraction of a frame after a whole second is written with an exponent, which is read
as a number of frames before it. -/

namespace Sang
open Spec

/-- Below a ten-thousandth, `%g` uses an exponent. -/
theorem fmtG_small {q : ℚ} (h0 : 0 < q) (h : q < tiny) : ∃ (a : Amount) (d : ℕ) (ds : Str),
    fmtG q = a.text ++ 'e' :: '-' :: ds ∧ a.neg = false ∧ a.Valid ∧ (∀ c ∈ ds, isDig c = true) ∧ ds ≠ [] ∧
      natVal ds = d ∧ 5 ≤ d ∧ (d:ℤ) = -(sigDigits 6 q).2 := by
  have he : (sigDigits 6 q).2 ≤ -5 := by
    have hl : Int.log 10 q ≤ -5 := log10_le h0 (by
      have : (10:ℚ) ^ ((-5:ℤ) + 1) = 1 / 10 ^ 4 := by norm_num
      rw [this]; exact h.trans (by norm_num [tiny]))
    simp only [sigDigits]
    split
    · rename_i hm
      simp only
      rcases lt_or_eq_of_le hl with h1 | h1
      · omega
      · exfalso
        rw [h1] at hm
        have e0 : (((6:ℕ):ℤ) - 1 - -5) = ((10:ℕ):ℤ) := by norm_num
        rw [e0, zpow_natCast] at hm
        have h2 : rhe (q * 10 ^ 10) = 1000000 := by omega
        have h3 := (abs_le.1 (rhe_err (q * 10 ^ 10))).2
        rw [h2] at h3
        push_cast at h3
        unfold tiny at h
        linarith
    · exact hl
  rw [fmtG, if_neg h0.ne', if_neg (not_lt.2 h0.le)]
  simp only [gPos]
  set e := (sigDigits 6 q).2
  rw [if_neg (by omega)]
  have hds : ∃ ds : Str, expStr e = '-' :: ds ∧ (∀ c ∈ ds, isDig c = true) ∧ ds ≠ [] ∧ natVal ds = e.natAbs := by
    simp only [expStr]
    rw [if_pos (by omega)]
    split
    · refine ⟨_, rfl, ?_, by simp, ?_⟩
      · intro c hc
        simp only [List.mem_cons] at hc
        rcases hc with rfl | hc
        · rfl
        · exact natStr_digits _ c hc
      · rw [natVal_cons, natVal_natStr]; simp [digV]
    · exact ⟨_, rfl, natStr_digits _, natStr_ne_nil _, natVal_natStr _⟩
  obtain ⟨ds, e1, e2, e3, e4⟩ := hds
  have key : ∀ x : ℚ, ∃ a : Amount, a.neg = false ∧ a.Valid ∧ a.text = stripZeros (fixedNN 5 x) := by
    intro x
    simp only [fixedNN]
    rw [if_neg (by norm_num)]
    set w := natStr ((rhe (x * 10 ^ 5)).toNat / 10 ^ 5)
    rcases stripZeros_cases w (fracStr 5 ((rhe (x * 10 ^ 5)).toNat % 10 ^ 5)) (fracStr_digits _ _) with
      ⟨h, k, hk⟩ | ⟨g, k, hg, h⟩
    · exact ⟨⟨false, w, []⟩, rfl, natAmount_valid _ _, by rw [h]; simp [Amount.text]⟩
    · by_cases hg0 : g = []
      · subst hg0
        simp only [List.nil_append] at hg
        rw [hg, stripZeros_whole] at h
        have := congrArg List.length h
        simp at this
      · refine ⟨⟨false, w, g⟩, rfl, ⟨natStr_ne_nil _, natStr_digits _, ?_⟩, by rw [h]; simp [Amount.text, hg0]⟩
        intro c hc
        exact fracStr_digits 5 _ c (by rw [hg]; simp [hc])
  obtain ⟨a, a1, a2, a3⟩ := key (((sigDigits 6 q).1 : ℚ) / 10 ^ (6 - 1))
  refine ⟨a, e.natAbs, ds, ?_, a1, a2, e2, e3, e4, by omega, by omega⟩
  rw [e1, a3]

theorem pyFloat_blank (F : Fl) {ws s : Str} (h : ∀ c ∈ ws, isSpace c = true) :
    pyFloat F (ws ++ s) = pyFloat F s := by
  have : strip (ws ++ s) = strip s := by rw [strip, strip, dropWhile_space_append h]
  simp only [pyFloat, this]

/-- Cutting a specification that goes on with something else. -/
theorem specSplit_text_append {ps : List Part} (h : ∀ p ∈ ps, p.Valid) (r : Str) :
    specSplit 0 [] (specText ps [] ++ r) = (ps.flatMap fun p => [p.blanks, ptext p]) ++ specSplit 0 [] r := by
  induction ps with
  | nil => simp [specText]
  | cons p ps ih =>
    have hp := h p (by simp)
    rw [specText_cons, List.append_assoc, List.append_assoc, specSplit_blanks hp.1, specSplit_part hp.2,
      ih (fun q hq => h q (by simp [hq]))]
    simp

theorem collect_parts_append (F : Fl) (acc : Parts) {ps : List Part} (h : ∀ p ∈ ps, p.Valid)
    (hd : Distinct ps) (hacc : ∀ p ∈ ps, acc.lookup p.unit.char = none) (r : List Str) :
    collectParts F acc ((ps.flatMap fun p => [p.blanks, ptext p]) ++ r) =
      collectParts F (acc ++ partsOf F ps) r := by
  induction ps generalizing acc with
  | nil => simp [partsOf]
  | cons p ps ih =>
    have hp := h p (by simp)
    simp only [List.flatMap_cons, List.cons_append, List.nil_append, collectParts,
      addPart_blank F acc hp.1, addPart_part F acc hp.2, hacc p (by simp)]
    simp only [Distinct, List.map_cons, List.nodup_cons, List.mem_map, not_exists, not_and] at hd
    rw [ih _ (fun q hq => h q (by simp [hq])) hd.2]
    · simp [partsOf]
    · intro q hq
      rw [lookup_append_single, hacc q (by simp [hq])]
      have : q.unit.char ≠ p.unit.char := fun hc => hd.1 q hq (TimeUnit.char_inj hc)
      simp [this]

theorem partsOf_no_e (F : Fl) (ps : List Part) : (partsOf F ps).lookup 'e' = none := by
  induction ps with
  | nil => rfl
  | cons p ps ih =>
    have : ('e' == p.unit.char) = false := by cases p.unit <;> decide
    rw [partsOf, List.map_cons, List.lookup, this]; exact ih

/-- A piece that ends with an `e` is read as so many of a unit that means nothing, and the rest of the exponent as a
negative number of frames. -/
theorem parse_exponent (F : Fl) (fps : Option ℚ) {ps : List Part} (h : ∀ p ∈ ps, p.Valid) (hd : Distinct ps)
    (hf : ∀ p ∈ ps, p.unit ≠ .f) (hb : ∀ p ∈ ps.head?, p.blanks = []) {ws : Str} (hws : ∀ c ∈ ws, isSpace c = true)
    (hws0 : ps = [] → ws = [])
    {a : Amount} (ha : a.Valid) (hneg : a.neg = false) {ds : Str} (hds : ∀ c ∈ ds, isDig c = true) (hne : ds ≠ []) :
    parseSpec F fps (specText ps [] ++ (ws ++ (a.text ++ 'e' :: '-' :: ds ++ ['f']))) =
      framesOf F fps (partsOf F ps ++ [('e', F.rnd a.value), ('f', F.rnd (-(natVal ds : ℚ)))]) := by
  have hrun : ∀ c ∈ a.text, isNumDot c = true := by
    rw [Amount.text_eq, hneg]; simpa using Amount.run_numDot ha
  set b : Amount := ⟨true, ds, []⟩ with hbdef
  have hbv : b.Valid := ⟨hne, hds, by simp [hbdef]⟩
  have htail : a.text ++ 'e' :: '-' :: ds ++ ['f'] = a.text ++ 'e' :: (ptext ⟨[], b, .f⟩ ++ []) := by
    simp [ptext, hbdef, Amount.text, TimeUnit.char]
  have hne_text : a.text ≠ [] := by rw [Amount.text_eq]; simp [Amount.run_ne_nil ha]
  have hstrip : strip (specText ps [] ++ (ws ++ (a.text ++ 'e' :: '-' :: ds ++ ['f']))) =
      specText ps [] ++ (ws ++ (a.text ++ 'e' :: '-' :: ds ++ ['f'])) := by
    have := strip_between (ws := []) (tr := []) (core := specText ps [] ++ (ws ++ (a.text ++ 'e' :: '-' :: ds ++ ['f'])))
      (by simp) (by simp) (by simp) ?_ ?_
    · simpa using this
    · intro c hc
      cases ps with
      | nil =>
        rw [hws0 rfl] at hc
        simp only [specText, List.flatMap_nil, List.nil_append, List.append_assoc] at hc
        rw [head?_append_of_ne_nil hne_text] at hc
        exact numCh_not_space (Amount.text_numCh ha c (List.mem_of_mem_head? hc))
      | cons p ps =>
        have hp := hb p (by simp)
        rw [specText_cons, hp, List.nil_append, List.append_assoc] at hc
        exact numCh_head_ptext (h p (by simp)).2 _ c hc
    · intro c hc
      rw [← List.append_assoc, ← List.append_assoc, List.getLast?_append] at hc
      simp at hc
      subst hc; rfl
  rw [parseSpec, hstrip, specSplit_text_append h, specSplit_blanks hws, htail, specSplit_to_e hrun,
    specSplit_part (p := ⟨[], b, .f⟩) hbv, collect_parts_append F [] h hd (by simp)]
  have hpiece : ('e' :: (a.text.reverse ++ (ws.reverse ++ []))).reverse = (ws ++ a.text) ++ ['e'] := by simp
  rw [hpiece]
  have hink : strip ((ws ++ a.text) ++ ['e']) ≠ [] := by
    rw [strip, List.append_assoc, dropWhile_space_append hws]
    have := strip_noSpace (s := a.text ++ ['e']) (by
      intro c hc
      rw [List.mem_append] at hc
      rcases hc with hc | hc
      · exact numCh_not_space (Amount.text_numCh ha c hc)
      · rw [List.mem_singleton] at hc; subst hc; rfl)
    rw [strip] at this
    rw [this]; simp
  have h1 : addPart F ([] ++ partsOf F ps) ((ws ++ a.text) ++ ['e']) =
      .ok (partsOf F ps ++ [('e', F.rnd a.value)]) := by
    rw [addPart, if_neg hink]
    simp only [List.getLast?_concat, List.dropLast_concat, List.nil_append, partsOf_no_e,
      pyFloat_blank F hws, pyFloat_amount F ha]
  have hfl : (partsOf F ps ++ [('e', F.rnd a.value)]).lookup 'f' = none := by
    rw [lookup_append_single]
    have := lookup_partsOf F ps .f
    rw [show TimeUnit.f.char = 'f' from rfl] at this
    rw [this, List.find?_eq_none.2 (by intro p hp hc; exact hf p hp (by simpa using hc))]
    rfl
  have h2 := addPart_part F (partsOf F ps ++ [('e', F.rnd a.value)]) (p := ⟨[], b, .f⟩) hbv
  simp only [show TimeUnit.f.char = 'f' from rfl, hfl] at h2
  have hval : b.value = -(natVal ds : ℚ) := by simp [hbdef, Amount.value]
  have h3 : addPart F (partsOf F ps ++ [('e', F.rnd a.value)] ++ [('f', F.rnd b.value)]) [] =
      .ok (partsOf F ps ++ [('e', F.rnd a.value)] ++ [('f', F.rnd b.value)]) := addPart_blank F _ (by simp)
  simp only [collectParts, h1, h2, specSplit, List.reverse_nil, h3]
  rw [hval]; simp

end Sang
