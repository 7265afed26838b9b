import Verif.Value
import Verif.Lemmas.ValueNum
import Verif.Spec.Colors

/-! # Colours: properties C23–C25, C73 -/

namespace Sang

open Spec

/-! ## The element of a colour -/

/-- The element a colour is stored as. -/
def colorNode (r g b a : ℚ) : Node :=
  .tag "color" [] [componentTag "r" r, componentTag "g" g, componentTag "b" b, componentTag "a" a]

theorem setColor_ok {F : Fl} {v : PV} {n : Node} (hn : n.isTag = true) {r g b a : ℚ}
    (h : colorArg F v = .ok [r, g, b, a]) : setValue F .color v n = (colorNode r g b a, .ok ()) := by
  cases n with
  | text t => simp [Node.isTag] at hn
  | tag nm at' ks =>
    simp [setValue, setColor, h, Node.setName, Node.setAttrs, Node.setKids, rgba, colorNode]

theorem colorTuple_node (F : Fl) (r g b a : ℚ) : colorTuple F (colorNode r g b a) =
    .ok [F.rnd (dec 6 r), F.rnd (dec 6 g), F.rnd (dec 6 b), F.rnd (dec 6 a)] := by
  simp [colorTuple, rgba, mapRes, colorComponent, colorNode, componentTag, Node.find, Node.findAll,
    Node.descTags, Node.nodesIn, Node.subtree, Node.kids, Node.isTag, Node.new, Node.setString,
    Node.setKids, Node.name, floatString, Node.string?, Node.stringKids?,
    pyFloat_fixed F 6 (by norm_num : (6:ℕ) ≠ 0)]

theorem colorHex_node (F : Fl) (r g b a : ℚ) : colorHex F (colorNode r g b a) =
    .ok (hexOf F [F.rnd (dec 6 r), F.rnd (dec 6 g), F.rnd (dec 6 b), F.rnd (dec 6 a)]) := by
  simp [colorHex, colorTuple_node]

/-! ## C23: hex text -/

/-- The value of a hexadecimal digit. -/
def hv (c : Char) : ℕ := (hexVal? c).getD 0

theorem pyHex_pair : ∀ c ∈ hexDigits, ∀ d ∈ hexDigits,
    pyHex [c, d] = .ok ((16 * hv c + hv d : ℕ) : ℤ) := by decide +kernel

theorem hex2_pair : ∀ c ∈ hexDigits, ∀ d ∈ hexDigits,
    hex2 ((16 * hv c + hv d : ℕ) : ℤ) = [lowerC c, lowerC d] ∧ 16 * hv c + hv d ≤ 255 := by
  decide +kernel

/-- Storing a byte as a component and reading it back gives the byte. -/
theorem byte_roundtrip {F : Fl} (hF : F.Lawful) {b : ℕ} (hb : b ≤ 255) :
    rhe (F.rnd (F.rnd (dec 6 (round6 F (F.rnd ((b:ℚ) / 255)))) * 255)) = b := by
  have hb' : (b:ℚ) ≤ 255 := by exact_mod_cast hb
  have hb0 : (0:ℚ) ≤ b := by positivity
  set x0 : ℚ := (b:ℚ) / 255 with hx0
  have e0 : |x0| ≤ 1 := by
    rw [abs_of_nonneg (by positivity), hx0, div_le_one (by norm_num)]; exact hb'
  set x1 := F.rnd x0 with hx1
  have e1 : |x1 - x0| ≤ 1 / 2 ^ 53 := (hF.err x0).trans (by gcongr)
  have e1' : |x1| ≤ 2 := by
    have := abs_le.1 e1; have := abs_le.1 e0
    rw [abs_le]; constructor <;> norm_num at * <;> linarith
  have e2 : |round6 F x1 - x1| ≤ 1 / (2 * 10 ^ 6) + (2 + 1 / (2 * 10 ^ 6)) / 2 ^ 53 := by
    refine (fixed_read_err hF 6 x1).trans ?_
    gcongr
  set x2 := round6 F x1
  have e2' : |x2| ≤ 3 := by
    have := abs_le.1 e2; have := abs_le.1 e1'
    rw [abs_le]; constructor <;> norm_num at * <;> linarith
  have e3 : |F.rnd (dec 6 x2) - x2| ≤ 1 / (2 * 10 ^ 6) + (3 + 1 / (2 * 10 ^ 6)) / 2 ^ 53 := by
    refine (fixed_read_err hF 6 x2).trans ?_
    gcongr
  set x3 := F.rnd (dec 6 x2)
  have e3' : |x3| ≤ 4 := by
    have := abs_le.1 e3; have := abs_le.1 e2'
    rw [abs_le]; constructor <;> norm_num at * <;> linarith
  have e4 : |F.rnd (x3 * 255) - x3 * 255| ≤ 4 * 255 / 2 ^ 53 := by
    refine (hF.err _).trans ?_
    rw [abs_mul, abs_of_pos (by norm_num : (0:ℚ) < 255)]
    gcongr
  have hb2 : (b:ℚ) = x0 * 255 := by rw [hx0]; ring
  apply rhe_unique
  rw [show (((b:ℕ):ℤ):ℚ) = (b:ℚ) from Int.cast_natCast b, hb2]
  have a1 := abs_le.1 e1
  have a2 := abs_le.1 e2
  have a3 := abs_le.1 e3
  have a4 := abs_le.1 e4
  rw [abs_lt]
  constructor <;> norm_num at * <;> linarith

/-- The components of eight hex digits. -/
theorem hexComponents_eight (F : Fl) {a b c d e f g h : Char} (hs : ∀ x ∈ [a, b, c, d, e, f, g, h],
    x ∈ hexDigits) :
    hexComponents F [a, b, c, d, e, f, g, h] = .ok
      [round6 F (F.rnd (((16 * hv a + hv b : ℕ):ℚ) / 255)),
       round6 F (F.rnd (((16 * hv c + hv d : ℕ):ℚ) / 255)),
       round6 F (F.rnd (((16 * hv e + hv f : ℕ):ℚ) / 255)),
       round6 F (F.rnd (((16 * hv g + hv h : ℕ):ℚ) / 255))] := by
  have h1 := pyHex_pair a (hs a (by simp)) b (hs b (by simp))
  have h2 := pyHex_pair c (hs c (by simp)) d (hs d (by simp))
  have h3 := pyHex_pair e (hs e (by simp)) f (hs f (by simp))
  have h4 := pyHex_pair g (hs g (by simp)) h (hs h (by simp))
  simp only [hexComponents, mapRes, List.drop, List.take, h1, h2, h3, h4,
    Int.cast_natCast]

theorem dropFF_eight (a b c d e f g h : Char) :
    dropFF ['#', a, b, c, d, e, f, g, h] =
      if g = 'f' ∧ h = 'f' then ['#', a, b, c, d, e, f] else ['#', a, b, c, d, e, f, g, h] := by
  have e : ("ff".toList).isSuffixOf ['#', a, b, c, d, e, f, g, h] =
      (('f' == h) && (('f' == g) && true)) := rfl
  simp only [dropFF, e, Bool.and_true, Bool.and_eq_true, beq_iff_eq, List.dropLast]
  by_cases hg : g = 'f' <;> by_cases hh : h = 'f' <;> simp [hg, hh, Ne.symm]

theorem hexOf_four (F : Fl) (a b c d : ℚ) : hexOf F [a, b, c, d] = dropFF ('#' ::
    (hex2 (level F a) ++ hex2 (level F b) ++ hex2 (level F c) ++ hex2 (level F d))) := by
  simp [hexOf, level]

/-- Reading back the components of eight hex digits. -/
theorem hexOf_eight {F : Fl} (hF : F.Lawful) {a b c d e f g h : Char}
    (hs : ∀ x ∈ [a, b, c, d, e, f, g, h], x ∈ hexDigits) :
    hexOf F [F.rnd (dec 6 (round6 F (F.rnd (((16 * hv a + hv b : ℕ):ℚ) / 255)))),
      F.rnd (dec 6 (round6 F (F.rnd (((16 * hv c + hv d : ℕ):ℚ) / 255)))),
      F.rnd (dec 6 (round6 F (F.rnd (((16 * hv e + hv f : ℕ):ℚ) / 255)))),
      F.rnd (dec 6 (round6 F (F.rnd (((16 * hv g + hv h : ℕ):ℚ) / 255))))] =
    dropFF ('#' :: lower [a, b, c, d, e, f, g, h]) := by
  have h1 := hex2_pair a (hs a (by simp)) b (hs b (by simp))
  have h2 := hex2_pair c (hs c (by simp)) d (hs d (by simp))
  have h3 := hex2_pair e (hs e (by simp)) f (hs f (by simp))
  have h4 := hex2_pair g (hs g (by simp)) h (hs h (by simp))
  rw [hexOf_four]
  simp only [level, byte_roundtrip hF h1.2, byte_roundtrip hF h2.2, byte_roundtrip hF h3.2,
    byte_roundtrip hF h4.2, h1.1, h2.1, h3.1, h4.1, lower, List.map, List.cons_append,
    List.nil_append]

theorem hexDigit_not_hash : ∀ c ∈ hexDigits, c ≠ '#' ∧ lowerC c ≠ '#' := by decide +kernel

theorem canonical_eight (a b c d e f g h : Char) :
    canonical [a, b, c, d, e, f, g, h] = dropFF ('#' :: lower [a, b, c, d, e, f, g, h]) := by
  simp only [lower, List.map, dropFF_eight, canonical, List.drop, List.take]
  by_cases hh : lowerC g = 'f' ∧ lowerC h = 'f'
  · rw [if_pos hh, if_pos (by rw [hh.1, hh.2])]
  · rw [if_neg hh, if_neg (by simpa using hh)]

theorem colorArg_str (F : Fl) (hash : Bool) (c : Char) (r : Str) (hc : c ≠ '#') :
    colorArg F (.str (written hash (c :: r))) =
      if (c :: r).length = 6 then hexComponents F ((c :: r) ++ "FF".toList)
      else if (c :: r).length = 8 then hexComponents F (c :: r)
      else .error .value := by
  have h : dropHash (written hash (c :: r)) = c :: r := by
    cases hash
    · show dropHash (c :: r) = c :: r
      rw [dropHash]; rintro t ht; simp at ht; exact hc ht.1
    · rfl
  simp only [colorArg, h]

/-- What the text of a colour must compare as. -/
theorem colorText_written (hash : Bool) (ds : Str) (hd : IsColorDigits ds) :
    colorText (written hash ds) = canonical ds := by
  have hhash : colorText (written hash ds) = if (lower ds).length = 8 then dropFF ('#' :: lower ds)
      else '#' :: lower ds := by
    have h1 : addHash (lower (written hash ds)) = '#' :: lower ds := by
      cases hash
      · cases ds with
        | nil => simp [IsColorDigits] at hd
        | cons c r =>
          have := (hexDigit_not_hash c (hd.1 c (by simp))).2
          show addHash (lowerC c :: List.map lowerC r) = '#' :: lowerC c :: List.map lowerC r
          rw [addHash]; rintro t ht; simp at ht; exact this ht.1
      · rfl
    simp [colorText, h1]
  rw [hhash]
  obtain ⟨hmem, h6 | h8⟩ := hd
  · match ds, h6 with
    | [a, b, c, d, e, f], _ => simp [lower, canonical]
  · match ds, h8 with
    | [a, b, c, d, e, f, g, h], _ => rw [canonical_eight]; simp [lower]

/-- C23. A colour given as six or eight hex digits, in either case and with or without a hash,
reads as its canonical text, whatever the value held before; and it compares equal to the text it
was given (and to the other spellings of it). This is so for every float arithmetic that rounds
like binary64. -/
theorem c23_hex_roundtrip {F : Fl} (hF : F.Lawful) (n : Node) (hn : n.isTag = true) (ds : Str)
    (hd : IsColorDigits ds) (hash : Bool) :
    (setValue F .color (.str (written hash ds)) n).2 = .ok () ∧
    colorHex F (setValue F .color (.str (written hash ds)) n).1 = .ok (canonical ds) ∧
    ∀ hash', colorEqStr F (setValue F .color (.str (written hash ds)) n).1 (written hash' ds) =
      .ok true := by
  have key : ∃ r g b a, setValue F .color (.str (written hash ds)) n = (colorNode r g b a, .ok ()) ∧
      colorHex F (colorNode r g b a) = .ok (canonical ds) := by
    obtain ⟨hmem, h6 | h8⟩ := id hd
    · match ds, h6, hmem with
      | [a, b, c, d, e, f], _, hmem =>
        have hm8 : ∀ x ∈ [a, b, c, d, e, f, 'F', 'F'], x ∈ hexDigits := by
          intro x hx
          rw [show [a, b, c, d, e, f, 'F', 'F'] = [a, b, c, d, e, f] ++ ['F', 'F'] from rfl,
            List.mem_append] at hx
          rcases hx with hx | hx
          · exact hmem x hx
          · simp only [List.mem_cons, List.not_mem_nil, or_false, or_self] at hx
            subst hx; decide
        have ha := hexDigit_not_hash a (hmem a (by simp))
        have harg := hexComponents_eight F hm8
        rw [show hexComponents F [a, b, c, d, e, f, 'F', 'F'] =
            colorArg F (.str (written hash [a, b, c, d, e, f])) from
          ((colorArg_str F hash a [b, c, d, e, f] ha.1).trans (if_pos rfl)).symm] at harg
        refine ⟨_, _, _, _, setColor_ok hn harg, ?_⟩
        rw [colorHex_node, hexOf_eight hF hm8]
        congr 1
    · match ds, h8, hmem with
      | [a, b, c, d, e, f, g, h], _, hmem =>
        have ha := hexDigit_not_hash a (hmem a (by simp))
        have harg : colorArg F (.str (written hash [a, b, c, d, e, f, g, h])) = _ :=
          (colorArg_str F hash a [b, c, d, e, f, g, h] ha.1).trans
            ((if_neg (by simp)).trans ((if_pos rfl).trans (hexComponents_eight F hmem)))
        refine ⟨_, _, _, _, setColor_ok hn harg, ?_⟩
        rw [colorHex_node, hexOf_eight hF hmem, canonical_eight]
  obtain ⟨r, g, b, a, h1, h2⟩ := key
  rw [h1]
  refine ⟨rfl, h2, fun hash' => ?_⟩
  have hname : (colorNode r g b a).name ≠ "animated" := by
    simp only [colorNode, Node.name]; decide
  simp only [colorEqStr, colorStr, if_neg hname, h2, colorText_written hash' ds hd, decide_true]

/-- C23's hypotheses are met, and the canonical forms are the expected ones. -/
example : IsColorDigits "0E62c7".toList ∧ IsColorDigits "0E62c780".toList ∧
    canonical "0E62c7".toList = "#0e62c7".toList ∧
    canonical "0E62C7fF".toList = "#0e62c7".toList ∧
    canonical "0E62C780".toList = "#0e62c780".toList := by
  refine ⟨⟨by decide, by decide⟩, ⟨by decide, by decide⟩, ?_⟩
  decide

/-! ## C24: tuples -/

/-- Half a millionth, plus float rounding. -/
def NearMillionth (q x : ℚ) : Prop :=
  |q - x| ≤ 1 / (2 * 10 ^ 6) + (|x| + 1 / (2 * 10 ^ 6)) / 2 ^ 53

/-- C24. A colour given as four floats reads back as them to six decimals, whatever the value
held before. -/
theorem c24_tuple_roundtrip {F : Fl} (hF : F.Lawful) (n : Node) (hn : n.isTag = true)
    (r g b a : ℚ) :
    (setValue F .color (.tuple [.float r, .float g, .float b, .float a]) n).2 = .ok () ∧
    ∃ r' g' b' a', colorTuple F (setValue F .color
        (.tuple [.float r, .float g, .float b, .float a]) n).1 = .ok [r', g', b', a'] ∧
      NearMillionth r' r ∧ NearMillionth g' g ∧ NearMillionth b' b ∧ NearMillionth a' a := by
  rw [setColor_ok hn (r := r) (g := g) (b := b) (a := a) rfl]
  exact ⟨rfl, _, _, _, _, colorTuple_node F r g b a, fixed_read_err hF 6 r, fixed_read_err hF 6 g,
    fixed_read_err hF 6 b, fixed_read_err hF 6 a⟩

/-- C24. With three floats, alpha is one: the colour is the same in every way. -/
theorem c24_alpha_default (F : Fl) (n : Node) (r g b : ℚ) :
    setValue F .color (.tuple [.float r, .float g, .float b]) n =
      setValue F .color (.tuple [.float r, .float g, .float b, .float 1]) n := rfl

/-- C24. Storing the tuple just read keeps it exactly, and the document too. (As for C19, no
component may be a negative number that rounds to zero, the model having no negative zero.) -/
theorem c24_tuple_stable {F : Fl} (hF : F.Lawful) (n : Node) (hn : n.isTag = true)
    (r g b a r' g' b' a' : ℚ) (hr : F.rep r) (hg : F.rep g) (hb : F.rep b) (ha : F.rep a)
    (h : colorTuple F (setValue F .color (.tuple [.float r, .float g, .float b, .float a]) n).1 =
      .ok [r', g', b', a'])
    (h0 : ∀ p ∈ [(r, r'), (g, g'), (b, b'), (a, a')], 0 ≤ p.1 ∨ p.2 ≠ 0) :
    setValue F .color (.tuple [.float r', .float g', .float b', .float a'])
        (setValue F .color (.tuple [.float r, .float g, .float b, .float a]) n).1 =
      ((setValue F .color (.tuple [.float r, .float g, .float b, .float a]) n).1, .ok ()) := by
  have e := setColor_ok (F := F) hn (v := .tuple [.float r, .float g, .float b, .float a])
    (r := r) (g := g) (b := b) (a := a) rfl
  rw [e] at h ⊢
  simp only [colorTuple_node, Except.ok.injEq, List.cons.injEq, and_true] at h
  obtain ⟨rfl, rfl, rfl, rfl⟩ := h
  simp only [List.mem_cons, List.not_mem_nil, or_false, forall_eq_or_imp, forall_eq] at h0
  rw [setColor_ok (n := colorNode r g b a) rfl (r := F.rnd (dec 6 r)) (g := F.rnd (dec 6 g))
    (b := F.rnd (dec 6 b)) (a := F.rnd (dec 6 a)) rfl]
  simp only [colorNode, componentTag, fixed_text_stable hF 6 hr h0.1,
    fixed_text_stable hF 6 hg h0.2.1, fixed_text_stable hF 6 hb h0.2.2.1,
    fixed_text_stable hF 6 ha h0.2.2.2]

/-- C24's hypotheses are met: one part in three of red. -/
example : double.rep (double.rnd (1/3)) ∧ colorTuple double (setValue double .color
      (.tuple [.float (double.rnd (1/3)), .float 0, .float 2, .float 1]) (.new "color")).1 =
    .ok [double.rnd (333333/1000000), 0, 2, 1] := by
  constructor <;> decide +kernel

/-! ## C25: equality -/

/-- C25. Comparing colours that can be read never fails, and is an equivalence. -/
theorem c25_equivalence (F : Fl) :
    (∀ n s, colorHex F n = .ok s → colorEq F n n = .ok true) ∧
    (∀ n m, colorEq F n m = .ok true → colorEq F m n = .ok true) ∧
    (∀ n m k, colorEq F n m = .ok true → colorEq F m k = .ok true → colorEq F n k = .ok true) := by
  refine ⟨?_, ?_, ?_⟩
  · intro n s h; simp [colorEq, h]
  · intro n m
    simp only [colorEq]
    cases colorHex F n <;> cases colorHex F m <;> simp [Eq.comm]
  · intro n m k
    simp only [colorEq]
    cases colorHex F n <;> cases colorHex F m <;> cases colorHex F k <;> simp
    intro h1 h2; exact h1.trans h2

/-- C25. Two colours that can be read are equal exactly when their hex texts are. -/
theorem c25_equal_iff_hex (F : Fl) (n m : Node) (s t : Str) (hn : colorHex F n = .ok s) (hm : colorHex F m = .ok t) :
    colorEq F n m = .ok (decide (s = t)) := by
  simp only [colorEq, hn, hm]

theorem hex2_length : ∀ x : Fin 256, (hex2 (x.val : ℤ)).length = 2 := by decide +kernel

theorem pyHex_hex2 : ∀ x : Fin 256, pyHex (hex2 (x.val : ℤ)) = .ok (x.val : ℤ) := by
  decide +kernel

theorem hex2_two {i : ℤ} (h0 : 0 ≤ i) (h1 : i ≤ 255) : ∃ c d, hex2 i = [c, d] := by
  obtain ⟨k, rfl⟩ := Int.eq_ofNat_of_zero_le h0
  have := hex2_length ⟨k, by omega⟩
  exact List.length_eq_two.1 this

theorem hex2_inj' {i j : ℤ} (hi : 0 ≤ i ∧ i ≤ 255) (hj : 0 ≤ j ∧ j ≤ 255) (h : hex2 i = hex2 j) :
    i = j := by
  obtain ⟨k, rfl⟩ := Int.eq_ofNat_of_zero_le hi.1
  obtain ⟨l, rfl⟩ := Int.eq_ofNat_of_zero_le hj.1
  have h1 := pyHex_hex2 ⟨k, by omega⟩
  have h2 := pyHex_hex2 ⟨l, by omega⟩
  simp only [h, h2, Except.ok.injEq] at h1
  exact h1.symm

theorem level_range {F : Fl} (hF : F.Lawful) {x : ℚ} (h0 : 0 ≤ x) (h1 : x ≤ 1) :
    0 ≤ level F x ∧ level F x ≤ 255 := by
  refine ⟨rhe_nonneg (hF.nonneg (by positivity)), ?_⟩
  apply rhe_le_of_le
  have h2 : F.rnd (x * 255) ≤ F.rnd 255 := hF.mono (by linarith)
  have h3 : F.rnd 255 = 255 := by simpa using hF.nat 255 (by norm_num)
  rw [h3] at h2; exact_mod_cast h2

theorem dropFF_eight_inj {a b c d e f g h a' b' c' d' e' f' g' h' : Char}
    (heq : dropFF ['#', a, b, c, d, e, f, g, h] = dropFF ['#', a', b', c', d', e', f', g', h']) :
    [a, b, c, d, e, f, g, h] = [a', b', c', d', e', f', g', h'] := by
  rw [dropFF_eight, dropFF_eight] at heq
  split at heq <;> split at heq <;> simp_all

/-- C25. Colours with components between 0 and 1 are equal exactly when each component is at the
same one of 256 levels. In particular dropping an opaque alpha loses nothing. -/
theorem c25_equal_iff_levels {F : Fl} (hF : F.Lawful) (n m : Node) (r g b a r' g' b' a' : ℚ)
    (hn : colorTuple F n = .ok [r, g, b, a]) (hm : colorTuple F m = .ok [r', g', b', a'])
    (hin : ∀ x ∈ [r, g, b, a, r', g', b', a'], 0 ≤ x ∧ x ≤ 1) :
    colorEq F n m = .ok true ↔
      level F r = level F r' ∧ level F g = level F g' ∧ level F b = level F b' ∧
        level F a = level F a' := by
  simp only [List.mem_cons, List.not_mem_nil, or_false, forall_eq_or_imp, forall_eq] at hin
  obtain ⟨i1, i2, i3, i4, i5, i6, i7, i8⟩ := hin
  have l := fun {x : ℚ} (h : 0 ≤ x ∧ x ≤ 1) => level_range hF h.1 h.2
  have t := fun {x : ℚ} (h : 0 ≤ x ∧ x ≤ 1) => hex2_two (l h).1 (l h).2
  have heq : colorEq F n m = .ok (decide (hexOf F [r, g, b, a] = hexOf F [r', g', b', a'])) := by
    simp [colorEq, colorHex, hn, hm]
  rw [heq]
  simp only [Except.ok.injEq, decide_eq_true_eq]
  constructor
  · intro h
    rw [hexOf_four, hexOf_four] at h
    obtain ⟨c1, d1, e1⟩ := t i1
    obtain ⟨c2, d2, e2⟩ := t i2
    obtain ⟨c3, d3, e3⟩ := t i3
    obtain ⟨c4, d4, e4⟩ := t i4
    obtain ⟨c5, d5, e5⟩ := t i5
    obtain ⟨c6, d6, e6⟩ := t i6
    obtain ⟨c7, d7, e7⟩ := t i7
    obtain ⟨c8, d8, e8⟩ := t i8
    rw [e1, e2, e3, e4, e5, e6, e7, e8] at h
    have h2 := dropFF_eight_inj h
    simp only [List.cons.injEq, and_true] at h2
    obtain ⟨q1, q2, q3, q4, q5, q6, q7, q8⟩ := h2
    refine ⟨hex2_inj' (l i1) (l i5) ?_, hex2_inj' (l i2) (l i6) ?_, hex2_inj' (l i3) (l i7) ?_,
      hex2_inj' (l i4) (l i8) ?_⟩
    · rw [e1, e5, q1, q2]
    · rw [e2, e6, q3, q4]
    · rw [e3, e7, q5, q6]
    · rw [e4, e8, q7, q8]
  · rintro ⟨h1, h2, h3, h4⟩
    rw [hexOf_four, hexOf_four, h1, h2, h3, h4]

/-- C25's hypotheses are met by two colours with different components that are equal. -/
example : colorEq double (colorNode (1/2) 0 1 1) (colorNode (501/1000) 0 1 1) = .ok true ∧
    colorEq double (colorNode (1/2) 0 1 1) (colorNode (51/100) 0 1 1) = .ok false := by
  constructor <;> decide +kernel

/-- Beyond the range 0 to 1 (which Synfig allows) the levels of equal colours can differ: these
two have red and green swapped. -/
theorem c25_overbright_collide :
    colorEq double (colorNode (273/255) (17/255) (17/255) (17/255))
      (colorNode (17/255) (273/255) (17/255) (17/255)) = .ok true := by
  decide +kernel

/-! ## C73: assigning a colour object -/

/-- C73. Assigning a colour object which the library itself stored makes this value equal to it.
(A colour from a file may have more than six decimals, and then be changed slightly.) -/
theorem c73_color {F : Fl} (hF : F.Lawful) (root : Option Attrs) (n : Node) (hn : n.isTag = true)
    (r g b a : ℚ) (hr : F.rep r) (hg : F.rep g) (hb : F.rep b) (ha : F.rep a) :
    (setValue F .color (.val .color root (colorNode r g b a)) n).2 = .ok () ∧
    colorTuple F (setValue F .color (.val .color root (colorNode r g b a)) n).1 =
      colorTuple F (colorNode r g b a) ∧
    colorEq F (setValue F .color (.val .color root (colorNode r g b a)) n).1 (colorNode r g b a) =
      .ok true := by
  have e := setColor_ok (F := F) hn (v := .val .color root (colorNode r g b a))
    (colorTuple_node F r g b a)
  rw [e]
  have ht : colorTuple F (colorNode (F.rnd (dec 6 r)) (F.rnd (dec 6 g)) (F.rnd (dec 6 b))
      (F.rnd (dec 6 a))) = colorTuple F (colorNode r g b a) := by
    rw [colorTuple_node, colorTuple_node, dec_stable_rep hF 6 hr, dec_stable_rep hF 6 hg,
      dec_stable_rep hF 6 hb, dec_stable_rep hF 6 ha]
  refine ⟨rfl, ht, ?_⟩
  have hh : colorHex F (colorNode (F.rnd (dec 6 r)) (F.rnd (dec 6 g)) (F.rnd (dec 6 b))
      (F.rnd (dec 6 a))) = colorHex F (colorNode r g b a) := by
    simp only [colorHex, ht]
  simp [colorEq, hh, colorHex_node]

end Sang
