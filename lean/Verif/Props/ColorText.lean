import Verif.Props.Colors

/-! # What a colour can be set to: property C137 -/

namespace Sang

open Spec

/-- The number two characters stand for, if they do: two hexadecimal digits; or one, with a sign
or a blank before it or a blank after it. -/
def Spec.pairValue (a b : Char) : Option ℤ :=
  if a ∈ hexDigits then
    if b ∈ hexDigits then some (16 * (hv a : ℤ) + hv b)
    else if isSpace b then some (hv a) else none
  else if b ∈ hexDigits then
    if a = '-' then some (-(hv b : ℤ))
    else if a = '+' ∨ isSpace a then some (hv b) else none
  else none

theorem mem_hexDigits {c : Char} : c ∈ hexDigits ↔
    (48 ≤ c.toNat ∧ c.toNat ≤ 57) ∨ (97 ≤ c.toNat ∧ c.toNat ≤ 102) ∨
      (65 ≤ c.toNat ∧ c.toNat ≤ 70) := by
  constructor
  · intro h
    have : ∀ c ∈ hexDigits, (48 ≤ c.toNat ∧ c.toNat ≤ 57) ∨ (97 ≤ c.toNat ∧ c.toNat ≤ 102) ∨
      (65 ≤ c.toNat ∧ c.toNat ≤ 70) := by decide
    exact this c h
  · intro h
    have hc : c = Char.ofNat c.toNat := by simp
    rw [hc]
    generalize c.toNat = n at h
    have : ∀ n < 103, (48 ≤ n ∧ n ≤ 57) ∨ (97 ≤ n ∧ n ≤ 102) ∨ (65 ≤ n ∧ n ≤ 70) →
      Char.ofNat n ∈ hexDigits := by decide
    exact this n (by omega) h

theorem hexVal?_eq (c : Char) : hexVal? c = if c ∈ hexDigits then some (hv c) else none := by
  by_cases h : c ∈ hexDigits
  · rw [if_pos h]
    have : ∀ c ∈ hexDigits, hexVal? c = some (hv c) := by decide
    exact this c h
  · rw [if_neg h]
    rw [mem_hexDigits] at h
    unfold hexVal?
    simp only
    rw [if_neg (by omega), if_neg (by omega), if_neg (by omega)]

theorem hexDigit_facts {c : Char} (h : c ∈ hexDigits) : isSpace c = false ∧ c ≠ '-' ∧ c ≠ '+' ∧
    c.toNat < 128 := by
  have : ∀ c ∈ hexDigits, isSpace c = false ∧ c ≠ '-' ∧ c ≠ '+' ∧ c.toNat < 128 := by decide
  exact this c h

theorem strip_pair (a b : Char) : strip [a, b] =
    if isSpace a then if isSpace b then [] else [b] else if isSpace b then [a] else [a, b] := by
  cases ha : isSpace a <;> cases hb : isSpace b <;> simp [strip, ha, hb]

theorem takeSign_one (c : Char) : takeSign [c] =
    if c = '-' then (true, []) else if c = '+' then (false, []) else (false, [c]) := by
  by_cases h : c = '-'
  · subst h; rfl
  · by_cases h' : c = '+'
    · subst h'; rfl
    · rw [if_neg h, if_neg h']
      unfold takeSign
      split
      · rename_i heq; injection heq with e; exact absurd e h
      · rename_i heq; injection heq with e; exact absurd e h'
      · rfl

theorem takeSign_two (c d : Char) : takeSign [c, d] =
    if c = '-' then (true, [d]) else if c = '+' then (false, [d]) else (false, [c, d]) := by
  by_cases h : c = '-'
  · subst h; rfl
  · by_cases h' : c = '+'
    · subst h'; rfl
    · rw [if_neg h, if_neg h']
      unfold takeSign
      split
      · rename_i heq; injection heq with e; exact absurd e h
      · rename_i heq; injection heq with e; exact absurd e h'
      · rfl

set_option linter.unusedSimpArgs false in
theorem pyHex_two {a b : Char} (ha : a.toNat < 128) (hb : b.toNat < 128) :
    pyHex [a, b] = match pairValue a b with
      | some x => .ok x
      | none => .error .value := by
  have na : ¬ 128 ≤ a.toNat := by omega
  have nb : ¬ 128 ≤ b.toNat := by omega
  have hna : a ∈ hexDigits → _ := hexDigit_facts
  have hnb : b ∈ hexDigits → _ := hexDigit_facts
  have va := hexVal?_eq a
  have vb := hexVal?_eq b
  have m1 : ('-' : Char) ∉ hexDigits := by decide
  have m2 : ('+' : Char) ∉ hexDigits := by decide
  have s1 : isSpace '-' = false := by decide
  have s2 : isSpace '+' = false := by decide
  unfold pyHex pairValue
  rw [strip_pair]
  by_cases da : a ∈ hexDigits
  · obtain ⟨sa, a1, a2, -⟩ := hna da
    by_cases db : b ∈ hexDigits
    · obtain ⟨sb, b1, b2, -⟩ := hnb db
      simp [da, db, sa, sb, a1, a2, na, nb, takeSign_two, hexNat?, va, vb]
    · cases sb : isSpace b
      · simp [da, db, sa, sb, a1, a2, na, nb, takeSign_two, hexNat?, va, vb]
      · simp [da, db, sa, sb, a1, a2, na, nb, takeSign_one, hexNat?, va]
  · by_cases db : b ∈ hexDigits
    · obtain ⟨sb, b1, b2, -⟩ := hnb db
      cases sa : isSpace a
      · by_cases e1 : a = '-'
        · subst e1; simp [da, db, s1, sb, nb, takeSign_two, hexNat?, vb, na]
        · by_cases e2 : a = '+'
          · subst e2; simp [da, db, s2, sb, nb, takeSign_two, hexNat?, vb, na]
          · simp [da, db, sa, sb, e1, e2, na, nb, takeSign_two, hexNat?, va, vb]
      · have e1 : a ≠ '-' := by rintro rfl; rw [s1] at sa; cases sa
        simp [da, db, sa, sb, b1, b2, e1, nb, takeSign_one, hexNat?, vb]
    · cases sa : isSpace a <;> cases sb : isSpace b
      · by_cases e1 : a = '-'
        · subst e1; simp [da, db, s1, sb, nb, takeSign_two, hexNat?, vb, na]
        · by_cases e2 : a = '+'
          · subst e2; simp [da, db, s2, sb, nb, takeSign_two, hexNat?, vb, na]
          · simp [da, db, sa, sb, e1, e2, na, nb, takeSign_two, hexNat?, va, vb]
      · by_cases e1 : a = '-'
        · subst e1; simp [da, db, s1, sb, takeSign_one, na]
        · by_cases e2 : a = '+'
          · subst e2; simp [da, db, s2, sb, takeSign_one, na]
          · simp [da, db, sa, sb, e1, e2, na, takeSign_one, hexNat?, va]
      · by_cases e1 : b = '-'
        · subst e1; simp [da, db, sa, s1, takeSign_one, nb]
        · by_cases e2 : b = '+'
          · subst e2; simp [da, db, sa, s2, takeSign_one, nb]
          · simp [da, db, sa, sb, e1, e2, nb, takeSign_one, hexNat?, vb]
      · simp [da, db, sa, sb, takeSign]

/-- The numbers the successive pairs of characters stand for, if all do. -/
def Spec.pairValues : Str → Option (List ℤ)
  | [] => some []
  | [_] => none
  | a :: b :: r => match pairValue a b, pairValues r with
    | some x, some l => some (x :: l)
    | _, _ => none

/-- A text without the hash it may begin with. -/
def Spec.unhashed : Str → Str
  | '#' :: r => r
  | r => r

/-- The channels a colour's text stands for, out of 255: three or four pairs, with or without a
hash before them; alpha is 255 if it isn't given. -/
def Spec.channels (s : Str) : Option (List ℤ) :=
  match pairValues (unhashed s) with
  | some [r, g, b] => some [r, g, b, 255]
  | some [r, g, b, a] => some [r, g, b, a]
  | _ => none

/-- The component for a channel. -/
def channelOf (F : Fl) (x : ℤ) : ℚ := round6 F (F.rnd ((x:ℚ) / 255))

theorem hexComponents_pairs (F : Fl) {a b c d e f g h : Char}
    (hs : ∀ x ∈ [a, b, c, d, e, f, g, h], x.toNat < 128) :
    hexComponents F [a, b, c, d, e, f, g, h] =
      match pairValues [a, b, c, d, e, f, g, h] with
      | some l => .ok (l.map (channelOf F))
      | none => .error .value := by
  have h1 := pyHex_two (hs a (by simp)) (hs b (by simp))
  have h2 := pyHex_two (hs c (by simp)) (hs d (by simp))
  have h3 := pyHex_two (hs e (by simp)) (hs f (by simp))
  have h4 := pyHex_two (hs g (by simp)) (hs h (by simp))
  simp only [hexComponents, mapRes, List.drop, List.take, h1, h2, h3, h4, pairValues]
  cases pairValue a b <;> cases pairValue c d <;> cases pairValue e f <;> cases pairValue g h <;>
    simp [channelOf]

theorem pairValues_length : ∀ (s : Str) {l : List ℤ}, pairValues s = some l → s.length = 2 * l.length
  | [], l, h => by simp only [pairValues] at h; injection h with h; subst h; rfl
  | [_], l, h => by simp [pairValues] at h
  | a :: b :: r, l, h => by
    simp only [pairValues] at h
    cases hp : pairValue a b with
    | none => simp [hp] at h
    | some x =>
      cases hr : pairValues r with
      | none => simp [hp, hr] at h
      | some l' =>
        simp only [hp, hr] at h
        injection h with h
        subst h
        have := pairValues_length r hr
        simp only [List.length_cons, this]; omega

theorem colorArg_text (F : Fl) (s : Str) (hs : ∀ c ∈ s, c.toNat < 128) :
    colorArg F (.str s) = match channels s with
      | some l => .ok (l.map (channelOf F))
      | none => .error .value := by
  have e : unhashed s = dropHash s := by
    unfold unhashed
    split
    · rfl
    · rename_i h
      unfold dropHash
      split
      · exact absurd rfl (h _)
      · rfl
  have hd : ∀ c ∈ dropHash s, c.toNat < 128 := by
    intro c hc
    refine hs c ?_
    unfold dropHash at hc
    split at hc
    · exact List.mem_cons_of_mem _ hc
    · exact hc
  unfold channels
  rw [e]
  simp only [colorArg]
  generalize dropHash s = t at hd
  by_cases h6 : t.length = 6
  · rw [if_pos h6]
    match t, h6, hd with
    | [a, b, c, d, e, f], _, hd =>
      have := hexComponents_pairs F (a := a) (b := b) (c := c) (d := d) (e := e) (f := f) (g := 'F')
        (h := 'F') (by
          intro x hx
          rw [show [a, b, c, d, e, f, 'F', 'F'] = [a, b, c, d, e, f] ++ ['F', 'F'] from rfl,
            List.mem_append] at hx
          rcases hx with hx | hx
          · exact hd x hx
          · simp only [List.mem_cons, List.not_mem_nil, or_false, or_self] at hx
            subst hx; decide)
      rw [show [a, b, c, d, e, f] ++ "FF".toList = [a, b, c, d, e, f, 'F', 'F'] from rfl, this]
      have hFF : pairValue 'F' 'F' = some 255 := by decide +kernel
      simp only [pairValues, hFF]
      cases pairValue a b <;> cases pairValue c d <;> cases pairValue e f <;> simp
  · rw [if_neg h6]
    by_cases h8 : t.length = 8
    · rw [if_pos h8]
      match t, h8, hd with
      | [a, b, c, d, e, f, g, h], _, hd =>
        rw [hexComponents_pairs F hd]
        simp only [pairValues]
        cases pairValue a b <;> cases pairValue c d <;> cases pairValue e f <;>
          cases pairValue g h <;> simp
    · rw [if_neg h8]
      split
      · rename_i heq
        split at heq
        · rename_i hp; exact absurd (pairValues_length _ hp) (by simpa using h6)
        · rename_i hp; exact absurd (pairValues_length _ hp) (by simpa using h8)
        · cases heq
      · rfl

/-- C137. Exactly what a colour makes of a text (of ASCII characters): three or four pairs, each of
two hexadecimal digits, or of one with a sign or blank, with or without a hash before them, are
its channels; anything else is refused with `ValueError`, and the colour stays as it was. -/
theorem c137_what_text_is_a_colour (F : Fl) (n : Node) (hn : n.isTag = true) (s : Str)
    (hs : ∀ c ∈ s, c.toNat < 128) :
    match channels s with
    | some l => ∃ r g b a, l = [r, g, b, a] ∧ setValue F .color (.str s) n =
        (colorNode (channelOf F r) (channelOf F g) (channelOf F b) (channelOf F a), .ok ())
    | none => setValue F .color (.str s) n = (n, .error .value) := by
  have h := colorArg_text F s hs
  cases hc : channels s with
  | none =>
    rw [hc] at h
    simp [setValue, setColor, h]
  | some l =>
    rw [hc] at h
    have : ∃ r g b a, l = [r, g, b, a] := by
      unfold channels at hc
      split at hc
      · injection hc with hc; exact ⟨_, _, _, _, hc.symm⟩
      · injection hc with hc; exact ⟨_, _, _, _, hc.symm⟩
      · cases hc
    obtain ⟨r, g, b, a, rfl⟩ := this
    exact ⟨r, g, b, a, rfl, setColor_ok hn h⟩

theorem pairValues_chars : ∀ (s : Str) {l : List ℤ}, pairValues s = some l → ∀ c ∈ s,
    c ∈ hexDigits ∨ c = '-' ∨ c = '+' ∨ isSpace c = true
  | [], _, _ => by simp
  | [_], _, h => by simp [pairValues] at h
  | a :: b :: r, l, h => by
    simp only [pairValues] at h
    cases hp : pairValue a b with
    | none => simp [hp] at h
    | some x =>
      cases hr : pairValues r with
      | none => simp [hp, hr] at h
      | some l' =>
        have hab : (a ∈ hexDigits ∨ a = '-' ∨ a = '+' ∨ isSpace a = true) ∧
            (b ∈ hexDigits ∨ b = '-' ∨ b = '+' ∨ isSpace b = true) := by
          unfold pairValue at hp
          split at hp
          · split at hp
            · exact ⟨.inl (by assumption), .inl (by assumption)⟩
            · split at hp
              · exact ⟨.inl (by assumption), .inr (.inr (.inr (by assumption)))⟩
              · cases hp
          · split at hp
            · split at hp
              · exact ⟨.inr (.inl (by assumption)), .inl (by assumption)⟩
              · split at hp
                · rename_i hh
                  exact ⟨.inr (.inr hh), .inl (by assumption)⟩
                · cases hp
            · cases hp
        intro c hc
        rcases List.mem_cons.1 hc with rfl | hc
        · exact hab.1
        · rcases List.mem_cons.1 hc with rfl | hc
          · exact hab.2
          · exact pairValues_chars r hr c hc

/-- C137. In particular a text with a letter in it that isn't a hexadecimal digit, or any
punctuation but signs and a hash in front, is refused, whatever its length. -/
theorem c137_other_characters_refused (F : Fl) (n : Node) (hn : n.isTag = true) (s : Str) (hash : Bool)
    (hs : ∀ c ∈ s, c.toNat < 128) (c : Char) (hc : c ∈ s) (h1 : c ∉ hexDigits) (h2 : c ≠ '-')
    (h3 : c ≠ '+') (h4 : isSpace c = false) (h5 : s.head? ≠ some '#') :
    setValue F .color (.str (written hash s)) n = (n, .error .value) := by
  have hw : unhashed (written hash s) = s := by
    cases hash
    · simp only [written, unhashed]
      split
      · rename_i heq
        exact absurd (show s.head? = some '#' by
          have : s = _ := heq
          rw [this]; rfl) h5
      · rfl
    · rfl
  have hn' : channels (written hash s) = none := by
    unfold channels
    rw [hw]
    split
    · rename_i hp; exact absurd (pairValues_chars _ hp c hc) (by simp [h1, h2, h3, h4])
    · rename_i hp; exact absurd (pairValues_chars _ hp c hc) (by simp [h1, h2, h3, h4])
    · rfl
  have := c137_what_text_is_a_colour F n hn (written hash s) (by
    intro x hx
    cases hash
    · exact hs x hx
    · rcases List.mem_cons.1 hx with rfl | hx
      · decide
      · exact hs x hx)
  rw [hn'] at this
  exact this

/-- C137. A text whose length, without the hash, is neither six nor eight is refused. -/
theorem c137_other_lengths_refused (F : Fl) (n : Node) (s : Str) (h1 : s.head? ≠ some '#')
    (h6 : s.length ≠ 6) (h8 : s.length ≠ 8) (hash : Bool) :
    setValue F .color (.str (written hash s)) n = (n, .error .value) := by
  have e : dropHash (written hash s) = s := by
    cases hash
    · simp only [written, dropHash]
      split
      · rename_i heq
        exact absurd (show s.head? = some '#' by
          have : s = _ := heq
          rw [this]; rfl) h1
      · rfl
    · rfl
  simp [setValue, setColor, colorArg, e, h6, h8]

/-- C137 is violated: a digit with a minus before it is taken for a channel, so that any three
digits so written make a colour, with channels below zero; it isn't six hexadecimal digits. -/
theorem c137_signs_accepted (F : Fl) (n : Node) (hn : n.isTag = true) (d e f : Char)
    (hd : d ∈ hexDigits) (he : e ∈ hexDigits) (hf : f ∈ hexDigits) :
    ¬ IsColorDigits ['-', d, '-', e, '-', f] ∧
    setValue F .color (.str ['#', '-', d, '-', e, '-', f]) n =
      (colorNode (channelOf F (-(hv d : ℤ))) (channelOf F (-(hv e : ℤ))) (channelOf F (-(hv f : ℤ)))
        (channelOf F 255), .ok ()) := by
  have m1 : ('-' : Char) ∉ hexDigits := by decide
  constructor
  · rintro ⟨h, -⟩
    exact m1 (h '-' (by simp))
  · have hc : channels ['#', '-', d, '-', e, '-', f] =
        some [-(hv d : ℤ), -(hv e : ℤ), -(hv f : ℤ), 255] := by
      simp [channels, unhashed, pairValues, pairValue, m1, hd, he, hf]
    have := c137_what_text_is_a_colour F n hn ['#', '-', d, '-', e, '-', f] (by
      intro x hx
      simp only [List.mem_cons, List.not_mem_nil, or_false] at hx
      rcases hx with rfl | rfl | rfl | rfl | rfl | rfl | rfl
      · decide
      · decide
      · exact (hexDigit_facts hd).2.2.2
      · decide
      · exact (hexDigit_facts he).2.2.2
      · decide
      · exact (hexDigit_facts hf).2.2.2)
    rw [hc] at this
    obtain ⟨r, g, b, a, hl, h⟩ := this
    simp only [List.cons.injEq, and_true] at hl
    obtain ⟨rfl, rfl, rfl, rfl⟩ := hl
    exact h

/-- C137. Tuples: of no numbers white, of three or four those; of any other length
`ValueError`. Things that are neither text, tuples nor colours: `ValueError`. The colour then
stays as it was. -/
theorem c137_other_things_refused (F : Fl) (n : Node) :
    (∀ l, l.length ≠ 0 → l.length ≠ 3 → l.length ≠ 4 →
      setValue F .color (.tuple l) n = (n, .error .value)) ∧
    setValue F .color .none n = (n, .error .value) ∧
    (∀ q, setValue F .color (.float q) n = (n, .error .value)) ∧
    (∀ i, setValue F .color (.int i) n = (n, .error .value)) ∧
    (∀ b, setValue F .color (.bool b) n = (n, .error .value)) ∧
    (∀ t, setValue F .color (.t t) n = (n, .error .value)) ∧
    (∀ d, setValue F .color (.dict d) n = (n, .error .value)) ∧
    (∀ c root m, c ≠ .color → setValue F .color (.val c root m) n = (n, .error .value)) ∧
    (n.isTag = true → setValue F .color (.tuple []) n = (colorNode 1 1 1 1, .ok ())) := by
  refine ⟨?_, rfl, fun _ => rfl, fun _ => rfl, fun _ => rfl, fun _ => rfl, fun _ => rfl, ?_, ?_⟩
  · intro l h0 h3 h4
    have h0' : l ≠ [] := by rintro rfl; exact h0 rfl
    simp [setValue, setColor, colorArg, h0', h3, h4]
  · intro c root m hc
    cases c <;> first | rfl | exact absurd rfl hc
  · intro hn
    exact setColor_ok hn (by simp [colorArg])

/-- The hypotheses are met; a blank is taken like a sign; and the colour `#-1-1-1` reads as text
with signs in it. -/
example : channels "#12fFA0".toList = some [18, 255, 160, 255] ∧
    channels "1 +2 3-4".toList = some [1, 2, 3, -4] ∧ channels "#12345g".toList = none ∧
    channels "red".toList = none ∧ channels "#0x1234".toList = none ∧
    colorHex double (setValue double .color (.str "#-1-1-1".toList) (.tag "color" [] [])).1 =
      .ok "#-1-1-1".toList := by
  refine ⟨?_, ?_, ?_, ?_, ?_, ?_⟩ <;> decide +kernel

end Sang
