import Verif.Scan
import Verif.Spec.Scan
import Verif.Lemmas.Replacer
import Verif.Lemmas.Literals

namespace Sang
open Spec

/-! ## Searching a line -/

/-- The first place in a text where something is found. -/
def searchText {α : Type} (f : Str → Option α) : Str → Option α
  | [] => f []
  | c :: r => match f (c :: r) with
    | some m => some m
    | none => searchText f r

theorem blendIn_eq (s : Str) : blendIn s = searchText blendHere s := by
  induction s with
  | nil => rfl
  | cons c r ih => rw [blendIn, searchText, ih]; cases blendHere (c :: r) <;> rfl

theorem classIn_eq (s : Str) : classIn s = searchText classHere s := by
  induction s with
  | nil => rfl
  | cons c r ih => rw [classIn, searchText, ih]; cases classHere (c :: r) <;> rfl

theorem symbolIn_eq (s : Str) : symbolIn s = searchText symbolHere s := by
  induction s with
  | nil => rfl
  | cons c r ih => rw [symbolIn, searchText, ih]; cases symbolHere (c :: r) <;> rfl

theorem searchText_some {α : Type} {f : Str → Option α} {s : Str} {m : α} :
    searchText f s = some m ↔ ∃ k, f (s.drop k) = some m ∧ ∀ j < k, f (s.drop j) = none := by
  induction s with
  | nil =>
    constructor
    · exact fun h => ⟨0, h, by simp⟩
    · rintro ⟨k, h, -⟩; simpa [searchText] using h
  | cons c r ih =>
    rw [searchText]
    cases hf : f (c :: r) with
    | some x =>
      constructor
      · intro h; exact ⟨0, by simpa [hf] using h, by simp⟩
      · rintro ⟨k, h, hk⟩
        cases k with
        | zero => simpa [hf] using h
        | succ k =>
          have := hk 0 (by omega)
          simp [hf] at this
    | none =>
      simp only
      rw [ih]
      constructor
      · rintro ⟨k, h, hk⟩
        refine ⟨k + 1, h, fun j hj => ?_⟩
        cases j with
        | zero => simpa using hf
        | succ j => exact hk j (by omega)
      · rintro ⟨k, h, hk⟩
        cases k with
        | zero => simp [hf] at h
        | succ k => exact ⟨k, h, fun j hj => hk (j + 1) (by omega)⟩

/-- The first place where it is found, told by where it is. -/
theorem searchText_at {α : Type} {f : Str → Option α} {s : Str} {P : ℕ → α → Prop}
    (h : ∀ k m, P k m ↔ f (s.drop k) = some m) (m : α) :
    searchText f s = some m ↔ ∃ k, P k m ∧ ∀ j < k, ∀ x, ¬ P j x := by
  rw [searchText_some]
  refine exists_congr fun k => ?_
  rw [h]
  refine and_congr_right fun _ => forall₂_congr fun j _ => ?_
  constructor
  · intro e x; rw [h, e]; simp
  · intro e
    cases hf : f (s.drop j) with
    | none => rfl
    | some x => exact absurd ((h j x).2 hf) (e x)

/-! ## What is searched for -/

theorem isUpC_small : ∀ n < 128, isUpC (Char.ofNat n) = true →
    Char.ofNat n ∈ "ABCDEFGHIJKLMNOPQRSTUVWXYZ_".toList := by decide +kernel

theorem isUpC_iff (c : Char) : isUpC c = true ↔ c ∈ "ABCDEFGHIJKLMNOPQRSTUVWXYZ_".toList := by
  constructor
  · intro h
    have hlt : c.toNat < 128 := by
      by_contra hc
      simp only [isUpC, Bool.or_eq_true, Bool.and_eq_true, decide_eq_true_eq, beq_iff_eq] at h
      rcases h with h | ⟨_, h⟩
      · subst h; exact hc (by decide)
      · omega
    have e : c = Char.ofNat c.toNat := (Char.ofNat_toNat c).symm
    have := isUpC_small c.toNat hlt (by rw [← e]; exact h)
    rw [← e] at this
    exact this
  · intro h
    have : ∀ c ∈ "ABCDEFGHIJKLMNOPQRSTUVWXYZ_".toList, isUpC c = true := by decide +kernel
    exact this c h

theorem isDig_iff_mem (c : Char) : isDig c = true ↔ c ∈ "0123456789".toList := ⟨isDig_mem, mem_isDig⟩

theorem drop_eq_iff {s t : Str} {k : ℕ} (ht : t ≠ []) :
    s.drop k = t ↔ ∃ before, s = before ++ t ∧ before.length = k := by
  constructor
  · intro h
    refine ⟨s.take k, by rw [← h, List.take_append_drop], ?_⟩
    rw [List.length_take]
    have : k < s.length := by
      by_contra hk
      rw [List.drop_of_length_le (by omega)] at h
      exact ht h.symm
    omega
  · rintro ⟨b, rfl, rfl⟩
    simp

theorem mem_takeWhile {p : Char → Bool} {s : Str} {c : Char} (h : c ∈ s.takeWhile p) : p c = true := by
  have := List.all_takeWhile (l := s) (p := p)
  rw [List.all_eq_true] at this
  exact this c h

theorem blendHere_iff (s name : Str) (v : ℕ) : blendHere s = some (name, v) ↔
    ∃ digits after, s = "BLEND_".toList ++ name ++ "=".toList ++ digits ++ after ∧
      name ≠ [] ∧ (∀ c ∈ name, isUpC c = true) ∧ digits ≠ [] ∧ (∀ c ∈ digits, isDig c = true) ∧
      (∀ c ∈ after.head?, isDig c = false) ∧ natVal digits = v := by
  rw [blendHere]
  constructor
  · intro h
    split at h
    · next hp =>
      rw [List.isPrefixOf_iff_prefix] at hp
      obtain ⟨t, rfl⟩ := hp
      have e6 : ("BLEND_".toList ++ t).drop 6 = t := rfl
      rw [e6] at h
      split at h
      · next u hu =>
        split at h
        · cases h
        · next hne =>
          push Not at hne
          simp only [Option.some.injEq, Prod.mk.injEq] at h
          refine ⟨u.takeWhile isDig, u.dropWhile isDig, ?_, ?_, ?_, hne.2, ?_, ?_, h.2⟩
          · rw [← h.1]
            simp only [List.append_assoc, List.takeWhile_append_dropWhile]
            rw [show "=".toList ++ u = t.dropWhile isUpC from hu.symm, List.takeWhile_append_dropWhile]
          · rw [← h.1]; exact hne.1
          · rw [← h.1]; exact fun c hc => mem_takeWhile hc
          · exact fun c hc => mem_takeWhile hc
          · exact dropWhile_head u
      · cases h
    · cases h
  · rintro ⟨digits, after, rfl, h1, h2, h3, h4, h5, h6⟩
    have e6 : ("BLEND_".toList ++ name ++ "=".toList ++ digits ++ after).drop 6 =
        name ++ '=' :: (digits ++ after) := by simp [List.append_assoc]
    have w := takeWhile_append_cons h2 (c := '=') (r := digits ++ after) rfl
    have w' := takeWhile_append_head h4 h5
    rw [e6, w.1, w.2, if_pos]
    · simp only [w'.1, h1, h3, or_self, if_false, h6]
    · rw [List.isPrefixOf_iff_prefix]
      exact ⟨name ++ "=".toList ++ digits ++ after, by simp [List.append_assoc]⟩

theorem saysAt_iff (line : Str) (k : ℕ) (name : Str) (v : ℕ) :
    SaysAt line k name v ↔ blendHere (line.drop k) = some (name, v) := by
  rw [blendHere_iff]
  have hd : ∀ c : Char, isDig c = false ↔ c ∉ "0123456789".toList := fun c => by
    rw [← isDig_iff_mem]; simp
  constructor
  · rintro ⟨b, ds, a, he, hb, h1, h2, h3, h4, h5, h6⟩
    refine ⟨ds, a, ?_, h1, fun c hc => (isUpC_iff c).2 (h2 c hc), h3, fun c hc => mem_isDig (h4 c hc),
      fun c hc => (hd c).2 (h5 c hc), h6⟩
    rw [drop_eq_iff (by simp)]
    exact ⟨b, by rw [he]; simp [List.append_assoc], hb⟩
  · rintro ⟨ds, a, he, h1, h2, h3, h4, h5, h6⟩
    rw [drop_eq_iff (by simp)] at he
    obtain ⟨b, he, hb⟩ := he
    exact ⟨b, ds, a, by rw [he]; simp [List.append_assoc], hb, h1, fun c hc => (isUpC_iff c).1 (h2 c hc), h3,
      fun c hc => isDig_mem (h4 c hc), fun c hc => (hd c).1 (h5 c hc), h6⟩

/-- What a line of the header says. -/
theorem saysBlend_iff (line name : Str) (v : ℕ) : SaysBlend line name v ↔
    blendIn line = some (name, v) ∧ name ≠ "END".toList ∧ name ≠ "BY_LAYER".toList := by
  rw [SaysBlend, blendIn_eq, searchText_at (P := fun k m => SaysAt line k m.1 m.2)
    (fun k m => saysAt_iff line k m.1 m.2)]
  simp only [Prod.forall]

theorem classHere_iff (s name super : Str) : classHere s = some (name, super) ↔
    ∃ after, s = "class ".toList ++ name ++ "(".toList ++ super ++ after ∧
      name ≠ [] ∧ (∀ c ∈ name, isWordC c = true) ∧ super ≠ [] ∧ (∀ c ∈ super, isWordC c = true) ∧
      (∀ c ∈ after.head?, isWordC c = false) := by
  rw [classHere]
  constructor
  · intro h
    split at h
    · next hp =>
      rw [List.isPrefixOf_iff_prefix] at hp
      obtain ⟨t, rfl⟩ := hp
      have e6 : ("class ".toList ++ t).drop 6 = t := rfl
      rw [e6] at h
      split at h
      · next u hu =>
        split at h
        · cases h
        · next hne =>
          push Not at hne
          simp only [Option.some.injEq, Prod.mk.injEq] at h
          refine ⟨u.dropWhile isWordC, ?_, ?_, ?_, ?_, ?_, ?_⟩
          · rw [← h.1, ← h.2]
            simp only [List.append_assoc, List.takeWhile_append_dropWhile]
            rw [show "(".toList ++ u = t.dropWhile isWordC from hu.symm, List.takeWhile_append_dropWhile]
          · rw [← h.1]; exact hne.1
          · rw [← h.1]; exact fun c hc => mem_takeWhile hc
          · rw [← h.2]; exact hne.2
          · rw [← h.2]; exact fun c hc => mem_takeWhile hc
          · exact dropWhile_head u
      · cases h
    · cases h
  · rintro ⟨after, rfl, h1, h2, h3, h4, h5⟩
    have e6 : ("class ".toList ++ name ++ "(".toList ++ super ++ after).drop 6 =
        name ++ '(' :: (super ++ after) := by simp [List.append_assoc]
    have w := takeWhile_append_cons h2 (c := '(') (r := super ++ after) rfl
    have w' := takeWhile_append_head h4 h5
    rw [e6, w.1, w.2, if_pos]
    · simp only [w'.1, h1, h3, or_self, if_false]
    · rw [List.isPrefixOf_iff_prefix]
      exact ⟨name ++ "(".toList ++ super ++ after, by simp [List.append_assoc]⟩

theorem definesAt_iff (line : Str) (k : ℕ) (name super : Str) :
    DefinesAt line k name super ↔ classHere (line.drop k) = some (name, super) := by
  rw [classHere_iff]
  have hd : ∀ c : Char, isWordC c = false ↔ ¬ IsWordChar c := fun c => by
    rw [← isWordC_iff]; simp
  constructor
  · rintro ⟨b, a, he, hb, h1, h2, h3, h4, h5⟩
    refine ⟨a, ?_, h1, fun c hc => (isWordC_iff c).2 (h2 c hc), h3, fun c hc => (isWordC_iff c).2 (h4 c hc),
      fun c hc => (hd c).2 (h5 c hc)⟩
    rw [drop_eq_iff (by simp)]
    exact ⟨b, by rw [he]; simp [List.append_assoc], hb⟩
  · rintro ⟨a, he, h1, h2, h3, h4, h5⟩
    rw [drop_eq_iff (by simp)] at he
    obtain ⟨b, he, hb⟩ := he
    exact ⟨b, a, by rw [he]; simp [List.append_assoc], hb, h1, fun c hc => (isWordC_iff c).1 (h2 c hc), h3,
      fun c hc => (isWordC_iff c).1 (h4 c hc), fun c hc => (hd c).1 (h5 c hc)⟩

/-- What class a line begins. -/
theorem definesClass_iff (line name super : Str) :
    DefinesClass line name super ↔ classIn line = some (name, super) := by
  rw [DefinesClass, classIn_eq, searchText_at (P := fun k m => DefinesAt line k m.1 m.2)
    (fun k m => definesAt_iff line k m.1 m.2)]
  simp only [Prod.forall]

theorem isQuote_iff (c : Char) : isQuote c = true ↔ c = '\'' ∨ c = '"' := by simp [isQuote]

theorem symbolHere_iff (s x : Str) : symbolHere s = some x ↔
    ∃ i j q after, s = "SYMBOL".toList ++ blanks i ++ "=".toList ++ blanks j ++ [q] ++ x ++ after ∧
      isQuote q = true ∧ (∀ c ∈ x, isQuote c = false) ∧ ∀ c ∈ after.head?, isQuote c = true := by
  rw [symbolHere]
  constructor
  · intro h
    split at h
    · next hp =>
      rw [List.isPrefixOf_iff_prefix] at hp
      obtain ⟨t, rfl⟩ := hp
      have e6 : ("SYMBOL".toList ++ t).drop 6 = t := rfl
      rw [e6] at h
      split at h
      · next u hu =>
        split at h
        · next q w hw =>
          split at h
          · next hq =>
            simp only [Option.some.injEq] at h
            refine ⟨(t.takeWhile isSp).length, (u.takeWhile isSp).length, q,
              w.dropWhile (fun x => !isQuote x), ?_, hq, ?_, ?_⟩
            · rw [← h]
              simp only [List.append_assoc, List.takeWhile_append_dropWhile]
              rw [show [q] ++ w = u.dropWhile isSp from hw.symm]
              rw [show blanks (u.takeWhile isSp).length = u.takeWhile isSp from (takeWhile_isSp u).symm,
                List.takeWhile_append_dropWhile]
              rw [show "=".toList ++ u = t.dropWhile isSp from hu.symm,
                show blanks (t.takeWhile isSp).length = t.takeWhile isSp from (takeWhile_isSp t).symm,
                List.takeWhile_append_dropWhile]
            · rw [← h]; exact fun c hc => by simpa using mem_takeWhile hc
            · intro c hc; simpa using dropWhile_head w c hc
          · cases h
        · cases h
      · cases h
    · cases h
  · rintro ⟨i, j, q, after, rfl, hq, hx, ha⟩
    have e6 : ("SYMBOL".toList ++ blanks i ++ "=".toList ++ blanks j ++ [q] ++ x ++ after).drop 6 =
        spaces i ++ '=' :: (spaces j ++ q :: (x ++ after)) := by
      simp [List.append_assoc, blanks, spaces]
    have hqs : q ≠ ' ' := by rintro rfl; revert hq; decide
    have w1 := spaces_ne_cons i '=' (spaces j ++ q :: (x ++ after)) (by decide)
    have w2 := spaces_ne_cons j q (x ++ after) hqs
    have w3 := takeWhile_append_head (p := fun x => !isQuote x) (ds := x) (r := after)
      (fun c hc => by simp [hx c hc]) (fun c hc => by simp [ha c hc])
    rw [e6, w1.2, if_pos]
    · simp only [w2.2, hq, if_true, w3.1]
    · rw [List.isPrefixOf_iff_prefix]
      exact ⟨blanks i ++ "=".toList ++ blanks j ++ [q] ++ x ++ after, by simp [List.append_assoc]⟩

theorem symbolAt_iff (line : Str) (k : ℕ) (x : Str) :
    SymbolAt line k x ↔ symbolHere (line.drop k) = some x := by
  rw [symbolHere_iff]
  have hd : ∀ c : Char, isQuote c = false ↔ c ≠ '\'' ∧ c ≠ '"' := fun c => by simp [isQuote]
  constructor
  · rintro ⟨b, i, j, q, a, he, hb, h1, h2, h3⟩
    refine ⟨i, j, q, a, ?_, (isQuote_iff q).2 h1, fun c hc => (hd c).2 (h2 c hc),
      fun c hc => (isQuote_iff c).2 (h3 c hc)⟩
    rw [drop_eq_iff (by simp)]
    exact ⟨b, by rw [he]; simp [List.append_assoc], hb⟩
  · rintro ⟨i, j, q, a, he, h1, h2, h3⟩
    rw [drop_eq_iff (by simp)] at he
    obtain ⟨b, he, hb⟩ := he
    exact ⟨b, i, j, q, a, by rw [he]; simp [List.append_assoc], hb, (isQuote_iff q).1 h1,
      fun c hc => (hd c).1 (h2 c hc), fun c hc => (isQuote_iff c).1 (h3 c hc)⟩

/-- What symbol a line sets. -/
theorem setsSymbol_iff (line x : Str) : SetsSymbol line x ↔
    symbolIn line = some x ∧ ∀ n super, classIn line = some (n, super) → super = "Layer".toList := by
  rw [SetsSymbol, symbolIn_eq, searchText_at (P := fun k m => SymbolAt line k m)
    (fun k m => symbolAt_iff line k m)]
  simp only [definesClass_iff]

/-! ## The dict of blend methods -/

theorem mem_putBlend {v : ℕ} {name : Str} {d : List (ℕ × Str)} (hd : (d.map Prod.fst).Nodup) (p : ℕ × Str) :
    p ∈ putBlend v name d ↔ p = (v, name) ∨ p ∈ d ∧ p.1 ≠ v := by
  induction d with
  | nil => simp [putBlend]
  | cons q d ih =>
    simp only [List.map_cons, List.nodup_cons] at hd
    rw [putBlend]
    split
    · next hq =>
      have hn : ∀ p ∈ d, p.1 ≠ v := fun p hp he => hd.1 (by
        rw [hq, ← he]; exact List.mem_map_of_mem hp)
      simp only [List.mem_cons]
      constructor
      · rintro (h | h)
        · exact Or.inl h
        · exact Or.inr ⟨Or.inr h, hn p h⟩
      · rintro (h | ⟨rfl | h, h'⟩)
        · exact Or.inl h
        · exact absurd hq h'
        · exact Or.inr h
    · next hq =>
      simp only [List.mem_cons, ih hd.2]
      constructor
      · rintro (rfl | h | h)
        · exact Or.inr ⟨Or.inl rfl, hq⟩
        · exact Or.inl h
        · exact Or.inr ⟨Or.inr h.1, h.2⟩
      · rintro (h | ⟨rfl | h, h'⟩)
        · exact Or.inr (Or.inl h)
        · exact Or.inl rfl
        · exact Or.inr (Or.inr ⟨h, h'⟩)

theorem putBlend_keys {v : ℕ} {name : Str} {d : List (ℕ × Str)} (hd : (d.map Prod.fst).Nodup) :
    ((putBlend v name d).map Prod.fst).Nodup := by
  induction d with
  | nil => simp [putBlend]
  | cons q d ih =>
    simp only [List.map_cons, List.nodup_cons] at hd
    rw [putBlend]
    split
    · next hq => simp only [List.map_cons, List.nodup_cons]; rw [← hq]; exact hd
    · next hq =>
      simp only [List.map_cons, List.nodup_cons]
      refine ⟨?_, ih hd.2⟩
      intro hm
      obtain ⟨p, hp, he⟩ := List.mem_map.1 hm
      rcases (mem_putBlend hd.2 p).1 hp with rfl | ⟨h, -⟩
      · exact hq he.symm
      · exact hd.1 (he ▸ List.mem_map_of_mem h)

theorem blendIs_append (ls : List Str) (l : Str) (v : ℕ) (n : Str) :
    BlendIs (ls ++ [l]) v n ↔ SaysBlend l n v ∨ BlendIs ls v n ∧ ∀ n', ¬ SaysBlend l n' v := by
  constructor
  · rintro ⟨pre, m, post, he, hm, hp⟩
    rcases List.eq_nil_or_concat post with rfl | ⟨post, x, rfl⟩
    · obtain ⟨-, h⟩ := List.append_inj' he rfl
      simp only [List.cons.injEq, and_true] at h
      subst h
      exact Or.inl hm
    · have e : ls ++ [l] = (pre ++ m :: post) ++ [x] := by rw [he]; simp
      obtain ⟨h1, h2⟩ := List.append_inj' e rfl
      simp only [List.cons.injEq, and_true] at h2
      subst h2
      refine Or.inr ⟨⟨pre, m, post, h1, hm, fun y hy => hp y (by simp [hy])⟩, hp l (by simp)⟩
  · rintro (h | ⟨⟨pre, m, post, rfl, hm, hp⟩, h⟩)
    · exact ⟨ls, l, [], rfl, h, by simp⟩
    · refine ⟨pre, m, post ++ [l], by simp, hm, ?_⟩
      intro y hy
      rcases List.mem_append.1 hy with hy | hy
      · exact hp y hy
      · rw [List.mem_singleton] at hy; subst hy; exact h

theorem scan_spec (ls : List Str) : ((ls.foldl scanLine []).map Prod.fst).Nodup ∧
    ∀ v n, (v, n) ∈ ls.foldl scanLine [] ↔ BlendIs ls v n := by
  induction ls using List.reverseRecOn with
  | nil =>
    refine ⟨by simp, fun v n => ?_⟩
    simp only [List.foldl_nil, List.not_mem_nil, false_iff]
    rintro ⟨pre, l, post, h, -⟩
    simp at h
  | append_singleton ls l ih =>
    rw [List.foldl_append, List.foldl_cons, List.foldl_nil]
    obtain ⟨hd, hm⟩ := ih
    set d := ls.foldl scanLine []
    have none : (∀ n v, ¬ SaysBlend l n v) → ∀ v n, (v, n) ∈ d ↔ BlendIs (ls ++ [l]) v n := by
      intro h v n
      rw [blendIs_append, hm]
      constructor
      · exact fun h' => Or.inr ⟨h', fun n' => h n' v⟩
      · rintro (h' | h')
        · exact absurd h' (h n v)
        · exact h'.1
    rw [scanLine]
    split
    · next hb => exact ⟨hd, none fun n v => by rw [saysBlend_iff, hb]; simp⟩
    · next name v hb =>
      split
      · next hn =>
        refine ⟨hd, none fun n w => ?_⟩
        rw [saysBlend_iff, hb]
        simp only [Option.some.injEq, Prod.mk.injEq]
        rintro ⟨⟨rfl, rfl⟩, h1, h2⟩
        tauto
      · next hn =>
        push Not at hn
        have hs : ∀ n w, SaysBlend l n w ↔ n = name ∧ w = v := by
          intro n w
          rw [saysBlend_iff, hb]
          simp only [Option.some.injEq, Prod.mk.injEq]
          constructor
          · rintro ⟨⟨rfl, rfl⟩, -⟩; exact ⟨rfl, rfl⟩
          · rintro ⟨rfl, rfl⟩; exact ⟨⟨rfl, rfl⟩, hn⟩
        refine ⟨putBlend_keys hd, fun w n => ?_⟩
        rw [mem_putBlend hd, blendIs_append, hm, hs]
        simp only [Prod.mk.injEq, hs]
        constructor
        · rintro (⟨rfl, rfl⟩ | ⟨h, h'⟩)
          · exact Or.inl ⟨rfl, rfl⟩
          · exact Or.inr ⟨h, fun _ h => h' h.2⟩
        · rintro (⟨rfl, rfl⟩ | ⟨h, h'⟩)
          · exact Or.inl ⟨rfl, rfl⟩
          · exact Or.inr ⟨h, fun he => h' name ⟨rfl, he⟩⟩

/-- Keys 0, 1, 2, …, each once: sorted, they are in their places. -/
theorem sorted_keys {d : List (ℕ × Str)}
    (h : ∀ i < d.length, i ∈ d.map Prod.fst) :
    (d.insertionSort fun a b => a.1 ≤ b.1).map Prod.fst = List.range d.length := by
  have hperm : (d.map Prod.fst).Perm (List.range d.length) := by
    refine ((List.subperm_of_subset List.nodup_range ?_).perm_of_length_le (by simp)).symm
    intro i hi
    exact h i (List.mem_range.1 hi)
  have hs : (d.insertionSort fun a b => a.1 ≤ b.1).Pairwise fun a b => a.1 ≤ b.1 := by
    have : Std.Total fun a b : ℕ × Str => a.1 ≤ b.1 := ⟨fun a b => Nat.le_total a.1 b.1⟩
    have : IsTrans (ℕ × Str) fun a b => a.1 ≤ b.1 := ⟨fun a b c h1 h2 => Nat.le_trans h1 h2⟩
    exact List.pairwise_insertionSort _ _
  refine List.Perm.eq_of_pairwise (le := fun a b : ℕ => a ≤ b) (fun a b _ _ h1 h2 => Nat.le_antisymm h1 h2) ?_ ?_
    (((List.perm_insertionSort _ d).map Prod.fst).trans hperm)
  · exact List.pairwise_map.2 hs
  · exact List.pairwise_le_range

theorem mem_of_sorted {d : List (ℕ × Str)}
    (h : ∀ i < d.length, i ∈ d.map Prod.fst) (i : ℕ) (n : Str) :
    ((d.insertionSort fun a b => a.1 ≤ b.1).map Prod.snd)[i]? = some n ↔ (i, n) ∈ d := by
  have hk := sorted_keys h
  have hp := List.perm_insertionSort (fun a b : ℕ × Str => a.1 ≤ b.1) d
  rw [← hp.mem_iff]
  set e := d.insertionSort fun a b => a.1 ≤ b.1
  constructor
  · intro hn
    rw [List.getElem?_map, Option.map_eq_some_iff] at hn
    obtain ⟨p, hp', rfl⟩ := hn
    have : (e.map Prod.fst)[i]? = some p.1 := by rw [List.getElem?_map, hp']; rfl
    rw [hk, List.getElem?_range (by
      have := (List.getElem?_eq_some_iff.1 hp').1
      rwa [hp.length_eq] at this)] at this
    simp only [Option.some.injEq] at this
    rw [this]
    exact List.mem_of_getElem? hp'
  · intro hm
    obtain ⟨j, hj, he⟩ := List.mem_iff_getElem.1 hm
    have : (e.map Prod.fst)[j]? = some i := by
      rw [List.getElem?_map, List.getElem?_eq_getElem hj, he]; rfl
    rw [hk, List.getElem?_range (by rwa [hp.length_eq] at hj)] at this
    simp only [Option.some.injEq] at this
    subst this
    rw [List.getElem?_map, List.getElem?_eq_getElem hj, he]; rfl

end Sang
