import Verif.Replacer
import Verif.Spec.Replacer
import Verif.Lemmas.NumText

/-! # Lemmas about block replacement -/

namespace Sang
open Spec

theorem isWordC_small : ∀ n < 128, isWordC (Char.ofNat n) = true →
    Char.ofNat n ∈ "ABCDEFGHIJKLMNOPQRSTUVWXYZabcdefghijklmnopqrstuvwxyz0123456789_".toList := by
  decide +kernel

theorem isWordC_iff (c : Char) : isWordC c = true ↔ IsWordChar c := by
  constructor
  · intro h
    have hlt : c.toNat < 128 := by
      by_contra hc
      simp only [isWordC, isDig, Bool.or_eq_true, Bool.and_eq_true, decide_eq_true_eq, beq_iff_eq] at h
      rcases h with ((⟨_, h⟩ | h) | ⟨_, h⟩) | ⟨_, h⟩
      · omega
      · subst h; exact hc (by decide)
      · omega
      · omega
    have e : c = Char.ofNat c.toNat := (Char.ofNat_toNat c).symm
    have := isWordC_small c.toNat hlt (by rw [← e]; exact h)
    rw [← e] at this
    exact this
  · intro h
    have : ∀ c ∈ "ABCDEFGHIJKLMNOPQRSTUVWXYZabcdefghijklmnopqrstuvwxyz0123456789_".toList,
        isWordC c = true := by decide +kernel
    exact this c h

theorem isSp_spaces (k : ℕ) : ∀ c ∈ spaces k, isSp c = true := by
  intro c hc
  rw [List.eq_of_mem_replicate hc]
  rfl

theorem takeWhile_isSp (s : Str) : s.takeWhile isSp = spaces (s.takeWhile isSp).length := by
  rw [spaces, List.eq_replicate_iff]
  refine ⟨rfl, fun c hc => ?_⟩
  have := List.all_takeWhile (l := s) (p := isSp)
  rw [List.all_eq_true] at this
  simpa [isSp] using this c hc

theorem spaces_ne_cons (k : ℕ) (c : Char) (r : Str) (hc : c ≠ ' ') :
    (spaces k ++ c :: r).takeWhile isSp = spaces k ∧ (spaces k ++ c :: r).dropWhile isSp = c :: r := by
  have h : isSp c = false := by simpa [isSp] using hc
  exact takeWhile_append_cons (isSp_spaces k) h

theorem takeWhile_append_head {p : Char → Bool} {ds r : Str} (h : ∀ x ∈ ds, p x = true)
    (hr : ∀ c ∈ r.head?, p c = false) : (ds ++ r).takeWhile p = ds ∧ (ds ++ r).dropWhile p = r := by
  cases r with
  | nil => rw [List.append_nil]; exact takeWhile_all h
  | cons c r => exact takeWhile_append_cons h (hr c rfl)

theorem dropWhile_head {p : Char → Bool} (s : Str) : ∀ c ∈ (s.dropWhile p).head?, p c = false := by
  intro c hc
  have := List.head?_dropWhile_not p s
  rw [Option.mem_def.1 hc] at this
  simpa using this

/-! ## The markers -/

theorem startMark_iff (line : Str) (k : ℕ) (name : Str) :
    startMark line = some (k, name) ↔ IsStart line k name := by
  simp only [startMark]
  constructor
  · intro h
    split at h
    · next hp =>
      injection h with h
      injection h with h1 h2
      rw [List.isPrefixOf_iff_prefix] at hp
      obtain ⟨t, ht⟩ := hp
      have e7 : (line.dropWhile isSp).drop 7 = t := by rw [← ht]; rfl
      rw [e7] at h2
      refine ⟨(t.takeWhile isSp).length, (t.dropWhile isSp).dropWhile isWordC, ?_, ?_, ?_, ?_⟩
      · have e1 : line = blanks k ++ line.dropWhile isSp := by
          conv_lhs => rw [← List.takeWhile_append_dropWhile (p := isSp) (l := line), takeWhile_isSp, h1]
          rfl
        have e2 : t = blanks (t.takeWhile isSp).length ++ t.dropWhile isSp := by
          conv_lhs => rw [← List.takeWhile_append_dropWhile (p := isSp) (l := t), takeWhile_isSp]
          rfl
        rw [← h2]
        rw [List.append_assoc, List.takeWhile_append_dropWhile, List.append_assoc, ← e2, List.append_assoc,
          ht]
        exact e1
      · intro c hc
        rw [← isWordC_iff]
        rw [← h2] at hc
        have := List.all_takeWhile (l := t.dropWhile isSp) (p := isWordC)
        rw [List.all_eq_true] at this
        exact this c hc
      · intro c hc
        rw [← isWordC_iff, dropWhile_head _ c hc]
        simp
      · intro hn c hc
        have e3 : (t.dropWhile isSp).dropWhile isWordC = t.dropWhile isSp := by
          conv_rhs => rw [← List.takeWhile_append_dropWhile (p := isWordC) (l := t.dropWhile isSp), h2, hn]
          rfl
        rw [e3] at hc
        have := dropWhile_head _ c hc
        simpa [isSp] using this
    · cases h
  · rintro ⟨gap, rest, rfl, h1, h2, h3⟩
    have e1 := spaces_ne_cons k '#' ("## {{{".toList ++ (blanks gap ++ (name ++ rest))) (by decide)
    have e0 : blanks k ++ "### {{{".toList ++ blanks gap ++ name ++ rest =
        spaces k ++ '#' :: ("## {{{".toList ++ (blanks gap ++ (name ++ rest))) := by
      simp [blanks, spaces]
    rw [e0, e1.1, e1.2]
    have hw : ∀ c ∈ name, isWordC c = true := fun c hc => (isWordC_iff c).2 (h1 c hc)
    have hr : ∀ c ∈ rest.head?, isWordC c = false := fun c hc => by
      have := h2 c hc
      rw [← isWordC_iff] at this
      simpa using this
    have e2 : ('#' :: ("## {{{".toList ++ (blanks gap ++ (name ++ rest)))).drop 7 =
        spaces gap ++ (name ++ rest) := rfl
    have e3 : ((spaces gap ++ (name ++ rest)).dropWhile isSp) = name ++ rest := by
      refine (takeWhile_append_head (isSp_spaces gap) ?_).2
      intro c hc
      cases name with
      | nil => simpa [isSp] using h3 rfl c hc
      | cons d r =>
        simp at hc
        subst hc
        have := hw d (by simp)
        cases hd : isSp d with
        | false => rfl
        | true =>
          simp [isSp] at hd
          subst hd
          revert this
          decide
    rw [e2, e3, (takeWhile_append_head hw hr).1, if_pos]
    · simp [spaces]
    · rw [List.isPrefixOf_iff_prefix]
      exact ⟨blanks gap ++ (name ++ rest), rfl⟩

theorem endMark_iff (line : Str) : endMark line = true ↔ ∃ rest, IsEnd line rest := by
  simp only [endMark, List.isPrefixOf_iff_prefix]
  constructor
  · rintro ⟨t, ht⟩
    refine ⟨t, (line.takeWhile isSp).length, ?_⟩
    conv_lhs => rw [← List.takeWhile_append_dropWhile (p := isSp) (l := line), takeWhile_isSp, ← ht]
    simp [blanks, spaces]
  · rintro ⟨rest, k, rfl⟩
    have e := spaces_ne_cons k '#' ("## }}}".toList ++ rest) (by decide)
    have e0 : blanks k ++ "### }}}".toList ++ rest = spaces k ++ '#' :: ("## }}}".toList ++ rest) := by
      simp [blanks, spaces]
    rw [e0, e.2]
    exact ⟨rest, rfl⟩

theorem className_iff (line c : Str) : className line = some c ↔ NamesClass line c := by
  simp only [className]
  constructor
  · intro h
    split at h
    · next hp =>
      rw [List.isPrefixOf_iff_prefix] at hp
      obtain ⟨t, ht⟩ := hp
      have e6 : line.drop 6 = t := by rw [← ht]; rfl
      rw [e6] at h
      have hc : t.takeWhile isWordC = c ∧ c ≠ [] := by
        split at h
        · cases h
        · next d w e => injection h with h; rw [← h]; exact ⟨e, by simp⟩
      refine ⟨t.dropWhile isWordC, ?_, hc.2, ?_, ?_⟩
      · rw [List.append_assoc, ← hc.1, List.takeWhile_append_dropWhile, ht]
      · intro d hd
        rw [← isWordC_iff]
        rw [← hc.1] at hd
        have := List.all_takeWhile (l := t) (p := isWordC)
        rw [List.all_eq_true] at this
        exact this d hd
      · intro d hd
        rw [← isWordC_iff, dropWhile_head _ d hd]
        simp
    · cases h
  · rintro ⟨rest, rfl, hne, h1, h2⟩
    have hw : ∀ d ∈ c, isWordC d = true := fun d hd => (isWordC_iff d).2 (h1 d hd)
    have hr : ∀ d ∈ rest.head?, isWordC d = false := fun d hd => by
      have := h2 d hd
      rw [← isWordC_iff] at this
      simpa using this
    have e : ("class ".toList ++ c ++ rest).drop 6 = c ++ rest := by
      rw [List.append_assoc]; rfl
    rw [e, (takeWhile_append_head hw hr).1, if_pos]
    · cases c with
      | nil => exact absurd rfl hne
      | cons d w => rfl
    · rw [List.isPrefixOf_iff_prefix, List.append_assoc]
      exact ⟨c ++ rest, rfl⟩

/-- The first character of a marker line or a class line. -/
theorem isStart_className {line : Str} {k : ℕ} {name : Str} (h : IsStart line k name) :
    className line = none := by
  obtain ⟨gap, rest, rfl, -⟩ := h
  rw [className, if_neg]
  rw [List.isPrefixOf_iff_prefix]
  rintro ⟨t, ht⟩
  cases k with
  | zero => simp [blanks] at ht
  | succ k => simp [blanks, List.replicate_succ] at ht

theorem isEnd_className {line rest : Str} (h : IsEnd line rest) : className line = none := by
  obtain ⟨k, rfl⟩ := h
  rw [className, if_neg]
  rw [List.isPrefixOf_iff_prefix]
  rintro ⟨t, ht⟩
  cases k with
  | zero => simp [blanks] at ht
  | succ k => simp [blanks, List.replicate_succ] at ht

theorem isEnd_startMark {line rest : Str} (h : IsEnd line rest) : startMark line = none := by
  obtain ⟨k, rfl⟩ := h
  have e := spaces_ne_cons k '#' ("## }}}".toList ++ rest) (by decide)
  have e0 : blanks k ++ "### }}}".toList ++ rest = spaces k ++ '#' :: ("## }}}".toList ++ rest) := by
    simp [blanks, spaces]
  simp only [startMark]
  rw [e0, e.2, if_neg]
  rw [List.isPrefixOf_iff_prefix]
  rintro ⟨t, ht⟩
  simp at ht

theorem ordinary_startMark {line : Str} (h : Ordinary line) : startMark line = none := by
  cases hs : startMark line with
  | none => rfl
  | some p => exact absurd ⟨p.1, p.2, (startMark_iff line p.1 p.2).1 hs⟩ h.1

theorem ordinary_endMark {line : Str} (h : Ordinary line) : endMark line = false := by
  cases he : endMark line with
  | false => rfl
  | true => exact absurd ((endMark_iff line).1 he) h.2

theorem trimEnd_append {s t : Str} (hs : ∀ c ∈ s.getLast?, isSpace c = false) (hne : s ≠ []) :
    trimEnd (s ++ t) = s ++ trimEnd t := by
  obtain ⟨a, c, rfl⟩ := List.eq_nil_or_concat s |>.resolve_left hne
  have hc : isSpace c = false := hs c (by simp)
  simp only [trimEnd, List.reverse_append, List.concat_eq_append]
  induction t using List.reverseRecOn with
  | nil => simp [hc]
  | append_singleton t d ih =>
    simp only [List.reverse_append, List.reverse_cons, List.reverse_nil, List.nil_append,
      List.cons_append, List.dropWhile_cons]
    cases isSpace d with
    | true => simpa using ih
    | false => simp

theorem rstrip_eq (s : Str) : rstrip s = trimEnd s := rfl

theorem strip_end {line rest : Str} (h : IsEnd line rest) :
    strip line = "### }}}".toList ++ trimEnd rest := by
  obtain ⟨k, rfl⟩ := h
  have hk : ∀ x ∈ blanks k, isSpace x = true := by
    intro x hx; rw [List.eq_of_mem_replicate hx]; decide
  have e1 : (blanks k ++ "### }}}".toList ++ rest).dropWhile isSpace = "### }}}".toList ++ rest := by
    rw [List.append_assoc]
    exact (takeWhile_append_cons (r := "## }}}".toList ++ rest) hk (by decide : isSpace '#' = false)).2
  rw [strip, e1]
  exact trimEnd_append (by decide) (by decide)

/-! ## Lines of a file -/

theorem fileLines_line (acc w r : Str) (hw : '\n' ∉ w) :
    fileLines acc (w ++ '\n' :: r) = (acc.reverse ++ w ++ ['\n']) :: fileLines [] r := by
  induction w generalizing acc with
  | nil => simp [fileLines]
  | cons c w ih =>
    have hc : c ≠ '\n' := fun e => hw (by simp [e])
    rw [List.cons_append, fileLines, if_neg hc, ih (c :: acc) fun h => hw (by simp [h])]
    simp

theorem fileLines_last (acc w : Str) (hw : '\n' ∉ w) (hne : acc ≠ [] ∨ w ≠ []) :
    fileLines acc w = [acc.reverse ++ w] := by
  induction w generalizing acc with
  | nil =>
    have : acc ≠ [] := by simpa using hne
    simp [fileLines, this]
  | cons c w ih =>
    have hc : c ≠ '\n' := fun e => hw (by simp [e])
    rw [fileLines, if_neg hc, ih (c :: acc) (fun h => hw (by simp [h])) (Or.inl (by simp))]
    simp

theorem fileLines_flatten (ls : List Str) (h : IsFile ls) : fileLines [] ls.flatten = ls := by
  match ls, h with
  | [], _ => rfl
  | [l], h =>
    obtain ⟨hne, ⟨w, rfl, hw⟩ | hl⟩ := h
    · have := fileLines_line [] w [] hw
      simpa [fileLines] using this
    · have := fileLines_last [] l hl (Or.inr hne)
      simpa using this
  | l :: m :: r, h =>
    obtain ⟨⟨w, rfl, hw⟩, h2⟩ := h
    have ih := fileLines_flatten (m :: r) h2
    rw [List.flatten_cons, List.append_assoc]
    show fileLines [] (w ++ '\n' :: (m :: r).flatten) = _
    rw [fileLines_line [] w _ hw, ih]
    rfl

theorem splitNl_line (acc w r : Str) (hw : '\n' ∉ w) :
    splitNl acc (w ++ '\n' :: r) = (acc.reverse ++ w) :: splitNl [] r := by
  induction w generalizing acc with
  | nil => simp [splitNl]
  | cons c w ih =>
    have hc : c ≠ '\n' := fun e => hw (by simp [e])
    rw [List.cons_append, splitNl, if_neg hc, ih (c :: acc) fun h => hw (by simp [h])]
    simp

theorem splitNl_last (acc w : Str) (hw : '\n' ∉ w) : splitNl acc w = [acc.reverse ++ w] := by
  induction w generalizing acc with
  | nil => simp [splitNl]
  | cons c w ih =>
    have hc : c ≠ '\n' := fun e => hw (by simp [e])
    rw [splitNl, if_neg hc, ih (c :: acc) fun h => hw (by simp [h])]
    simp

theorem splitNl_join (ws : List Str) (hne : ws ≠ []) (h : ∀ w ∈ ws, '\n' ∉ w) :
    splitNl [] (join ['\n'] ws) = ws := by
  match ws, hne, h with
  | [w], _, h => rw [join, splitNl_last _ _ (h w (by simp))]; rfl
  | w :: v :: r, _, h =>
    rw [join, List.append_assoc]
    show splitNl [] (w ++ '\n' :: join ['\n'] (v :: r)) = _
    rw [splitNl_line _ _ _ (h w (by simp)), splitNl_join (v :: r) (by simp)
      fun x hx => h x (by simp [hx])]
    rfl

theorem splitNl_acc (acc s : Str) : ∃ w ws, splitNl [] s = w :: ws ∧
    splitNl acc s = (acc.reverse ++ w) :: ws := by
  induction s generalizing acc with
  | nil => exact ⟨[], [], by simp [splitNl], by simp [splitNl]⟩
  | cons c r ih =>
    by_cases hc : c = '\n'
    · exact ⟨[], splitNl [] r, by simp [splitNl, hc], by simp [splitNl, hc]⟩
    · obtain ⟨w, ws, h1, h2⟩ := ih (c :: acc)
      obtain ⟨w', ws', h1', h2'⟩ := ih [c]
      rw [h1] at h1'
      injection h1' with e1 e2
      subst e1 e2
      refine ⟨c :: w, ws, ?_, ?_⟩
      · rw [splitNl, if_neg hc, h2']; rfl
      · rw [splitNl, if_neg hc, h2]; simp

theorem isLines_splitNl (v : Str) : IsLines v (splitNl [] v) := by
  induction v with
  | nil => exact ⟨by simp [splitNl], by simp [splitNl], rfl⟩
  | cons c r ih =>
    obtain ⟨h1, h2, h3⟩ := ih
    by_cases hc : c = '\n'
    · have e : splitNl [] (c :: r) = [] :: splitNl [] r := by simp [splitNl, hc]
      rw [e]
      refine ⟨by simp, ?_, ?_⟩
      · intro w hw
        rcases List.mem_cons.1 hw with rfl | hw
        · simp
        · exact h2 w hw
      · cases hs : splitNl [] r with
        | nil => exact absurd hs h1
        | cons w ws => rw [join, ← hs, ← h3, hc]; rfl
    · obtain ⟨w, ws, g1, g2⟩ := splitNl_acc [c] r
      have e : splitNl [] (c :: r) = (c :: w) :: ws := by
        rw [splitNl, if_neg hc, g2]; rfl
      rw [e]
      rw [g1] at h2 h3
      refine ⟨by simp, ?_, ?_⟩
      · intro x hx
        rcases List.mem_cons.1 hx with rfl | hx
        · intro hm
          rcases List.mem_cons.1 hm with hm | hm
          · exact hc hm.symm
          · exact h2 w (by simp) hm
        · exact h2 x (by simp [hx])
      · cases ws with
        | nil => rw [join] at h3 ⊢; rw [h3]
        | cons v vs => rw [join] at h3 ⊢; rw [h3]; simp

theorem join_newline (ls : List Str) (hne : ls ≠ []) :
    join ['\n'] ls ++ ['\n'] = (ls.map fun l => l ++ ['\n']).flatten := by
  match ls, hne with
  | [l], _ => simp [join]
  | l :: m :: r, _ =>
    have ih := join_newline (m :: r) (by simp)
    rw [join, List.map_cons, List.flatten_cons, ← ih]
    simp

theorem blockText_newline {v : Str} {ws : List Str} (k : ℕ) (h : IsLines v ws) :
    blockText k v ++ ['\n'] = (insertedLines k ws).flatten := by
  obtain ⟨h1, h2, rfl⟩ := h
  rw [blockText, splitNl_join ws h1 h2, join_newline _ (by simpa using h1), insertedLines, List.map_map]
  rfl

/-! ## Class names -/

/-- The class available after some lines. -/
def latestAfter (cls : Option Str) (ls : List Str) : Option Str :=
  ls.foldl (fun c l => match className l with
    | some d => some d
    | none => c) cls

theorem latestAfter_iff (cls cls' : Option Str) (ls : List Str) :
    LastClass cls ls cls' ↔ cls' = latestAfter cls ls := by
  have hno : ∀ l, (∀ d, ¬ NamesClass l d) ↔ className l = none := by
    intro l
    constructor
    · intro h
      cases hc : className l with
      | none => rfl
      | some d => exact absurd ((className_iff l d).1 hc) (h d)
    · intro h d hd
      rw [(className_iff l d).2 hd] at h
      cases h
  have hkeep : ∀ (ls : List Str) (c : Option Str), (∀ m ∈ ls, className m = none) →
      latestAfter c ls = c := by
    intro ls
    induction ls with
    | nil => intros; rfl
    | cons l r ih =>
      intro c h
      rw [latestAfter, List.foldl_cons, h l (by simp)]
      exact ih c fun m hm => h m (by simp [hm])
  constructor
  · rintro (⟨pre, l, post, c, rfl, h1, h2, rfl⟩ | ⟨h, rfl⟩)
    · rw [latestAfter, List.foldl_append, List.foldl_cons, (className_iff l c).2 h1]
      exact (hkeep post (some c) fun m hm => (hno m).1 (h2 m hm)).symm
    · exact (hkeep ls _ fun m hm => (hno m).1 (h m hm)).symm
  · rintro rfl
    induction ls using List.reverseRecOn with
    | nil => exact Or.inr ⟨by simp, rfl⟩
    | append_singleton r l ih =>
      have e : latestAfter cls (r ++ [l]) = match className l with
          | some d => some d
          | none => latestAfter cls r := by
        rw [latestAfter, List.foldl_append]; rfl
      rw [e]
      cases hc : className l with
      | some d => exact Or.inl ⟨r, l, [], d, rfl, (className_iff l d).1 hc, by simp, rfl⟩
      | none =>
        simp only
        rcases ih with ⟨pre, m, post, c, h0, h1, h2, h3⟩ | ⟨h1, h2⟩
        · refine Or.inl ⟨pre, m, post ++ [l], c, by simp [h0], h1, ?_, h3⟩
          intro x hx
          rw [List.mem_append, List.mem_singleton] at hx
          rcases hx with hx | rfl
          · exact h2 x hx
          · exact (hno x).2 hc
        · refine Or.inr ⟨?_, h2⟩
          intro x hx
          rw [List.mem_append, List.mem_singleton] at hx
          rcases hx with hx | rfl
          · exact h1 x hx
          · exact (hno x).2 hc

end Sang
