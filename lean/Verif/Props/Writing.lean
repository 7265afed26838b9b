import Verif.Lemmas.Writing
import Verif.Props.XmlText

/-!
# C155: however a document is written, it opens as the same; and C115: which documents survive saving
-/

namespace Sang

open Spec

/-- C155. However a document is written (with which line ends, quotes and white space, whether characters are written
as themselves, by name or by number, and whether empty elements have end tags), it opens as that document. -/
theorem c155_any_writing {x : Node} {t : Str} (h : DocAs x t) :
    parseXml t = .ok x ∧ ∃ s, unUtf8 (utf8 t) = .ok s ∧ parseXml s = .ok x :=
  ⟨parse_docAs h, t, unUtf8_utf8 t, parse_docAs h⟩

/-- C155. So nothing that a program can see depends on how the file was written. -/
theorem c155_same {x : Node} {t u : Str} (h : DocAs x t) (k : DocAs x u) : parseXml t = parseXml u := by
  rw [parse_docAs h, parse_docAs k]

/-- A small document. -/
def exWritten : Node := .tag "a" [("n", .str ['\n'])] [.text ['<']]

/-- One way to write it. -/
theorem exWritten_one : DocAs exWritten "<?xml ?>\r\n<a n =\"&#10;\">&lt;</a\n>".toList := by
  have hn : ∀ s : String, s.toList = ['a'] ∨ s.toList = ['n'] → XmlName s.toList := by
    rintro s (h | h) <;> rw [h] <;> exact ⟨by decide, by decide⟩
  have hv : ValueAs '"' ['\n'] (['&', '#', '1', '0', ';']) :=
    .ref (r := ['#', '1', '0']) (.dec (vs := [1, 0]) (Or.inr (Or.inl rfl)) (by decide) (.cons ⟨by decide, by decide⟩
      (.cons ⟨by decide, by decide⟩ .nil)) (by decide)) .nil
  have ha := AttrsAs.cons (b := [' ']) (c := [' ']) (d := []) (k := "n") (by intro c hc; left; simpa using hc) (by decide)
    (hn _ (Or.inr rfl)) (by intro c hc; left; simpa using hc) (by simp [Blanks]) (Or.inl rfl) hv .nil
  have ht : TextAs ['<'] ('&' :: "lt".toList ++ [';']) := .ref (.lt rfl) .nil
  have he := ElementAs.long (n := "a") (b := []) (c := ['\n']) (hn _ (Or.inl rfl)) (by decide) ha (by simp [Blanks])
    (.text ht) (by intro c hc; right; right; simpa using hc)
  have hl : ∀ s : Str, '\r' ∉ s → LinesAs s s := by
    intro s
    induction s with
    | nil => exact fun _ => .nil
    | cons c s ih =>
      intro h
      simp only [List.mem_cons, not_or] at h
      exact .char (Ne.symm h.1) (ih h.2)
  have hd := DocAs.mk (d := "<?xml".toList ++ ' ' :: [] ++ "?>".toList) (b := ['\n']) (e := []) (.some (Or.inl rfl) (by decide))
    (by intro c hc; right; right; simpa using hc) he (by simp [Blanks]) (.crlf (hl _ (by decide +kernel)))
  have e1 : betweenTags ['<'] = [.text ['<']] := by decide +kernel
  rw [e1] at hd
  have e2 : ∀ {s t : Str}, DocAs exWritten s → s = t → DocAs exWritten t := fun h e => e ▸ h
  exact e2 hd (by decide +kernel)

/-- And it opens as that, as does another way to write it. -/
example : parseXml "<?xml ?>\r\n<a n =\"&#10;\">&lt;</a\n>".toList = .ok exWritten ∧
    parseXml "<a  n= '&#x0A;'\n>&#060;</a >\n".toList = .ok exWritten :=
  ⟨parse_docAs exWritten_one, by rfl⟩

/-! Every document that can be opened can be written. -/

theorem xmlChar_allowed {c : Char} (h : xmlChar c = true) : Allowed c := by
  unfold xmlChar at h
  simp only [Bool.or_eq_true, beq_iff_eq, Bool.and_eq_true, decide_eq_true_eq, bne_iff_ne] at h
  rcases h with ((h | h) | h) | ⟨⟨h1, h2⟩, h3⟩
  · exact .inl h
  · exact .inr (.inl h)
  · exact .inr (.inr (.inl h))
  · refine .inr (.inr (.inr ⟨?_, ?_, ?_⟩))
    · rw [Char.le_def, UInt32.le_iff_toNat_le] at h1
      exact h1
    · exact fun h => h2 (Char.toNat_inj.1 h)
    · exact fun h => h3 (Char.toNat_inj.1 h)

theorem refTo_exists {c : Char} (h : xmlChar c = true) : ∃ r, RefTo c r := by
  have ha := xmlChar_allowed h
  have hne : c.toNat ≠ 0 := by
    intro h0
    have : c = Char.ofNat 0 := by rw [← h0, Char.ofNat_toNat]
    rw [this] at h
    revert h
    decide
  refine ⟨'#' :: (Nat.digits 10 c.toNat).reverse.map Nat.digitChar,
    .dec (vs := (Nat.digits 10 c.toNat).reverse) ha ?_ ?_ ?_⟩
  · simpa [Nat.digits_eq_nil_iff_eq_zero] using hne
  · rw [List.forall₂_map_left_iff, List.forall₂_same]
    intro v hv
    exact ⟨Nat.digits_lt_base (by decide) (List.mem_reverse.1 hv), rfl⟩
  · rw [List.reverse_reverse, Nat.ofDigits_digits]

theorem textAs_exists : ∀ {s : Str}, s.all xmlChar = true → ∃ t, TextAs s t
  | [], _ => ⟨[], .nil⟩
  | c :: s, h => by
    rw [List.all_cons, Bool.and_eq_true] at h
    obtain ⟨r, hr⟩ := refTo_exists h.1
    obtain ⟨t, ht⟩ := textAs_exists h.2
    exact ⟨_, .ref hr ht⟩

theorem valueAs_exists : ∀ {s : Str}, s.all xmlChar = true → ∃ t, ValueAs '"' s t
  | [], _ => ⟨[], .nil⟩
  | c :: s, h => by
    rw [List.all_cons, Bool.and_eq_true] at h
    obtain ⟨r, hr⟩ := refTo_exists h.1
    obtain ⟨t, ht⟩ := valueAs_exists h.2
    exact ⟨_, .ref hr ht⟩

theorem xmlName_of_ok {s : String} (h : NameOk s) : XmlName s.toList := by
  refine ⟨h.1, fun c hc => ?_⟩
  have := List.all_eq_true.1 h.2 c hc
  unfold nameChar Char.isAlphanum Char.isAlpha at this
  simp only [Bool.or_eq_true, beq_iff_eq] at this
  tauto

theorem attrsAs_exists : ∀ {a : Attrs}, (∀ p ∈ a, NameOk p.1 ∧ ∃ v, p.2 = .str v ∧ ReadVal false v) → ∃ t, AttrsAs a t
  | [], _ => ⟨[], .nil⟩
  | (k, w) :: a, h => by
    obtain ⟨hk, v, hv, hx⟩ := h (k, w) (by simp)
    simp only at hv
    subst hv
    obtain ⟨t, ht⟩ := valueAs_exists hx.1
    obtain ⟨u, hu⟩ := attrsAs_exists (a := a) fun p hp => h p (by simp [hp])
    exact ⟨_, .cons (b := [' ']) (by intro c hc; left; simpa using hc) (by decide) (xmlName_of_ok hk)
      (c := []) (d := []) (by simp [Blanks]) (by simp [Blanks]) (Or.inl rfl) ht hu⟩

theorem betweenTags_text {s : Str} (h : (Node.text s).Read false) : betweenTags s = [.text s] := by
  rw [betweenTags_eq, textRun, if_neg h.1]
  split
  · next hs => rcases h.2.2.1 hs with rfl | rfl <;> rfl
  · rfl

mutual
theorem elementAs_exists : ∀ {x : Node}, x.Read false → x.isTag = true → ∃ t, ElementAs x t
  | .tag n a ks, h, _ => by
    obtain ⟨t, ht⟩ := attrsAs_exists h.2.1.2
    obtain ⟨u, hu⟩ := contentAs_exists h.2.2.2 h.2.2.1
    exact ⟨_, .long (b := []) (c := []) (xmlName_of_ok h.1) h.2.1.1 ht (by simp [Blanks]) hu (by simp [Blanks])⟩

theorem contentAs_exists : ∀ {ks : List Node}, Node.ReadAll false ks → NoAdj ks → ∃ t, ContentAs ks t
  | [], _, _ => ⟨[], .text (s := []) .nil⟩
  | [.text s], h, _ => by
    obtain ⟨t, ht⟩ := textAs_exists h.1.2.2.2
    refine ⟨t, ?_⟩
    have := ContentAs.text ht
    rwa [betweenTags_text h.1] at this
  | .text s :: .text _ :: r, _, hn => by
    rw [NoAdj, List.isChain_cons_cons] at hn
    simp [Node.isTag] at hn
  | .text s :: .tag n a ks :: r, h, hn => by
    obtain ⟨t, ht⟩ := textAs_exists h.1.2.2.2
    obtain ⟨u, hu⟩ := elementAs_exists h.2.1 rfl
    obtain ⟨v, hv⟩ := contentAs_exists h.2.2 hn.tail.tail
    refine ⟨t ++ u ++ v, ?_⟩
    have := ContentAs.cons ht hu hv
    rwa [betweenTags_text h.1] at this
  | .tag n a ks :: r, h, hn => by
    obtain ⟨u, hu⟩ := elementAs_exists h.1 rfl
    obtain ⟨v, hv⟩ := contentAs_exists h.2 hn.tail
    exact ⟨[] ++ u ++ v, .cons (s := []) .nil hu hv⟩
end

theorem refTo_no_cr {c : Char} {r : Str} (h : RefTo c r) : '\r' ∉ r := by
  have key : ∀ v < 16, Nat.digitChar v ≠ '\r' ∧ (Nat.digitChar v).toUpper ≠ '\r' := by decide
  cases h with
  | amp | lt | gt | quot | apos => decide
  | dec _ _ hd _ =>
    simp only [List.mem_cons, not_or]
    refine ⟨by decide, fun hm => ?_⟩
    obtain ⟨v, h⟩ := forall2_left hd hm
    exact (key v (by have := h.1; omega)).1 h.2.symm
  | hex _ _ hd _ =>
    simp only [List.mem_cons, not_or]
    refine ⟨by decide, by decide, fun hm => ?_⟩
    obtain ⟨v, h⟩ := forall2_left hd hm
    rcases h.2 with e | e
    · exact (key v h.1).1 e.symm
    · exact (key v h.1).2 e.symm

theorem textAs_no_cr {s t : Str} (h : TextAs s t) : '\r' ∉ t := by
  induction h with
  | nil => simp
  | char _ _ _ h _ ih => simp [ih, Ne.symm h]
  | ref hr _ ih => simp [ih, refTo_no_cr hr]

theorem valueAs_no_cr {q : Char} {s t : Str} (h : ValueAs q s t) : '\r' ∉ t := by
  induction h with
  | nil => simp
  | char _ _ _ _ h _ _ _ ih => simp [ih, Ne.symm h]
  | blank h _ ih => rcases h with rfl | rfl <;> simp [ih]
  | ref hr _ ih => simp [ih, refTo_no_cr hr]

theorem blanks_no_cr {b : Str} (h : Blanks b) : '\r' ∉ b := fun hc => by
  have := h _ hc
  revert this
  decide

theorem xmlName_no_cr {s : Str} (h : XmlName s) : '\r' ∉ s := name_no_cr (xmlName_ok h).2

theorem attrsAs_no_cr {a : Attrs} {t : Str} (h : AttrsAs a t) : '\r' ∉ t := by
  induction h with
  | nil => simp
  | cons hb _ hk hc hd hq hv _ ih =>
    have := blanks_no_cr hb
    have := blanks_no_cr hc
    have := blanks_no_cr hd
    have := xmlName_no_cr hk
    have := valueAs_no_cr hv
    rcases hq with rfl | rfl <;> simp [*]

mutual
theorem elementAs_no_cr : ∀ {x : Node} {t : Str}, ElementAs x t → '\r' ∉ t
  | _, _, .short hn _ ha hb => by
    simp [xmlName_no_cr hn, attrsAs_no_cr ha, blanks_no_cr hb]
  | _, _, .long hn _ ha hb hk hc => by
    simp [xmlName_no_cr hn, attrsAs_no_cr ha, blanks_no_cr hb, contentAs_no_cr hk, blanks_no_cr hc]

theorem contentAs_no_cr : ∀ {ks : List Node} {t : Str}, ContentAs ks t → '\r' ∉ t
  | _, _, .text h => textAs_no_cr h
  | _, _, .cons h hx hk => by simp [textAs_no_cr h, elementAs_no_cr hx, contentAs_no_cr hk]
end

theorem linesAs_self : ∀ {s : Str}, '\r' ∉ s → LinesAs s s
  | [], _ => .nil
  | c :: s, h => by
    simp only [List.mem_cons, not_or] at h
    exact .char (Ne.symm h.1) (linesAs_self h.2)

/-- C155. Every document that can be opened can be written so that it opens as itself, if not by the library. -/
theorem c155_writable {s : Str} {x : Node} (h : parseXml s = .ok x) : ∃ t, DocAs x t ∧ parseXml t = .ok x := by
  obtain ⟨hr, hi⟩ := parse_read h
  obtain ⟨t, ht⟩ := elementAs_exists hr hi
  have hd := DocAs.mk (d := []) (b := []) (e := []) .none (by simp [Blanks]) ht (by simp [Blanks])
    (linesAs_self (s := [] ++ t ++ []) (by simpa using elementAs_no_cr ht))
  exact ⟨_, hd, parse_docAs hd⟩

/-! ## C156: things outside the root -/

/-- C156 is violated: no file with a comment, a document type or a processing instruction before its root can be
opened. -/
theorem c156_before_fails {d b s u : Str} (hd : DeclAs d) (hb : Blanks b) (hs : StartsMisc s) (hl : LinesAs (b ++ s) u) :
    parseXml (d ++ u) = .error .assertion := parse_misc_before hd hb hs hl

/-- C156 is violated: nor can one with such a thing after it. -/
theorem c156_after_fails {x : Node} {d b t e s u : Str} (hd : DeclAs d) (hb : Blanks b) (hx : ElementAs x t)
    (he : Blanks e) (hs : StartsMisc s) (hl : LinesAs (b ++ t ++ (e ++ s)) u) : parseXml (d ++ u) = .error .assertion :=
  parse_misc_after hd hb hx he hs hl

/-- C156. Nor can one without a root. -/
theorem c156_no_root {d b u : Str} (hd : DeclAs d) (hb : Blanks b) (hl : LinesAs b u) :
    parseXml (d ++ u) = .error .assertion := parse_no_root hd hb hl

/-- C156. With white space alone there, the root is what is opened. -/
theorem c156_blank_partial {x : Node} {d b t e u : Str} (hd : DeclAs d) (hb : Blanks b) (hx : ElementAs x t)
    (he : Blanks e) (hl : LinesAs (b ++ t ++ e) u) : parseXml (d ++ u) = .ok x := parse_docAs (.mk hd hb hx he hl)

/-- A comment makes all the difference. -/
example : parseXml "<?xml version=\"1.0\"?>\n<canvas/>\n".toList = .ok (.tag "canvas" [] []) ∧
    parseXml "<?xml version=\"1.0\"?>\n<!-- by me --><canvas/>\n".toList = .error .assertion ∧
    parseXml "<?xml version=\"1.0\"?>\n<canvas/>\n<!-- by me -->\n".toList = .error .assertion ∧
    parseXml "<?xml version=\"1.0\"?>\n".toList = .error .assertion ∧
    StartsMisc "<!-- by me --><canvas/>".toList ∧ StartsMisc "<?php ?><canvas/>".toList :=
  ⟨by rfl, by rfl, by rfl, by rfl, ⟨_, Or.inl rfl⟩, ⟨_, Or.inr ⟨rfl, by decide⟩⟩⟩

/-! ## C115 -/

mutual
theorem sameButOrder_direct : ∀ {x y : Node}, SameButOrder x y → Direct y → Direct x
  | _, _, .text _, h => h
  | _, _, .tag hp hk, h => ⟨fun k v hv => h.1 k v (hp.mem_iff.1 hv), sameButOrderAll_direct hk h.2⟩

theorem sameButOrderAll_direct : ∀ {xs ys : List Node}, SameButOrderAll xs ys → DirectAll ys → DirectAll xs
  | _, _, .nil, _ => trivial
  | _, _, .cons hx hr, h => ⟨sameButOrder_direct hx h.1, sameButOrderAll_direct hr h.2⟩
end

/-- C115. The documents which survive being saved and opened are just those in which nothing is such that only a
character reference can put it there. -/
theorem c115_survives_iff (F : Fl) {s : Str} {x : Node} (h : parseXml s = .ok x) :
    (∃ y, parseXml (docText F (fun _ => true) x) = .ok y ∧ SameButOrder x y) ↔ Direct x := by
  refine ⟨fun ⟨y, hy, hs⟩ => ?_, fun hd => ?_⟩
  · obtain ⟨hr, hi⟩ := parse_read h
    rw [parse_docText (hr.xmlOk F) hi] at hy
    injection hy with hy
    subst hy
    refine sameButOrder_direct hs (reload_direct F _ ?_)
    cases x with
    | text => cases hi
    | tag => rfl
  · obtain ⟨y, h1, h2, -⟩ := c115_opened_survives_partial F h hd
    exact ⟨y, h1, h2⟩

/-- C115. Those opened from files without character references are such. -/
theorem c115_no_references {s : Str} {x : Node} (hs : ¬ "&#".toList <:+: s) (h : parseXml s = .ok x) : Direct x :=
  (parse_tidy_noRefs hs h).direct

example : ¬ "&#".toList <:+: "<a y='2' x='1'>\n <b>&lt;</b></a>".toList ∧
    (parseXml "<a y='2' x='1'>\n <b>&lt;</b></a>".toList).isOk = true := by decide +kernel

/-- C115. Whatever has been saved once survives from then on. -/
theorem c115_then_survives (F : Fl) {e : Node → Bool} {x y : Node} (hx : x.XmlOk F) (ht : x.isTag = true)
    (h : parseXml (docText F e x) = .ok y) : Direct y := by
  rw [parse_docText hx ht] at h
  injection h with h
  subst h
  refine reload_direct F _ ?_
  cases x with
  | text => cases ht
  | tag => rfl

/-- C115 is violated: a newline in an attribute, which has to be written as a reference, is a space after saving. So is
a carriage return in text a newline. -/
theorem c115_fails : ∃ s x y, parseXml s = .ok x ∧ parseXml (docText double (fun _ => true) x) = .ok y ∧
    ¬ SameButOrder x y ∧ x.attrs.get "desc" = some (.str "one\ntwo".toList) ∧
    y.attrs.get "desc" = some (.str "one two".toList) ∧
    x.kids.map Node.string? = [some "a\rb".toList] ∧ y.kids.map Node.string? = [some "a\nb".toList] := by
  refine ⟨"<layer desc='one&#10;two'><string>a&#xD;b</string></layer>".toList,
    .tag "layer" [("desc", .str "one\ntwo".toList)] [.tag "string" [] [.text "a\rb".toList]],
    .tag "layer" [("desc", .str "one two".toList)] [.tag "string" [] [.text "a\nb".toList]], by rfl, by rfl, ?_, rfl, rfl, rfl, rfl⟩
  intro h
  have hd : Direct (.tag "layer" [("desc", .str "one two".toList)] [.tag "string" [] [.text "a\nb".toList]]) := by
    refine ⟨?_, ⟨?_, ?_, trivial⟩, trivial⟩
    · intro k v hv
      simp only [List.mem_singleton, Prod.mk.injEq, AttrV.str.injEq] at hv
      rw [hv.2]
      decide
    · intro k v hv; cases hv
    · show '\r' ∉ "a\nb".toList
      decide
  have := (sameButOrder_direct h hd).1 "desc" "one\ntwo".toList (by simp)
  revert this
  decide

end Sang
