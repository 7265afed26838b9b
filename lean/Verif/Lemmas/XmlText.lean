import Verif.XmlText
import Mathlib.Data.List.Sort

/-!
# Lemmas: reading back what was written
-/

namespace Sang

/-! ## Line ends -/

theorem newlines_cons {c : Char} (h : c ≠ '\r') (r : Str) : newlines (c :: r) = c :: newlines r := by
  rw [newlines]
  · rintro x rfl; exact absurd rfl h
  · exact h

theorem newlines_cr {r : Str} (h : r.head? ≠ some '\n') : newlines ('\r' :: r) = '\n' :: newlines r := by
  rw [newlines]
  rintro x rfl
  exact h rfl

theorem newlines_plain {p : Str} (h : '\r' ∉ p) (r : Str) : newlines (p ++ r) = p ++ newlines r := by
  induction p with
  | nil => rfl
  | cons c p ih =>
    simp only [List.mem_cons, not_or] at h
    rw [List.cons_append, newlines_cons (Ne.symm h.1), ih h.2]; rfl

/-- A way to write characters that keeps line ends as they are. -/
structure LineSafe (f : Char → Str) : Prop where
  cr : f '\r' = ['\r']
  lf : f '\n' = ['\n']
  noCr : ∀ c, c ≠ '\r' → '\r' ∉ f c
  noLf : ∀ c, c ≠ '\n' → (f c).head? ≠ some '\n'
  ne : ∀ c, f c ≠ []

theorem newlines_flatMap {f : Char → Str} (hf : LineSafe f) {d : Char} (hd : d ≠ '\n') (t : Str) :
    ∀ s : Str, newlines (s.flatMap f ++ d :: t) = (newlines s).flatMap f ++ newlines (d :: t) := by
  intro s
  fun_induction newlines s with
  | case1 => rfl
  | case2 r ih =>
    simp only [List.flatMap_cons, hf.cr, hf.lf, List.cons_append, List.nil_append]
    rw [newlines, ih]
  | case3 r hr ih =>
    simp only [List.flatMap_cons, hf.cr, hf.lf, List.cons_append, List.nil_append]
    rw [newlines_cr, ih]
    match r with
    | [] => simpa using hd
    | c :: r' =>
      have hc : c ≠ '\n' := by rintro rfl; exact hr r' rfl
      have h1 := hf.noLf c hc
      have h2 := hf.ne c
      match hfc : f c with
      | [] => exact absurd hfc h2
      | x :: xs => rw [hfc] at h1; simpa [List.flatMap_cons, hfc] using h1
  | case4 c r h1 h2 ih =>
    have hc : c ≠ '\r' := h2
    simp only [List.flatMap_cons, List.append_assoc]
    rw [newlines_plain (hf.noCr c hc), ih]

theorem mem_newlines {c : Char} : ∀ {s : Str}, c ∈ newlines s → c = '\n' ∨ c ∈ s := by
  intro s
  fun_induction newlines s with
  | case1 => simp
  | case2 r ih => simp only [List.mem_cons]; rintro (h | h); exacts [.inl h, (ih h).imp id fun h => .inr (.inr h)]
  | case3 r hr ih => simp only [List.mem_cons]; rintro (h | h); exacts [.inl h, (ih h).imp id .inr]
  | case4 c r h1 h2 ih =>
    simp only [List.mem_cons]; rintro (h | h); exacts [.inr (.inl h), (ih h).imp id .inr]

/-! ## Writing characters -/

/-- `escapeXml` of one character. -/
def escChar (c : Char) : Str :=
  if c = '&' then "&amp;".toList else if c = '<' then "&lt;".toList
    else if c = '>' then "&gt;".toList else [c]

/-- The same where double quotes are escaped too. -/
def escCharQ (c : Char) : Str := if c = '"' then "&quot;".toList else escChar c

theorem escapeXml_eq (s : Str) : escapeXml s = s.flatMap escChar := by
  rw [escapeXml, List.flatMap_def]; rfl

theorem escapeXml_append (s t : Str) : escapeXml (s ++ t) = escapeXml s ++ escapeXml t := by
  simp only [escapeXml_eq, List.flatMap_append]

theorem escChar_cases (c : Char) : (c = '&' ∧ escChar c = "&amp;".toList) ∨
    (c = '<' ∧ escChar c = "&lt;".toList) ∨ (c = '>' ∧ escChar c = "&gt;".toList) ∨
    (c ≠ '&' ∧ c ≠ '<' ∧ c ≠ '>' ∧ escChar c = [c]) := by
  unfold escChar
  split
  · exact .inl ⟨‹_›, rfl⟩
  split
  · exact .inr (.inl ⟨‹_›, rfl⟩)
  split
  · exact .inr (.inr (.inl ⟨‹_›, rfl⟩))
  · exact .inr (.inr (.inr ⟨‹_›, ‹_›, ‹_›, rfl⟩))

theorem lineSafe_escChar : LineSafe escChar where
  cr := by decide
  lf := by decide
  noCr c h := by
    rcases escChar_cases c with ⟨-, e⟩ | ⟨-, e⟩ | ⟨-, e⟩ | ⟨-, -, -, e⟩ <;> rw [e]
    · decide
    · decide
    · decide
    · simpa using Ne.symm h
  noLf c h := by
    rcases escChar_cases c with ⟨-, e⟩ | ⟨-, e⟩ | ⟨-, e⟩ | ⟨-, -, -, e⟩ <;> rw [e]
    · decide
    · decide
    · decide
    · simpa using h
  ne c := by
    rcases escChar_cases c with ⟨-, e⟩ | ⟨-, e⟩ | ⟨-, e⟩ | ⟨-, -, -, e⟩ <;> rw [e] <;> simp

theorem lineSafe_escCharQ : LineSafe escCharQ where
  cr := by decide
  lf := by decide
  noCr c h := by
    unfold escCharQ; split
    · decide
    · exact lineSafe_escChar.noCr c h
  noLf c h := by
    unfold escCharQ; split
    · decide
    · exact lineSafe_escChar.noLf c h
  ne c := by
    unfold escCharQ; split
    · decide
    · exact lineSafe_escChar.ne c

theorem escapeXml_contains_quote (q : Char) (hq : q = '"' ∨ q = '\'') (s : Str) :
    (escapeXml s).contains q = s.contains q := by
  rw [escapeXml_eq]
  induction s with
  | nil => rfl
  | cons c s ih =>
    rw [List.flatMap_cons, List.contains_append, ih, List.contains_cons]
    congr 1
    rcases escChar_cases c with ⟨rfl, e⟩ | ⟨rfl, e⟩ | ⟨rfl, e⟩ | ⟨-, -, -, e⟩ <;> rw [e] <;>
      rcases hq with rfl | rfl <;>
      first | decide | simp only [List.contains_cons, List.contains_nil, Bool.or_false]

/-- How a value is written: between quotes which don't occur in what is written. -/
theorem quoteAttr_escape (s : Str) : ∃ (q : Char) (f : Char → Str), (q = '"' ∨ q = '\'') ∧
    (f = escChar ∨ f = escCharQ) ∧ (∀ c ∈ s, f c = [c] → c ≠ q) ∧
    quoteAttr (escapeXml s) = q :: s.flatMap f ++ [q] := by
  unfold quoteAttr
  rw [escapeXml_contains_quote _ (.inl rfl), escapeXml_contains_quote _ (.inr rfl)]
  by_cases h1 : s.contains '"' = true
  · rw [if_pos h1]
    by_cases h2 : s.contains '\'' = true
    · rw [if_pos h2]
      refine ⟨'"', escCharQ, .inl rfl, .inr rfl, ?_, ?_⟩
      · rintro c - h rfl
        revert h; decide
      · congr 1; congr 1
        rw [escapeXml_eq, List.flatMap_assoc]
        congr 1
        funext c
        unfold escCharQ
        rcases escChar_cases c with ⟨rfl, e⟩ | ⟨rfl, e⟩ | ⟨rfl, e⟩ | ⟨-, -, -, e⟩
        · decide
        · decide
        · decide
        · rw [e]; simp
    · rw [if_neg h2]
      refine ⟨'\'', escChar, .inr rfl, .inl rfl, ?_, by rw [escapeXml_eq]⟩
      rintro c hc - rfl
      exact h2 (by simpa using hc)
  · rw [if_neg h1]
    refine ⟨'"', escChar, .inl rfl, .inl rfl, ?_, by rw [escapeXml_eq]⟩
    rintro c hc - rfl
    exact h1 (by simpa using hc)

/-- Every written character is itself, or a reference to it. -/
theorem esc_cases {f : Char → Str} (hf : f = escChar ∨ f = escCharQ) (c : Char) :
    (f c = [c] ∧ c ≠ '&' ∧ c ≠ '<') ∨
      ∃ r, f c = '&' :: r ++ [';'] ∧ ';' ∉ r ∧ xmlEntity r = some c := by
  have key : (escChar c = [c] ∧ c ≠ '&' ∧ c ≠ '<') ∨
      ∃ r, escChar c = '&' :: r ++ [';'] ∧ ';' ∉ r ∧ xmlEntity r = some c := by
    rcases escChar_cases c with ⟨rfl, e⟩ | ⟨rfl, e⟩ | ⟨rfl, e⟩ | ⟨h1, h2, -, e⟩
    · exact .inr ⟨"amp".toList, by rw [e]; decide, by decide, by decide⟩
    · exact .inr ⟨"lt".toList, by rw [e]; decide, by decide, by decide⟩
    · exact .inr ⟨"gt".toList, by rw [e]; decide, by decide, by decide⟩
    · exact .inl ⟨e, h1, h2⟩
  rcases hf with rfl | rfl
  · exact key
  · unfold escCharQ
    split
    · rename_i h; subst h
      exact .inr ⟨"quot".toList, by decide, by decide, by decide⟩
    · exact key

/-! ## Running -/

theorem run_cons {m m' : XMach} {c : Char} (h : m.step c = .ok m') (r : Str) :
    m.run (c :: r) = m'.run r := by rw [XMach.run, h]

theorem run_textRef {stk d root} : ∀ (r acc : Str), ';' ∉ r → ∀ t,
    XMach.run ⟨stk, d, .textRef acc, root⟩ (r ++ t) = XMach.run ⟨stk, d, .textRef (acc ++ r), root⟩ t := by
  intro r
  induction r with
  | nil => intro acc _ t; simp
  | cons c r ih =>
    intro acc h t
    simp only [List.mem_cons, not_or] at h
    rw [List.cons_append, run_cons (m' := ⟨stk, d, .textRef (acc ++ [c]), root⟩), ih _ h.2]
    · simp
    · simp only [XMach.step, if_neg (Ne.symm h.1)]

theorem run_attrRef {stk d root n as k q v} : ∀ (r acc : Str), ';' ∉ r → ∀ t,
    XMach.run ⟨stk, d, .attrRef n as k q v acc, root⟩ (r ++ t) =
      XMach.run ⟨stk, d, .attrRef n as k q v (acc ++ r), root⟩ t := by
  intro r
  induction r with
  | nil => intro acc _ t; simp
  | cons c r ih =>
    intro acc h t
    simp only [List.mem_cons, not_or] at h
    rw [List.cons_append, run_cons (m' := ⟨stk, d, .attrRef n as k q v (acc ++ [c]), root⟩), ih _ h.2]
    · simp
    · simp only [XMach.step, if_neg (Ne.symm h.1)]

/-- Escaped text. -/
theorem run_text {stk root} : ∀ (s d : Str), s.all xmlChar = true → ∀ t,
    XMach.run ⟨stk, d, .text, root⟩ (s.flatMap escChar ++ t) = XMach.run ⟨stk, d ++ s, .text, root⟩ t := by
  intro s
  induction s with
  | nil => intro d _ t; simp
  | cons c s ih =>
    intro d h t
    simp only [List.all_cons, Bool.and_eq_true] at h
    rw [List.flatMap_cons, List.append_assoc]
    have e : d ++ c :: s = (d ++ [c]) ++ s := by simp
    rw [e, ← ih (d ++ [c]) h.2]
    rcases esc_cases (.inl rfl) c with ⟨e, h1, h2⟩ | ⟨r, e, h1, h2⟩
    · rw [e, List.singleton_append]
      apply run_cons
      simp only [XMach.step, if_neg h1, if_neg h2, h.1, if_true]
    · rw [e]
      simp only [List.cons_append, List.append_assoc, List.nil_append]
      rw [run_cons (m' := ⟨stk, d, .textRef [], root⟩), run_textRef _ _ h1, List.nil_append]
      · apply run_cons
        simp only [XMach.step, if_true, h2]
      · rfl

/-- An escaped value. -/
theorem run_val {stk d root n as k q} {f : Char → Str} (hf : f = escChar ∨ f = escCharQ)
    (hq : q = '"' ∨ q = '\'') :
    ∀ (s v : Str), s.all xmlChar = true → (∀ c ∈ s, f c = [c] → c ≠ q) → ∀ t,
    XMach.run ⟨stk, d, .attrVal n as k q v, root⟩ (s.flatMap f ++ t) =
      XMach.run ⟨stk, d, .attrVal n as k q (v ++ s.map fun c => if c = '\n' ∨ c = '\t' then ' ' else c),
        root⟩ t := by
  intro s
  induction s with
  | nil => intro v _ _ t; simp
  | cons c s ih =>
    intro v h hne t
    simp only [List.all_cons, Bool.and_eq_true] at h
    rw [List.flatMap_cons, List.append_assoc]
    have e : v ++ (c :: s).map (fun c => if c = '\n' ∨ c = '\t' then ' ' else c) =
        (v ++ [if c = '\n' ∨ c = '\t' then ' ' else c]) ++
          s.map (fun c => if c = '\n' ∨ c = '\t' then ' ' else c) := by simp
    rw [e, ← ih _ h.2 (fun c hc => hne c (List.mem_cons_of_mem _ hc))]
    rcases esc_cases hf c with ⟨e, h1, h2⟩ | ⟨r, e, h1, h2⟩
    · have hcq := hne c List.mem_cons_self e
      rw [e, List.singleton_append]
      apply run_cons
      simp only [XMach.step, if_neg hcq, if_neg h1, if_neg h2, h.1, if_true]
    · rw [e]
      simp only [List.cons_append, List.append_assoc, List.nil_append]
      rw [run_cons (m' := ⟨stk, d, .attrRef n as k q v [], root⟩), run_attrRef _ _ h1, List.nil_append]
      · apply run_cons
        have hc : ¬ (c = '\n' ∨ c = '\t') := by
          have h' : (f c).head? = some '&' := by rw [e]; rfl
          rintro (rfl | rfl) <;> rcases hf with rfl | rfl <;> revert h' <;> decide
        simp only [XMach.step, if_true, h2, if_neg hc]
      · have : '&' ≠ q := by rcases hq with rfl | rfl <;> decide
        simp only [XMach.step, if_neg this, if_true]

theorem not_name_eq {c : Char} (h : nameChar c = true) : c ≠ '=' ∧ c ≠ '/' ∧ c ≠ '>' ∧ c ≠ '\r' := by
  refine ⟨?_, ?_, ?_, ?_⟩ <;> rintro rfl <;> revert h <;> decide

theorem name_no_cr {s : Str} (h : s.all nameChar = true) : '\r' ∉ s := fun hc =>
  (not_name_eq (List.all_eq_true.mp h _ hc)).2.2.2 rfl

theorem run_openName {stk d root} : ∀ (s acc : Str), s.all nameChar = true → ∀ t,
    XMach.run ⟨stk, d, .openName acc, root⟩ (s ++ t) = XMach.run ⟨stk, d, .openName (acc ++ s), root⟩ t := by
  intro s
  induction s with
  | nil => intro acc _ t; simp
  | cons c s ih =>
    intro acc h t
    simp only [List.all_cons, Bool.and_eq_true] at h
    rw [List.cons_append, run_cons (m' := ⟨stk, d, .openName (acc ++ [c]), root⟩), ih _ h.2]
    · simp
    · simp only [XMach.step, h.1, if_true]

theorem run_closeName {stk d root} : ∀ (s acc : Str), s.all nameChar = true → ∀ t,
    XMach.run ⟨stk, d, .closeName acc, root⟩ (s ++ t) =
      XMach.run ⟨stk, d, .closeName (acc ++ s), root⟩ t := by
  intro s
  induction s with
  | nil => intro acc _ t; simp
  | cons c s ih =>
    intro acc h t
    simp only [List.all_cons, Bool.and_eq_true] at h
    rw [List.cons_append, run_cons (m' := ⟨stk, d, .closeName (acc ++ [c]), root⟩), ih _ h.2]
    · simp
    · simp only [XMach.step, h.1, if_neg (not_name_eq h.1).2.2.1, if_true]

theorem run_attrName {stk d root n as} : ∀ (s acc : Str), s.all nameChar = true → ∀ t,
    XMach.run ⟨stk, d, .attrName n as acc, root⟩ (s ++ t) =
      XMach.run ⟨stk, d, .attrName n as (acc ++ s), root⟩ t := by
  intro s
  induction s with
  | nil => intro acc _ t; simp
  | cons c s ih =>
    intro acc h t
    simp only [List.all_cons, Bool.and_eq_true] at h
    rw [List.cons_append, run_cons (m' := ⟨stk, d, .attrName n as (acc ++ [c]), root⟩), ih _ h.2]
    · simp
    · simp only [XMach.step, h.1, if_neg (not_name_eq h.1).1, if_true]

/-! ## Documents that can be written -/

/-- A name XML allows. -/
def NameOk (s : String) : Prop := s.toList ≠ [] ∧ s.toList.all nameChar = true

/-- Attributes which can be written: different names, permitted characters. -/
def AttrsOk (F : Fl) (a : Attrs) : Prop :=
  (a.map Prod.fst).Nodup ∧ ∀ p ∈ a, NameOk p.1 ∧ (p.2.str' F).all xmlChar = true

mutual
/-- An element which can be written. -/
def Node.XmlOk (F : Fl) : Node → Prop
  | .text s => s.all xmlChar = true
  | .tag n a ks => NameOk n ∧ AttrsOk F a ∧ Node.XmlOkKids F ks

/-- So can its children. -/
def Node.XmlOkKids (F : Fl) : List Node → Prop
  | [] => True
  | x :: r => x.XmlOk F ∧ Node.XmlOkKids F r
end

mutual
/-- The attributes in the order in which they are written. -/
def Node.sorted : Node → Node
  | .text s => .text s
  | .tag n a ks => .tag n (sortAttrs a) (Node.sortedKids ks)

/-- In the children. -/
def Node.sortedKids : List Node → List Node
  | [] => []
  | x :: r => x.sorted :: Node.sortedKids r
end

theorem newlines_xmlChar {s : Str} (h : s.all xmlChar = true) : (newlines s).all xmlChar = true := by
  rw [List.all_eq_true] at h ⊢
  intro c hc
  rcases mem_newlines hc with rfl | hc
  · decide
  · exact h c hc

/-- The attributes as they are read. -/
def readAttrs (F : Fl) (a : Attrs) : Attrs := a.map fun p => (p.1, .str (attrSpaces (p.2.str' F)))

/-- The state at the end of a name or a value. -/
inductive AtGap (n : Str) : Attrs → XSt → Prop
  | name : AtGap n [] (.openName n)
  | val (as) : AtGap n as (.afterVal n as)

theorem AtGap.step {n as st} (h : AtGap n as st) (stk d root c) (hc : nameChar c = false) :
    XMach.step ⟨stk, d, st, root⟩ c = XMach.tagChar ⟨stk, d, st, root⟩ n as c := by
  cases h
  · simp only [XMach.step, hc, Bool.false_eq_true, if_false]
  · rfl

theorem run_attr {F : Fl} {stk d root n as st} (hst : AtGap n as st) {p : String × AttrV}
    (hk : NameOk p.1) (hv : (p.2.str' F).all xmlChar = true) (hnew : p.1 ∉ as.map Prod.fst) (t : Str) :
    XMach.run ⟨stk, d, st, root⟩ (newlines (attrText F p ++ t)) =
      XMach.run ⟨stk, d, .afterVal n (as ++ [(p.1, .str (attrSpaces (p.2.str' F)))]), root⟩ (newlines t) := by
  obtain ⟨q, f, hq, hf, hne, e⟩ := quoteAttr_escape (p.2.str' F)
  have hfs : LineSafe f := by rcases hf with rfl | rfl; exacts [lineSafe_escChar, lineSafe_escCharQ]
  have hq1 : q ≠ '\r' := by rcases hq with rfl | rfl <;> decide
  have hq2 : q ≠ '\n' := by rcases hq with rfl | rfl <;> decide
  rw [attrText, e]
  simp only [List.append_assoc, List.cons_append, List.nil_append]
  rw [newlines_cons (by decide), newlines_plain (name_no_cr hk.2), newlines_cons (by decide),
    newlines_cons hq1, newlines_flatMap hfs hq2, newlines_cons hq1]
  rw [run_cons (m' := ⟨stk, d, .inTag n as, root⟩) (by
    rw [hst.step _ _ _ _ (by decide)]; rfl)]
  obtain ⟨c, r, hcr⟩ : ∃ c r, p.1.toList = c :: r := List.exists_cons_of_ne_nil hk.1
  have hall := hk.2
  rw [hcr] at hall
  simp only [List.all_cons, Bool.and_eq_true] at hall
  rw [hcr, List.cons_append, run_cons (m' := ⟨stk, d, .attrName n as [c], root⟩) (by
    simp only [XMach.step, hall.1, if_true])]
  rw [run_attrName _ _ hall.2, run_cons (m' := ⟨stk, d, .attrQ n as ([c] ++ r), root⟩) rfl,
    run_cons (m' := ⟨stk, d, .attrVal n as ([c] ++ r) q [], root⟩) (by
      simp only [XMach.step, if_pos hq])]
  rw [run_val hf hq _ _ (newlines_xmlChar hv)]
  · have e1 : String.ofList ([c] ++ r) = p.1 := by
      rw [List.singleton_append, ← hcr, String.ofList_toList]
    rw [run_cons]
    have hcn : (as.map Prod.fst).contains p.1 = false := by simpa using hnew
    simp only [XMach.step, if_true, e1, hcn, Bool.false_eq_true, if_false, List.nil_append]
    rfl
  · intro c' hc' he
    rcases mem_newlines hc' with rfl | hc'
    · exact Ne.symm hq2
    · exact hne c' hc' he

theorem run_attrs {F : Fl} {stk d root n} : ∀ (a as : Attrs) (st), AtGap n as st →
    ((as.map Prod.fst) ++ a.map Prod.fst).Nodup →
    (∀ p ∈ a, NameOk p.1 ∧ (p.2.str' F).all xmlChar = true) → ∀ t,
    ∃ st', AtGap n (as ++ readAttrs F a) st' ∧
      XMach.run ⟨stk, d, st, root⟩ (newlines (a.flatMap (attrText F) ++ t)) =
        XMach.run ⟨stk, d, st', root⟩ (newlines t) := by
  intro a
  induction a with
  | nil => intro as st h _ _ t; exact ⟨st, by simpa [readAttrs] using h, by simp⟩
  | cons p a ih =>
    intro as st h hnd hok t
    have hnew : p.1 ∉ as.map Prod.fst := by
      rw [List.map_cons, List.nodup_append] at hnd
      intro hm
      exact hnd.2.2 _ hm _ List.mem_cons_self rfl
    obtain ⟨st', h1, h2⟩ := ih (as ++ [(p.1, .str (attrSpaces (p.2.str' F)))])
      (.afterVal n (as ++ [(p.1, .str (attrSpaces (p.2.str' F)))])) (.val _) (by simpa using hnd)
      (fun q hq => hok q (List.mem_cons_of_mem _ hq)) t
    refine ⟨st', by simpa [readAttrs] using h1, ?_⟩
    rw [List.flatMap_cons, List.append_assoc, run_attr h (hok p List.mem_cons_self).1
      (hok p List.mem_cons_self).2 hnew, h2]

theorem sortAttrs_perm (a : Attrs) : (sortAttrs a).Perm a := List.perm_insertionSort _ _

theorem AttrsOk.sort {F : Fl} {a : Attrs} (h : AttrsOk F a) : AttrsOk F (sortAttrs a) :=
  ⟨((sortAttrs_perm a).map _).nodup_iff.mpr h.1, fun p hp => h.2 p ((sortAttrs_perm a).mem_iff.mp hp)⟩

theorem readText_eq (s : Str) : readText s = textRun (newlines s) := rfl

/-- A run of text in an element, and the `<` after it. -/
theorem run_data {n a done stk root} {acc : Str} (h : acc.all xmlChar = true) (t : Str) :
    XMach.run ⟨(n, a, done) :: stk, [], .text, root⟩ (newlines (escapeXml acc ++ '<' :: t)) =
      XMach.run ⟨(n, a, done ++ readText acc) :: stk, [], .lt, root⟩ (newlines t) := by
  rw [escapeXml_eq, newlines_flatMap lineSafe_escChar (by decide), newlines_cons (by decide),
    run_text _ _ (newlines_xmlChar h)]
  apply run_cons
  rfl

mutual
theorem run_node {F : Fl} {e : Node → Bool} : ∀ (x : Node), x.XmlOk F → x.isTag = true →
    ∀ (m m' : XMach) (t : Str), m.st = .lt → m.data = [] →
      m.place (x.sorted.reload F) = .ok m' →
      m.run (newlines ((x.xml F e).tail ++ t)) = m'.run (newlines t)
  | .text s, _, ht, _, _, _, _, _, _ => by simp [Node.isTag] at ht
  | .tag n a ks, hok, _, ⟨stk, d, st, root⟩, m', t, hst, hd, hp => by
    rw [Node.XmlOk] at hok
    obtain ⟨hn, ha, hks⟩ := hok
    simp only at hst hd
    subst hst hd
    obtain ⟨c, r, hcr⟩ : ∃ c r, n.toList = c :: r := List.exists_cons_of_ne_nil hn.1
    have hall := hn.2
    rw [hcr] at hall
    simp only [List.all_cons, Bool.and_eq_true] at hall
    rw [Node.xml]
    simp only [List.cons_append, List.tail_cons, List.append_assoc]
    rw [newlines_plain (name_no_cr hn.2), hcr, List.cons_append,
      run_cons (m' := ⟨stk, [], .openName [c], root⟩) (by
        simp only [XMach.step, if_neg (not_name_eq hall.1).2.1, hall.1, if_true]),
      run_openName _ _ hall.2, List.singleton_append, ← hcr]
    obtain ⟨st', h1, h2⟩ := run_attrs (F := F) (stk := stk) (d := []) (root := root) (n := n.toList)
      (sortAttrs a) [] _ .name (by simpa using ha.sort.1) ha.sort.2
      ((if ks.isEmpty && e (.tag n a ks) then "/>".toList
      else '>' :: (Node.xmlKids F e ks ++ '<' :: '/' :: (n.toList ++ ['>']))) ++ t)
    simp only [hcr] at h2 ⊢
    rw [h2]
    rw [List.nil_append] at h1
    have hsp : XMach.place (.tag n (readAttrs F (sortAttrs a)) (Node.reloadKids F [] (Node.sortedKids ks)))
        ⟨stk, [], .lt, root⟩ = .ok m' := by
      rw [← hp, Node.sorted, Node.reload]; rfl
    split
    · rename_i hemp
      have hk : ks = [] := by
        simp only [Bool.and_eq_true] at hemp
        exact List.isEmpty_iff.mp hemp.1
      subst hk
      rw [newlines_plain (by decide)]
      change XMach.run _ ('/' :: '>' :: newlines t) = _
      rw [run_cons (m' := ⟨stk, [], .slash n.toList (readAttrs F (sortAttrs a)), root⟩) (by
        rw [h1.step _ _ _ _ (by decide)]; rfl)]
      apply run_cons
      simp only [XMach.step, if_true, String.ofList_toList]
      rw [← hsp]
      rfl
    · simp only [List.cons_append, List.append_assoc]
      rw [newlines_cons (by decide), run_cons (m' :=
        ⟨(n, readAttrs F (sortAttrs a), []) :: stk, [], .text, root⟩) (by
          rw [h1.step _ _ _ _ (by decide)]
          simp only [XMach.tagChar, String.ofList_toList]
          rfl)]
      have := run_kids (F := F) (e := e) ks hks [] (by rfl) n (readAttrs F (sortAttrs a)) [] stk root
        ('/' :: (c :: r ++ '>' :: t))
      simp only [escapeXml, List.map_nil, List.flatten_nil, List.nil_append] at this
      simp only [List.cons_append, List.nil_append] at this ⊢
      rw [this, newlines_cons (by decide), run_cons (m' := ⟨(n, readAttrs F (sortAttrs a),
        Node.reloadKids F [] (Node.sortedKids ks)) :: stk, [], .closeName [], root⟩) rfl]
      have hcl := newlines_plain (name_no_cr hn.2) ('>' :: t)
      rw [hcr] at hcl
      simp only [List.cons_append] at hcl
      rw [hcl, newlines_cons (by decide)]
      have hrc := run_closeName (stk := (n, readAttrs F (sortAttrs a),
        Node.reloadKids F [] (Node.sortedKids ks)) :: stk) (d := []) (root := root) n.toList [] hn.2
        ('>' :: newlines t)
      rw [hcr] at hrc
      simp only [List.cons_append, List.nil_append] at hrc
      rw [hrc]
      apply run_cons
      simp only [XMach.step, XMach.close, if_true]
      rw [← hcr, String.ofList_toList, if_pos rfl, ← hsp]
      unfold XMach.place
      cases stk with
      | cons => rfl
      | nil => cases root <;> rfl

theorem run_kids {F : Fl} {e : Node → Bool} : ∀ (ks : List Node), Node.XmlOkKids F ks →
    ∀ (acc : Str), acc.all xmlChar = true → ∀ n a done stk root t,
      XMach.run ⟨(n, a, done) :: stk, [], .text, root⟩
        (newlines (escapeXml acc ++ (Node.xmlKids F e ks ++ '<' :: t))) =
      XMach.run ⟨(n, a, done ++ Node.reloadKids F acc (Node.sortedKids ks)) :: stk, [], .lt, root⟩
        (newlines t)
  | [], _, acc, hacc, n, a, done, stk, root, t => by
    rw [Node.xmlKids, List.nil_append, run_data hacc, Node.sortedKids, Node.reloadKids]
  | .text s :: r, hok, acc, hacc, n, a, done, stk, root, t => by
    rw [Node.XmlOkKids, Node.XmlOk] at hok
    have := run_kids (F := F) (e := e) r hok.2 (acc ++ s) (by
      rw [List.all_append, hacc, hok.1]; rfl) n a done stk root t
    rw [Node.xmlKids, Node.xml, Node.sortedKids, Node.sorted, Node.reloadKids, ← this, escapeXml_append]
    simp only [List.append_assoc]
  | .tag n' a' ks' :: r, hok, acc, hacc, n, a, done, stk, root, t => by
    rw [Node.XmlOkKids] at hok
    have hx : Node.xml F e (.tag n' a' ks') = '<' :: (Node.xml F e (.tag n' a' ks')).tail := by
      rw [Node.xml]; simp
    rw [Node.xmlKids, hx]
    simp only [List.cons_append, List.append_assoc]
    rw [run_data hacc, run_node (.tag n' a' ks') hok.1 rfl _ ⟨(n, a, done ++ readText acc ++
      [(Node.sorted (.tag n' a' ks')).reload F]) :: stk, [], .text, root⟩ _ rfl rfl rfl]
    have := run_kids (F := F) (e := e) r hok.2 [] rfl n a (done ++ readText acc ++
      [(Node.sorted (.tag n' a' ks')).reload F]) stk root t
    simp only [escapeXml, List.map_nil, List.flatten_nil, List.nil_append] at this
    rw [this, Node.sortedKids, Node.sorted, Node.reloadKids]
    simp only [List.append_assoc, List.singleton_append]
end

theorem decl_chars : "<?xml version=\"1.0\" encoding=\"utf-8\"?>\n".toList =
    ['<', '?', 'x', 'm', 'l', ' ', 'v', 'e', 'r', 's', 'i', 'o', 'n', '=', '"', '1', '.', '0', '"',
      ' ', 'e', 'n', 'c', 'o', 'd', 'i', 'n', 'g', '=', '"', 'u', 't', 'f', '-', '8', '"', '?', '>',
      '\n'] := by decide +kernel

theorem decl_start : "<?xml".toList = ['<', '?', 'x', 'm', 'l'] := by decide +kernel

theorem dropDecl_chars (y : Str) : dropDecl ("<?xml version=\"1.0\" encoding=\"utf-8\"?>\n".toList ++ y) =
    '\n' :: y := by
  rw [decl_chars]
  unfold dropDecl
  rw [decl_start]
  rfl

theorem dropDecl_docText (F : Fl) (e : Node → Bool) (x : Node) :
    dropDecl (docText F e x) = '\n' :: x.xml F e := dropDecl_chars _

/-- Reading what was written. -/
theorem parse_docText {F : Fl} {e : Node → Bool} {x : Node} (h : x.XmlOk F) (ht : x.isTag = true) :
    parseXml (docText F e x) = .ok (x.sorted.reload F) := by
  have hx : x.xml F e = '<' :: (x.xml F e).tail := by
    cases x with
    | text => simp [Node.isTag] at ht
    | tag n a ks => rw [Node.xml]; simp
  rw [parseXml, dropDecl_docText, newlines_cons (by decide), hx, newlines_cons (by decide)]
  rw [run_cons (m' := ⟨[], ['\n'], .text, none⟩) rfl, run_cons (m' := ⟨[], [], .lt, none⟩) rfl]
  have := run_node (F := F) (e := e) x h ht ⟨[], [], .lt, none⟩
    ⟨[], [], .text, some (x.sorted.reload F)⟩ [] rfl rfl rfl
  rw [List.append_nil] at this
  rw [this]
  rfl

/-! ## Bytes -/

theorem unUtf8_utf8 (s : Str) : unUtf8 (utf8 s) = .ok s := by
  have h : ByteArray.mk (utf8 s).toArray = s.utf8Encode := by
    rw [utf8, List.utf8Encode]
    exact ByteArray.ext (by simp)
  rw [unUtf8, h, List.utf8Decode?_utf8Encode]

end Sang
