import Verif.Lemmas.Reload
import Verif.Lemmas.XmlText
import Verif.Lemmas.XmlParse
import Verif.Props.Subscripts
import Mathlib.Data.List.TakeWhile

/-! Helper lemmas: how values read after their document has been saved and opened. -/

namespace Sang
open Spec

/-- An element of a document as it is in the document that is opened after saving. -/
def Node.opened (F : Fl) (n : Node) : Node := n.sorted.reload F

theorem sortedKids_map (ks : List Node) : Node.sortedKids ks = ks.map Node.sorted := by
  induction ks with
  | nil => rfl
  | cons x r ih => rw [Node.sortedKids, ih]; rfl

theorem sorted_name (n : Node) : n.sorted.name = n.name := by cases n <;> rfl

theorem filter_map_sorted (l : List Node) :
    (l.map Node.sorted).filter Node.isTag = (l.filter Node.isTag).map Node.sorted := by
  rw [List.filter_map]
  congr 1
  apply List.filter_congr
  intro x _
  exact sorted_isTag x

theorem sorted_tagKids (n : Node) : n.sorted.tagKids = n.tagKids.map Node.sorted := by
  cases n with
  | text s => rfl
  | tag k a ks =>
    simp only [Node.sorted, Node.tagKids, Node.kids, sortedKids_map, filter_map_sorted]

theorem XmlOk.get_sorted {F : Fl} {n : Node} (h : n.XmlOk F) (k : String) :
    n.sorted.attrs.get k = n.attrs.get k := by
  cases n with
  | text s => rfl
  | tag m a ks =>
    rw [Node.sorted, Node.attrs, Node.attrs, Attrs.get, Attrs.get]
    exact (lookup_perm h.2.1.1 (sortAttrs_perm a).symm k).symm

mutual
theorem subtree_sorted : ∀ n : Node, n.sorted.subtree = n.subtree.map Node.sorted
  | .text s => rfl
  | .tag m a ks => by
    rw [Node.sorted, Node.subtree, Node.subtree, nodesIn_sorted ks]; rfl
theorem nodesIn_sorted : ∀ ks : List Node, Node.nodesIn (Node.sortedKids ks) = (Node.nodesIn ks).map Node.sorted
  | [] => rfl
  | x :: r => by
    rw [Node.sortedKids, Node.nodesIn, Node.nodesIn, subtree_sorted x, nodesIn_sorted r, List.map_append]
end

theorem sorted_descTags (n : Node) : n.sorted.descTags = n.descTags.map Node.sorted := by
  cases n with
  | text s => rfl
  | tag m a ks =>
    simp only [Node.sorted, Node.descTags, Node.kids, nodesIn_sorted, filter_map_sorted]

mutual
theorem subtree_reload (F : Fl) : ∀ n : Node, n.isTag = true →
    (n.reload F).subtree.filter Node.isTag = (n.subtree.filter Node.isTag).map (Node.reload F)
  | .text s, h => by simp [Node.isTag] at h
  | .tag m a ks, _ => by
    rw [Node.subtree, List.filter_cons_of_pos rfl, List.map_cons]
    rw [show Node.reload F (.tag m a ks) = .tag m (a.map fun p => (p.1, .str (attrSpaces (p.2.str' F))))
      (Node.reloadKids F [] ks) by rw [Node.reload]]
    rw [Node.subtree, List.filter_cons_of_pos rfl, nodesIn_reload F ks []]
theorem nodesIn_reload (F : Fl) : ∀ (ks : List Node) (acc : Str),
    (Node.nodesIn (Node.reloadKids F acc ks)).filter Node.isTag =
      ((Node.nodesIn ks).filter Node.isTag).map (Node.reload F)
  | [], acc => by
    rw [Node.reloadKids, Node.nodesIn]
    simp only [readText]
    split
    · rfl
    · split <;> rfl
  | .text s :: r, acc => by
    rw [Node.reloadKids, nodesIn_reload F r _, Node.nodesIn, Node.subtree]
    simp [Node.isTag]
  | .tag m a ks :: r, acc => by
    have happ : ∀ l l' : List Node, Node.nodesIn (l ++ l') = Node.nodesIn l ++ Node.nodesIn l' := by
      intro l l'
      induction l with
      | nil => rfl
      | cons x t ih => rw [List.cons_append, Node.nodesIn, ih, Node.nodesIn, List.append_assoc]
    have hno : (Node.nodesIn (readText acc)).filter Node.isTag = [] := by
      simp only [readText]
      split
      · rfl
      · split <;> rfl
    rw [Node.reloadKids, happ, List.filter_append, hno, List.nil_append, Node.nodesIn, List.filter_append,
      subtree_reload F (.tag m a ks) rfl, nodesIn_reload F r [], Node.nodesIn, List.filter_append, List.map_append]
end

theorem reload_descTags (F : Fl) (n : Node) : (n.reload F).descTags = n.descTags.map (Node.reload F) := by
  cases n with
  | text s => rfl
  | tag m a ks =>
    rw [show Node.reload F (.tag m a ks) = .tag m (a.map fun p => (p.1, .str (attrSpaces (p.2.str' F))))
      (Node.reloadKids F [] ks) by rw [Node.reload]]
    exact nodesIn_reload F ks []

theorem opened_name (F : Fl) (n : Node) : (n.opened F).name = n.name := by
  rw [Node.opened, reload_name, sorted_name]

theorem opened_isTag (F : Fl) (n : Node) : (n.opened F).isTag = n.isTag := by
  rw [Node.opened, reload_isTag, sorted_isTag]

theorem opened_tagKids (F : Fl) (n : Node) : (n.opened F).tagKids = n.tagKids.map (Node.opened F) := by
  rw [Node.opened, reload_tagKids, sorted_tagKids, List.map_map]; rfl

theorem opened_descTags (F : Fl) (n : Node) : (n.opened F).descTags = n.descTags.map (Node.opened F) := by
  rw [Node.opened, reload_descTags, sorted_descTags, List.map_map]; rfl

theorem opened_findAll (F : Fl) (n : Node) (k : String) :
    (n.opened F).findAll k = (n.findAll k).map (Node.opened F) := by
  rw [Node.findAll, opened_descTags, Node.findAll, List.filter_map]
  congr 1
  apply List.filter_congr
  intro x _
  simp [opened_name]

theorem opened_find (F : Fl) (n : Node) (k : String) :
    (n.opened F).find k = (n.find k).map (Node.opened F) := by
  rw [Node.find, opened_findAll, Node.find, List.head?_map]

theorem opened_get {F : Fl} {n : Node} (h : n.XmlOk F) (k : String) :
    (n.opened F).attrs.get k = (n.attrs.get k).map fun a => .str (attrSpaces (a.str' F)) := by
  rw [Node.opened, reload_get, XmlOk.get_sorted h]

/-! ### the parts of a document that can be written -/

theorem xmlOkKids_iff {F : Fl} {ks : List Node} : Node.XmlOkKids F ks ↔ ∀ x ∈ ks, x.XmlOk F := by
  induction ks with
  | nil => simp [Node.XmlOkKids]
  | cons x r ih => simp [Node.XmlOkKids, ih]

theorem xmlOk_tagKids {F : Fl} {n : Node} (h : n.XmlOk F) : ∀ x ∈ n.tagKids, x.XmlOk F := by
  cases n with
  | text s => intro x hx; simp [Node.tagKids, Node.kids] at hx
  | tag m a ks =>
    intro x hx
    exact xmlOkKids_iff.1 h.2.2 x (List.mem_filter.1 hx).1

mutual
theorem xmlOk_subtree {F : Fl} : ∀ n : Node, n.XmlOk F → ∀ x ∈ n.subtree, x.XmlOk F
  | .text s, h, x, hx => by
    rw [Node.subtree, List.mem_singleton] at hx; rw [hx]; exact h
  | .tag m a ks, h, x, hx => by
    rw [Node.subtree] at hx
    rcases List.mem_cons.mp hx with rfl | hx
    · exact h
    · exact xmlOk_nodesIn ks h.2.2 x hx
theorem xmlOk_nodesIn {F : Fl} : ∀ ks : List Node, Node.XmlOkKids F ks → ∀ x ∈ Node.nodesIn ks, x.XmlOk F
  | [], _, x, hx => by simp [Node.nodesIn] at hx
  | y :: r, h, x, hx => by
    rw [Node.nodesIn] at hx
    rcases List.mem_append.mp hx with hx | hx
    · exact xmlOk_subtree y h.1 x hx
    · exact xmlOk_nodesIn r h.2 x hx
end

theorem xmlOk_descTags {F : Fl} {n : Node} (h : n.XmlOk F) : ∀ x ∈ n.descTags, x.XmlOk F := by
  cases n with
  | text s => intro x hx; simp [Node.descTags, Node.kids, Node.nodesIn] at hx
  | tag m a ks =>
    intro x hx
    exact xmlOk_nodesIn ks h.2.2 x (List.mem_filter.1 hx).1

/-! ### numbers in text -/

/-- A character of a number. -/
def numeralChar (c : Char) : Bool :=
  isDig c || c == '_' || c == '.' || c == '-' || c == '+' || c == 'e' || c == 'E'

theorem numeralChar_noSpace {c : Char} (h : numeralChar c = true) : isSpace c = false := by
  simp only [numeralChar, Bool.or_eq_true, beq_iff_eq] at h
  rcases h with (((((h | rfl) | rfl) | rfl) | rfl) | rfl) | rfl
  · simp only [isDig, Bool.and_eq_true, decide_eq_true_eq] at h
    simp only [isSpace]
    simp
    omega
  all_goals decide

theorem dropUnderscores_chars {s t : Str} {p : Option Char} (h : dropUnderscores p s = some t) :
    ∀ c ∈ s, c = '_' ∨ c ∈ t := by
  induction s generalizing p t with
  | nil => simp
  | cons c r ih =>
    intro d hd
    by_cases hc : c = '_'
    · subst hc
      rw [dropUnderscores.eq_def] at h
      simp only at h
      rcases List.mem_cons.mp hd with rfl | hd
      · exact .inl rfl
      · split at h
        · split at h
          · exact ih h d hd
          · cases h
        · cases h
    · have e : dropUnderscores p (c :: r) = (dropUnderscores (some c) r).map (c :: ·) := by
        rw [dropUnderscores.eq_def]
        split
        · next e => cases e
        · next e => injection e with e; exact absurd e hc
        · next e => injection e with e1 e2; rw [e1, e2]
      rw [e, Option.map_eq_some_iff] at h
      obtain ⟨t', ht', rfl⟩ := h
      rcases List.mem_cons.mp hd with rfl | hd
      · exact .inr List.mem_cons_self
      · exact (ih ht' d hd).imp id (List.mem_cons_of_mem _)

theorem takeSign_chars (s : Str) : ∀ c ∈ s, c = '-' ∨ c = '+' ∨ c ∈ (takeSign s).2 := by
  intro c hc
  rw [takeSign.eq_def]
  split
  · rcases List.mem_cons.mp hc with rfl | hc
    · exact .inl rfl
    · exact .inr (.inr hc)
  · rcases List.mem_cons.mp hc with rfl | hc
    · exact .inr (.inl rfl)
    · exact .inr (.inr hc)
  · exact .inr (.inr hc)

theorem parseExp_chars {s : Str} {e : ℤ} (h : parseExp s = some e) : ∀ c ∈ s, numeralChar c = true := by
  cases s with
  | nil => simp
  | cons c r =>
    rw [parseExp] at h
    split at h
    · next hc =>
      simp only at h
      split at h
      · next hd =>
        intro d hm
        rcases List.mem_cons.mp hm with rfl | hm
        · rcases hc with rfl | rfl <;> decide
        · rcases takeSign_chars r d hm with rfl | rfl | hm
          · decide
          · decide
          · have := List.all_eq_true.mp hd.2 d hm
            simp [numeralChar, this]
      · cases h
    · cases h

theorem mem_takeDrop {s : Str} {c : Char} (h : c ∈ s) : isDig c = true ∨ c ∈ s.dropWhile isDig := by
  rw [← List.takeWhile_append_dropWhile (p := isDig) (l := s)] at h
  rcases List.mem_append.mp h with h | h
  · exact .inl (List.mem_takeWhile_imp h)
  · exact .inr h

theorem parseNumeral_chars {s : Str} {n : Numeral} (h : parseNumeral s = some n) :
    ∀ c ∈ s, numeralChar c = true := by
  intro c hc
  simp only [parseNumeral] at h
  rcases takeSign_chars s c hc with rfl | rfl | hc
  · decide
  · decide
  rcases mem_takeDrop hc with hc | hc
  · simp [numeralChar, hc]
  split at h
  · next s2 hs =>
    split at h
    · cases h
    · rw [Option.map_eq_some_iff] at h
      obtain ⟨e, he, _⟩ := h
      rw [hs] at hc
      rcases List.mem_cons.mp hc with rfl | hc
      · decide
      · rcases mem_takeDrop hc with hc | hc
        · simp [numeralChar, hc]
        · exact parseExp_chars he c hc
  · split at h
    · cases h
    · rw [Option.map_eq_some_iff] at h
      obtain ⟨e, he, _⟩ := h
      exact parseExp_chars he c hc

theorem pyFloat_chars {F : Fl} {s : Str} {q : ℚ} (h : pyFloat F s = .ok q) :
    strip s ≠ [] ∧ ∀ c ∈ strip s, isSpace c = false := by
  simp only [pyFloat] at h
  split at h
  · cases h
  split at h
  · cases h
  split at h
  · cases h
  next t ht =>
  split at h
  · cases h
  next n hn =>
  constructor
  · intro e
    rw [e] at ht
    simp only [dropUnderscores, Option.some.injEq] at ht
    rw [← ht] at hn
    simp [parseNumeral, takeSign] at hn
  · intro c hc
    rcases dropUnderscores_chars ht c hc with rfl | hc
    · decide
    · exact numeralChar_noSpace (parseNumeral_chars hn c hc)

theorem pyInt_chars {s : Str} {i : ℤ} (h : pyInt s = .ok i) :
    strip s ≠ [] ∧ ∀ c ∈ strip s, isSpace c = false := by
  simp only [pyInt] at h
  split at h
  · cases h
  split at h
  · cases h
  next t ht =>
  split at h
  · next hd =>
    constructor
    · intro e
      rw [e] at ht
      simp only [dropUnderscores, Option.some.injEq] at ht
      rw [← ht] at hd
      exact hd.1 rfl
    · intro c hc
      rcases dropUnderscores_chars ht c hc with rfl | hc
      · decide
      · rcases takeSign_chars t c hc with rfl | rfl | hc
        · decide
        · decide
        · exact numeralChar_noSpace (by simp [numeralChar, List.all_eq_true.mp hd.2 c hc])
  · cases h

/-- Text whose middle is `strip s`. -/
theorem strip_split (s : Str) : ∃ l r, s = l ++ (strip s ++ r) ∧ (∀ c ∈ l, isSpace c = true) ∧
    ∀ c ∈ r, isSpace c = true := by
  refine ⟨s.takeWhile isSpace, ((s.dropWhile isSpace).reverse.takeWhile isSpace).reverse, ?_, ?_, ?_⟩
  · rw [strip, ← List.reverse_append, List.takeWhile_append_dropWhile, List.reverse_reverse,
      List.takeWhile_append_dropWhile]
  · exact fun c hc => List.mem_takeWhile_imp hc
  · intro c hc
    exact List.mem_takeWhile_imp (List.mem_reverse.mp hc)

theorem newlines_space {l : Str} (h : ∀ c ∈ l, isSpace c = true) : ∀ c ∈ newlines l, isSpace c = true := by
  intro c hc
  rcases mem_newlines hc with rfl | hc
  · decide
  · exact h c hc

theorem newlines_append {l m : Str} (h : m.head? ≠ some '\n') : newlines (l ++ m) = newlines l ++ newlines m := by
  induction l using newlines.induct with
  | case1 => rfl
  | case2 r ih => simp only [List.cons_append, newlines, ih]
  | case3 r hr ih =>
    rw [List.cons_append, newlines_cr, newlines_cr, ih]; rfl
    · cases r with
      | nil => simp
      | cons c r =>
        simp only [List.head?_cons, ne_eq, Option.some.injEq]
        rintro rfl
        exact hr r rfl
    · cases r with
      | nil => simpa using h
      | cons c r =>
        simp only [List.cons_append, List.head?_cons, ne_eq, Option.some.injEq]
        rintro rfl
        exact hr r rfl
  | case4 c r h1 h2 ih =>
    have hc : c ≠ '\r' := fun e => h2 e
    rw [List.cons_append, newlines_cons hc, newlines_cons hc, ih]; rfl

/-- Text of a number, with its line ends made newlines. -/
theorem newlines_number {s : Str} (h : strip s ≠ [] ∧ ∀ c ∈ strip s, isSpace c = false) :
    ∃ l r, newlines s = l ++ (strip s ++ r) ∧ (∀ c ∈ l, isSpace c = true) ∧ (∀ c ∈ r, isSpace c = true) := by
  obtain ⟨l, r, e, hl, hr⟩ := strip_split s
  have hcr : '\r' ∉ strip s := fun hm => by have := h.2 _ hm; revert this; decide
  have hh : (strip s ++ r).head? ≠ some '\n' := by
    cases hs : strip s with
    | nil => exact absurd hs h.1
    | cons c t =>
      simp only [List.cons_append, List.head?_cons, ne_eq, Option.some.injEq]
      rintro rfl
      have := h.2 '\n' (by rw [hs]; simp)
      revert this; decide
  refine ⟨newlines l, newlines r, ?_, newlines_space hl, newlines_space hr⟩
  conv_lhs => rw [e]
  rw [newlines_append hh, newlines_plain hcr]

theorem strip_middle {m l r : Str} (h : m ≠ [] ∧ ∀ c ∈ m, isSpace c = false) (hl : ∀ c ∈ l, isSpace c = true)
    (hr : ∀ c ∈ r, isSpace c = true) : strip (l ++ (m ++ r)) = m :=
  strip_between hl hr h.1 (fun c hc => h.2 c (List.mem_of_head? hc))
    fun c hc => h.2 c (List.mem_of_getLast? hc)

theorem strip_newlines {s : Str} (h : strip s ≠ [] ∧ ∀ c ∈ strip s, isSpace c = false) :
    strip (newlines s) = strip s := by
  obtain ⟨l, r, e, hl, hr⟩ := newlines_number h
  rw [e]
  exact strip_middle h hl hr

theorem strip_attrSpaces {s : Str} (h : strip s ≠ [] ∧ ∀ c ∈ strip s, isSpace c = false) :
    strip (attrSpaces s) = strip s := by
  obtain ⟨l, r, e, hl, hr⟩ := newlines_number h
  rw [attrSpaces, e, List.map_append, List.map_append]
  have hm : (strip s).map (fun c => if c = '\n' ∨ c = '\t' then ' ' else c) = strip s := by
    conv_rhs => rw [← List.map_id (strip s)]
    refine List.map_congr_left fun c hc => ?_
    have := h.2 c hc
    rw [if_neg]; rfl
    rintro (rfl | rfl) <;> revert this <;> decide
  have hw : ∀ l : Str, (∀ c ∈ l, isSpace c = true) →
      ∀ c ∈ l.map (fun c => if c = '\n' ∨ c = '\t' then ' ' else c), isSpace c = true := by
    intro l hl c hc
    obtain ⟨d, hd, rfl⟩ := List.mem_map.mp hc
    split
    · decide
    · exact hl d hd
  rw [hm]
  exact strip_middle h (hw l hl) (hw r hr)

theorem pyFloat_attrSpaces {F : Fl} {s : Str} {q : ℚ} (h : pyFloat F s = .ok q) :
    pyFloat F (attrSpaces s) = .ok q := by
  rw [← h, pyFloat, pyFloat, strip_attrSpaces (pyFloat_chars h)]

theorem pyInt_attrSpaces {s : Str} {i : ℤ} (h : pyInt s = .ok i) : pyInt (attrSpaces s) = .ok i := by
  rw [← h, pyInt, pyInt, strip_attrSpaces (pyInt_chars h)]

theorem pyFloat_newlines {F : Fl} {s : Str} {q : ℚ} (h : pyFloat F s = .ok q) :
    pyFloat F (newlines s) = .ok q := by
  rw [← h, pyFloat, pyFloat, strip_newlines (pyFloat_chars h)]

/-! ### attributes -/

/-- White space in an attribute can't turn into anything but spaces. -/
theorem attrSpaces_iff {s t : Str} (ht : ∀ c ∈ t, c ≠ ' ' ∧ c ≠ '\r' ∧ c ≠ '\n' ∧ c ≠ '\t') :
    attrSpaces s = t ↔ s = t := by
  constructor
  · intro h
    have hp : Plain s := by
      have key : ∀ r : Str, (∀ c ∈ attrSpaces r, c ≠ ' ') → Plain r := by
        intro r
        induction r using newlines.induct with
        | case1 => intro _ c hc; simp at hc
        | case2 r ih => intro h; exact absurd rfl (h ' ' (by simp [attrSpaces, newlines]))
        | case3 r hr ih => intro h; exact absurd rfl (h ' ' (by simp [attrSpaces, newlines]))
        | case4 c r hr1 hr2 ih =>
          intro h
          rw [attrSpaces, newlines] at h
          · simp only [List.map_cons, List.mem_cons, forall_eq_or_imp] at h
            intro x hx
            rcases List.mem_cons.mp hx with rfl | hx
            · refine ⟨fun e => hr2 e, fun e => ?_, fun e => ?_⟩ <;> subst e <;> simp at h
            · exact ih h.2 x hx
          · exact hr1
          · exact hr2
      refine key s fun c hc => ?_
      rw [h] at hc
      exact (ht c hc).1
    rw [attrSpaces_id hp] at h; exact h
  · rintro rfl
    exact attrSpaces_id fun c hc => (ht c hc).2

theorem lower_attrSpaces (s : Str) {t : Str} (ht : ∀ c ∈ t, c ≠ ' ' ∧ c ≠ '\r' ∧ c ≠ '\n' ∧ c ≠ '\t') :
    lower (attrSpaces s) = t ↔ lower s = t := by
  constructor
  · intro h
    have h2 : ∀ c ∈ attrSpaces s, c ≠ ' ' ∧ c ≠ '\r' ∧ c ≠ '\n' ∧ c ≠ '\t' := by
      intro c hc
      have := ht (lowerC c) (by rw [← h]; exact List.mem_map_of_mem hc)
      refine ⟨?_, lowerC_plain this.2⟩
      rintro rfl
      exact absurd this.1 (by decide)
    rw [(attrSpaces_iff h2).1 rfl]; exact h
  · intro h
    rw [attrSpaces_id (plain_of_lower (by rw [h]; exact fun c hc => (ht c hc).2))]; exact h

theorem pyFloat_intStr (F : Fl) (i : ℤ) : pyFloat F (intStr i) = .ok (F.rnd i) := by
  rw [intStr]
  split
  · next hi =>
    rw [pyFloat_neg_natStr]
    congr 2
    have : (i.natAbs : ℤ) = -i := by omega
    have h2 : ((i.natAbs : ℤ) : ℚ) = -(i:ℚ) := by rw [this]; push_cast; ring
    rw [← Int.cast_natCast, h2]; ring
  · next hi =>
    rw [pyFloat_natStr]
    congr 2
    have : (i.natAbs : ℤ) = i := by omega
    rw [← Int.cast_natCast, this]

/-! ### text -/

mutual
theorem string_sorted : ∀ n : Node, n.sorted.string? = n.string?
  | .text s => rfl
  | .tag m a ks => by rw [Node.sorted, Node.string?, Node.string?, stringKids_sorted ks]
theorem stringKids_sorted : ∀ ks : List Node, Node.stringKids? (Node.sortedKids ks) = Node.stringKids? ks
  | [] => rfl
  | [x] => by
    rw [Node.sortedKids, Node.sortedKids, Node.stringKids?, Node.stringKids?, string_sorted x]
  | x :: y :: r => by
    rw [Node.sortedKids, Node.sortedKids, Node.stringKids?, Node.stringKids?]
end

theorem newlines_blank {s : Str} (h : (newlines s).all asciiSpace = true) : s.all asciiSpace = true := by
  induction s using newlines.induct with
  | case1 => rfl
  | case2 r ih => simp [newlines] at h ⊢; exact ⟨by decide, by decide, by simpa using ih (by simpa using h.2)⟩
  | case3 r hr ih => 
    rw [newlines] at h
    · simp at h ⊢; exact ⟨by decide, by simpa using ih (by simpa using h.2)⟩
    · exact hr
  | case4 c r hr1 hr2 ih =>
    rw [newlines] at h
    · simp at h ⊢; exact ⟨h.1, by simpa using ih (by simpa using h.2)⟩
    · exact hr1
    · exact hr2

theorem readText_solid {s : Str} (h : ¬ s.all asciiSpace = true) : readText s = [.text (newlines s)] := by
  have h1 : ¬ (newlines s).all asciiSpace = true := fun e => h (newlines_blank e)
  have h2 : newlines s ≠ [] := by intro e; rw [e] at h1; exact h1 rfl
  simp only [readText, if_neg h1, if_neg h2]

theorem string_reload {F : Fl} {s : Str} (hs : ¬ s.all asciiSpace = true) : ∀ n : Node, n.isTag = true →
    n.string? = some s → (n.reload F).string? = some (newlines s)
  | .text _, h, _ => by simp [Node.isTag] at h
  | .tag m a [], _, h => by simp [Node.string?, Node.stringKids?] at h
  | .tag m a [.text t], _, h => by
    simp only [Node.string?, Node.stringKids?, Option.some.injEq] at h
    subst h
    rw [Node.reload, Node.reloadKids, Node.reloadKids, List.nil_append, readText_solid hs]
    rfl
  | .tag m a [.tag m' a' ks], _, h => by
    rw [Node.string?, Node.stringKids?] at h
    have ih := string_reload (F := F) hs (.tag m' a' ks) rfl h
    rw [Node.reload, Node.reloadKids, Node.reloadKids, show readText [] = [] from rfl, List.nil_append,
      Node.string?, Node.stringKids?]
    exact ih
  | .tag m a (x :: y :: r), _, h => by simp [Node.string?, Node.stringKids?] at h

theorem opened_string {F : Fl} {n : Node} {s : Str} (ht : n.isTag = true) (hs : ¬ s.all asciiSpace = true)
    (h : n.string? = some s) : (n.opened F).string? = some (newlines s) := by
  refine string_reload hs _ ?_ ?_
  · rw [sorted_isTag]; exact ht
  · rw [string_sorted]; exact h

theorem number_solid {s : Str} (h : strip s ≠ []) : ¬ s.all asciiSpace = true := by
  intro e
  apply h
  rw [List.all_eq_true] at e
  have e2 : ∀ c ∈ s, isSpace c = true := by
    intro c hc
    have := e c hc
    simp only [asciiSpace, Bool.or_eq_true, beq_iff_eq] at this
    rcases this with (((rfl | rfl) | rfl) | rfl) | rfl <;> decide
  rw [strip]
  have : s.dropWhile isSpace = [] := by rw [List.dropWhile_eq_nil_iff]; exact e2
  rw [this]; rfl

theorem opened_floatOpt {F : Fl} {n : Node} {q : ℚ} (ht : n.isTag = true)
    (h : floatOpt F n.string? = .ok q) : floatOpt F (n.opened F).string? = .ok q := by
  cases hs : n.string? with
  | none => rw [hs] at h; cases h
  | some s =>
    rw [hs] at h
    rw [opened_string ht (number_solid (pyFloat_chars h).1) hs]
    exact pyFloat_newlines h

mutual
theorem allText_string : ∀ {n : Node} {s : Str}, n.string? = some s → n.allText = s
  | .text _, _, h => by injection h
  | .tag m a ks, _, h => by rw [Node.allText]; exact allTextKids_string h
theorem allTextKids_string : ∀ {ks : List Node} {s : Str}, Node.stringKids? ks = some s → Node.allTextKids ks = s
  | [], _, h => by cases h
  | [x], _, h => by
    rw [Node.allTextKids, Node.allTextKids, List.append_nil]; exact allText_string h
  | x :: y :: r, _, h => by cases h
end

/-! ### dictionaries -/

theorem dictSet_map {κ α β : Type} [DecidableEq κ] (g : α → β) (k : κ) (v : α) (d : List (κ × α)) :
    dictSet k (g v) (d.map fun p => (p.1, g p.2)) = (dictSet k v d).map fun p => (p.1, g p.2) := by
  induction d with
  | nil => rfl
  | cons p r ih =>
    rw [List.map_cons, dictSet, dictSet]
    split
    · rfl
    · rw [ih]; rfl

theorem foldl_dictSet_map {κ α β : Type} [DecidableEq κ] (g : α → β) (l d : List (κ × α)) :
    (l.map fun p => (p.1, g p.2)).foldl (fun d p => dictSet p.1 p.2 d) (d.map fun p => (p.1, g p.2)) =
      (l.foldl (fun d p => dictSet p.1 p.2 d) d).map fun p => (p.1, g p.2) := by
  induction l generalizing d with
  | nil => rfl
  | cons p r ih =>
    rw [List.map_cons, List.foldl_cons, List.foldl_cons, ← ih, ← dictSet_map]

/-! ### which class -/

theorem opened_strAttr {F : Fl} {n : Node} (hn : n.XmlOk F) {k : String} {s : Str} (h : strAttr n k = .ok s) :
    strAttr (n.opened F) k = .ok (attrSpaces s) := by
  rw [Node.opened]
  refine reload_strAttr ?_
  rw [strAttr, XmlOk.get_sorted hn]; exact h

theorem opened_kidNames (F : Fl) (n : Node) : kidNames (n.opened F) = kidNames n := by
  rw [kidNames, opened_tagKids, kidNames, List.map_map]
  congr 1
  funext x
  exact opened_name F x

theorem opened_vectorCheck (F : Fl) (n : Node) : vectorCheck (n.opened F) = vectorCheck n := by
  rw [vectorCheck, vectorCheck, opened_name, opened_kidNames, opened_tagKids]
  cases n.tagKids with
  | nil => rfl
  | cons w ws =>
    simp only [List.map_cons, opened_tagKids]
    cases w.tagKids with
    | nil => rfl
    | cons v vs => simp only [List.map_cons, opened_kidNames]

theorem opened_compositeCheck {F : Fl} {n : Node} (hn : n.XmlOk F) (h : compositeCheck n = .ok ()) :
    compositeCheck (n.opened F) = .ok () := by
  rw [compositeCheck] at h
  split at h
  · cases h
  · next s hs =>
    split at h
    · next hl =>
      have : Plain s := plain_of_lower (by rw [hl]; decide)
      simp only [compositeCheck, opened_strAttr hn hs, attrSpaces_id this, if_pos hl]
    · cases h

theorem opened_fromTag {F : Fl} {n : Node} (hn : n.XmlOk F) {c : VCls} (h : fromTag n = .ok c) :
    fromTag (n.opened F) = .ok c := by
  rw [fromTag] at h
  rw [fromTag, opened_name]
  split at h
  · cases h
  · next s hs =>
    have hs' : (if n.name = "animated" then strAttr (n.opened F) "type" else .ok n.name.toList) = .ok s := by
      split at hs
      · next hna =>
        rw [if_pos hna, opened_strAttr hn hs, attrSpaces_id]
        cases hreg : valueRegistry.fromName s with
        | error e => simp [hreg] at h
        | ok d => exact plain_of_registered hreg
      · next hna => rw [if_neg hna]; exact hs
    rw [hs']
    dsimp only
    cases hreg : valueRegistry.fromName s with
    | error e => simp [hreg] at h
    | ok d =>
      simp only [hreg] at h ⊢
      cases d
      case composite =>
        simp only at h ⊢
        cases hcc : compositeCheck n with
        | error e => simp [hcc] at h
        | ok u => simp only [hcc] at h; rw [opened_compositeCheck hn hcc]; exact h
      case vector => rw [opened_vectorCheck]; exact h
      all_goals exact h

/-! ### deciding whether a document can be written -/

mutual
/-- Whether an element can be written. -/
def Node.xmlOkB (F : Fl) : Node → Bool
  | .text s => s.all xmlChar
  | .tag n a ks => !n.toList.isEmpty && n.toList.all nameChar && decide ((a.map Prod.fst).Nodup) &&
    a.all (fun p => !p.1.toList.isEmpty && p.1.toList.all nameChar && (p.2.str' F).all xmlChar) &&
    Node.xmlOkKidsB F ks

/-- Whether its children can. -/
def Node.xmlOkKidsB (F : Fl) : List Node → Bool
  | [] => true
  | x :: r => x.xmlOkB F && Node.xmlOkKidsB F r
end

mutual
theorem xmlOkB_ok {F : Fl} : ∀ {n : Node}, n.xmlOkB F = true → n.XmlOk F
  | .text s, h => h
  | .tag m a ks, h => by
    rw [Node.xmlOkB] at h
    simp only [Bool.and_eq_true, Bool.not_eq_true', List.isEmpty_eq_false_iff, decide_eq_true_eq] at h
    obtain ⟨⟨⟨⟨h1, h2⟩, h3⟩, h4⟩, h5⟩ := h
    refine ⟨⟨h1, h2⟩, ⟨h3, fun p hp => ?_⟩, xmlOkKidsB_ok h5⟩
    have := List.all_eq_true.1 h4 p hp
    simp only [Bool.and_eq_true, Bool.not_eq_true', List.isEmpty_eq_false_iff] at this
    exact ⟨this.1, this.2⟩
theorem xmlOkKidsB_ok {F : Fl} : ∀ {ks : List Node}, Node.xmlOkKidsB F ks = true → Node.XmlOkKids F ks
  | [], _ => trivial
  | x :: r, h => by
    rw [Node.xmlOkKidsB, Bool.and_eq_true] at h
    exact ⟨xmlOkB_ok h.1, xmlOkKidsB_ok h.2⟩
end

end Sang
