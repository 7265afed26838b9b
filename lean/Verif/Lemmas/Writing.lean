import Verif.Spec.Writing
import Verif.Lemmas.XmlText
import Mathlib.Data.List.Induction

/-!
# Lemmas: reading documents however they are written
-/

namespace Sang

open Spec

theorem allowed_xmlChar {c : Char} (h : Allowed c) : xmlChar c = true := by
  unfold xmlChar
  rcases h with rfl | rfl | rfl | ⟨h1, h2, h3⟩
  · decide
  · decide
  · decide
  · have a : (' ' ≤ c) := by
      rw [Char.le_def, UInt32.le_iff_toNat_le]
      exact h1
    have b : c ≠ '￾' := by rintro rfl; exact h2 (by decide)
    have d : c ≠ '￿' := by rintro rfl; exact h3 (by decide)
    simp [a, b, d]

theorem xmlName_ok {s : Str} (h : XmlName s) : s ≠ [] ∧ s.all nameChar = true := by
  refine ⟨h.1, List.all_eq_true.2 fun c hc => ?_⟩
  unfold nameChar Char.isAlphanum Char.isAlpha
  rcases h.2 c hc with h | h | h | rfl | rfl | rfl <;> simp [*]

/-! ## References -/

theorem forall2_left {α β : Type} {R : α → β → Prop} {xs : List α} {ys : List β} (h : List.Forall₂ R xs ys) {x : α}
    (hx : x ∈ xs) : ∃ y, R x y := by
  induction h with
  | nil => cases hx
  | cons h _ ih =>
    rcases List.mem_cons.1 hx with rfl | hx
    · exact ⟨_, h⟩
    · exact ih hx

theorem foldl_ofDigits (b : ℕ) (vs : List ℕ) : vs.foldl (fun a v => b * a + v) 0 = Nat.ofDigits b vs.reverse := by
  induction vs using List.reverseRecOn with
  | nil => rfl
  | append_singleton vs v ih =>
    rw [List.foldl_append, List.reverse_append, List.reverse_singleton, List.singleton_append, Nat.ofDigits_cons, ih]
    simp [Nat.add_comm]

theorem decDigit_val : ∀ v < 10, digV (Nat.digitChar v) = v ∧ isDig (Nat.digitChar v) = true := by decide

theorem natVal_digits {ds : Str} {vs : List ℕ} (h : List.Forall₂ DecDigit ds vs) :
    natVal ds = Nat.ofDigits 10 vs.reverse ∧ ds.all isDig = true := by
  rw [← foldl_ofDigits]
  have : ∀ a, ds.foldl (fun a c => 10 * a + digV c) a = vs.foldl (fun a v => 10 * a + v) a := by
    induction h with
    | nil => exact fun _ => rfl
    | cons h _ ih =>
      intro a
      obtain ⟨h1, rfl⟩ := h
      rw [List.foldl_cons, List.foldl_cons, (decDigit_val _ h1).1, ih]
  refine ⟨this 0, List.all_eq_true.2 fun c hc => ?_⟩
  obtain ⟨v, h1, rfl⟩ := forall2_left h hc
  exact (decDigit_val v h1).2

theorem hexDigit_val : ∀ v < 16, hexVal? (Nat.digitChar v) = some v ∧ hexVal? (Nat.digitChar v).toUpper = some v := by
  decide

theorem hexNat_digits {ds : Str} {vs : List ℕ} (h : List.Forall₂ HexDigit ds vs) :
    hexNat? ds = some (Nat.ofDigits 16 vs.reverse) := by
  rw [← foldl_ofDigits, hexNat?]
  have : ∀ a, ds.foldl (fun a c => match a, hexVal? c with
      | some x, some y => some (16 * x + y)
      | _, _ => none) (some a) = some (vs.foldl (fun a v => 16 * a + v) a) := by
    induction h with
    | nil => exact fun _ => rfl
    | cons h _ ih =>
      intro a
      obtain ⟨h1, rfl | rfl⟩ := h
      · rw [List.foldl_cons, List.foldl_cons, (hexDigit_val _ h1).1]
        exact ih _
      · rw [List.foldl_cons, List.foldl_cons, (hexDigit_val _ h1).2]
        exact ih _
  exact this 0

theorem xmlCharOf_toNat {c : Char} (h : Allowed c) : xmlCharOf c.toNat = some c := by
  rw [xmlCharOf, Char.ofNat_toNat, if_pos ⟨c.valid, allowed_xmlChar h⟩]

theorem digitChar_ne : ∀ v < 16, Nat.digitChar v ≠ ';' ∧ (Nat.digitChar v).toUpper ≠ ';' ∧ Nat.digitChar v ≠ 'x' := by
  decide

theorem xmlEntity_hash (r : Str) : xmlEntity ('#' :: r) = charRef ('#' :: r) := by
  unfold xmlEntity
  have key : ∀ s : Str, s.head? ≠ some '#' → ('#' :: r) ≠ s := by
    rintro s h rfl
    exact h rfl
  rw [if_neg (key _ (by decide)), if_neg (key _ (by decide)), if_neg (key _ (by decide)), if_neg (key _ (by decide)),
    if_neg (key _ (by decide))]

theorem refTo_ok {c : Char} {r : Str} (h : RefTo c r) : xmlEntity r = some c ∧ ';' ∉ r := by
  cases h with
  | amp h => subst h; decide
  | lt h => subst h; decide
  | gt h => subst h; decide
  | quot h => subst h; decide
  | apos h => subst h; decide
  | dec ha hne hd hv =>
    rename_i ds vs
    refine ⟨?_, ?_⟩
    · rw [xmlEntity_hash]
      cases hd with
      | nil => exact absurd rfl hne
      | cons h hd' =>
        rename_i d v ds vs
        have hx : d ≠ 'x' := by
          rw [h.2]
          exact (digitChar_ne v (by have := h.1; omega)).2.2
        have hall := natVal_digits (List.Forall₂.cons h hd')
        rw [charRef]
        · rw [if_pos ⟨hne, hall.2⟩, hall.1, hv]
          exact xmlCharOf_toNat ha
        · rintro ds' e
          injection e with e
          exact hx e
    · simp only [List.mem_cons, not_or]
      refine ⟨by decide, fun hm => ?_⟩
      obtain ⟨v, h⟩ := forall2_left hd hm
      exact (digitChar_ne v (by have := h.1; omega)).1 h.2.symm
  | hex ha hne hd hv =>
    refine ⟨?_, ?_⟩
    · rw [xmlEntity_hash, charRef, if_neg hne, hexNat_digits hd, hv]
      exact xmlCharOf_toNat ha
    · simp only [List.mem_cons, not_or]
      refine ⟨by decide, by decide, fun hm => ?_⟩
      obtain ⟨v, h⟩ := forall2_left hd hm
      obtain ⟨h1, h2, -⟩ := digitChar_ne v h.1
      rcases h.2 with e | e
      · exact h1 e.symm
      · exact h2 e.symm

/-! ## Pieces -/

theorem run_textAs {stk root} {s u : Str} (h : TextAs s u) : ∀ d t,
    XMach.run ⟨stk, d, .text, root⟩ (u ++ t) = XMach.run ⟨stk, d ++ s, .text, root⟩ t := by
  induction h with
  | nil => intro d t; simp
  | @char c s u h1 h2 h3 _ _ ih =>
    intro d t
    rw [List.cons_append, run_cons (m' := ⟨stk, d ++ [c], .text, root⟩), ih]
    · simp
    · simp only [XMach.step, if_neg h2, if_neg h3, allowed_xmlChar h1, if_true]
  | @ref c r s u hr _ ih =>
    intro d t
    obtain ⟨h1, h2⟩ := refTo_ok hr
    simp only [List.cons_append, List.append_assoc]
    rw [run_cons (m' := ⟨stk, d, .textRef [], root⟩) rfl, run_textRef _ _ h2, List.nil_append,
      run_cons (m' := ⟨stk, d ++ [c], .text, root⟩), ih]
    · simp
    · simp only [XMach.step, if_true, h1]

theorem run_valueAs {stk d root n as k q} (hq : q = '"' ∨ q = '\'') {s u : Str} (h : ValueAs q s u) : ∀ v t,
    XMach.run ⟨stk, d, .attrVal n as k q v, root⟩ (u ++ t) = XMach.run ⟨stk, d, .attrVal n as k q (v ++ s), root⟩ t := by
  have ha : '&' ≠ q := by rcases hq with rfl | rfl <;> decide
  have hb : ∀ c, c = '\n' ∨ c = '\t' → c ≠ q := by rintro c (rfl | rfl) <;> rcases hq with rfl | rfl <;> decide
  induction h with
  | nil => intro v t; simp
  | @char c s u h1 h2 h3 h4 h5 h6 h7 _ ih =>
    intro v t
    rw [List.cons_append, run_cons (m' := ⟨stk, d, .attrVal n as k q (v ++ [c]), root⟩), ih]
    · simp
    · simp only [XMach.step, if_neg h2, if_neg h3, if_neg h4, allowed_xmlChar h1, if_true, h6, h7, or_self, if_false]
  | @blank c s u hc _ ih =>
    intro v t
    rw [List.cons_append, run_cons (m' := ⟨stk, d, .attrVal n as k q (v ++ [' ']), root⟩), ih]
    · simp
    · have h2 : c ≠ '&' := by rcases hc with rfl | rfl <;> decide
      have h3 : c ≠ '<' := by rcases hc with rfl | rfl <;> decide
      have h4 : xmlChar c = true := by rcases hc with rfl | rfl <;> decide
      simp only [XMach.step, if_neg h2, if_neg h3, if_neg (hb c hc), h4, if_true, hc]
  | @ref c r s u hr _ ih =>
    intro v t
    obtain ⟨h1, h2⟩ := refTo_ok hr
    simp only [List.cons_append, List.append_assoc]
    rw [run_cons (m' := ⟨stk, d, .attrRef n as k q v [], root⟩), run_attrRef _ _ h2, List.nil_append,
      run_cons (m' := ⟨stk, d, .attrVal n as k q (v ++ [c]), root⟩), ih]
    · simp
    · simp only [XMach.step, if_true, h1]
    · simp only [XMach.step, if_neg ha, if_true]

/-- Between a name or a value and what comes next. -/
inductive Gap (n : Str) (as : Attrs) : XSt → Prop
  | at {st} : AtGap n as st → Gap n as st
  | blank : Gap n as (.inTag n as)

theorem Gap.step {n as st} (h : Gap n as st) (stk d root c) (hc : nameChar c = false) :
    XMach.step ⟨stk, d, st, root⟩ c = XMach.tagChar ⟨stk, d, st, root⟩ n as c := by
  cases h with
  | «at» h => exact h.step _ _ _ _ hc
  | blank => simp only [XMach.step, hc, Bool.false_eq_true, if_false]

theorem blank_not_name {c : Char} (h : c = ' ' ∨ c = '\t' ∨ c = '\n') : nameChar c = false ∧ xmlSpace c = true := by
  rcases h with rfl | rfl | rfl <;> decide

theorem run_blanks {stk d root n as} : ∀ (b : Str) {st}, Gap n as st → Blanks b →
    ∃ st', Gap n as st' ∧ (b ≠ [] → st' = .inTag n as) ∧
      ∀ t, XMach.run ⟨stk, d, st, root⟩ (b ++ t) = XMach.run ⟨stk, d, st', root⟩ t
  | [], st, hst, _ => ⟨st, hst, by simp, fun _ => rfl⟩
  | c :: b, st, hst, hb => by
    obtain ⟨st', h1, h2, h3⟩ := run_blanks (stk := stk) (d := d) (root := root) b (.blank (n := n) (as := as))
      (fun x hx => hb x (by simp [hx]))
    have hc := blank_not_name (hb c (by simp))
    have key : ∀ t, XMach.run ⟨stk, d, st, root⟩ (c :: b ++ t) = XMach.run ⟨stk, d, .inTag n as, root⟩ (b ++ t) := by
      intro t
      rw [List.cons_append]
      apply run_cons
      rw [hst.step _ _ _ _ hc.1, XMach.tagChar, if_pos hc.2]
    cases b with
    | nil => exact ⟨_, .blank, fun _ => rfl, fun t => by rw [key]; rfl⟩
    | cons c' b => exact ⟨st', h1, fun _ => h2 (by simp), fun t => by rw [key, h3]⟩

theorem run_attrEq {stk d root n as k} : ∀ {b : Str}, Blanks b → ∀ t,
    XMach.run ⟨stk, d, .attrEq n as k, root⟩ (b ++ '=' :: t) = XMach.run ⟨stk, d, .attrQ n as k, root⟩ t
  | [], _, t => by rw [List.nil_append]; exact run_cons (by rfl) _
  | c :: b, hb, t => by
    have hc := hb c (by simp)
    have hc' := blank_not_name hc
    rw [List.cons_append, run_cons (m' := ⟨stk, d, .attrEq n as k, root⟩)]
    · exact run_attrEq (fun x hx => hb x (by simp [hx])) t
    · have : c ≠ '=' := by rcases hc with rfl | rfl | rfl <;> decide
      simp only [XMach.step, if_neg this, hc'.2, if_true]

/-- The `=` after the name of an attribute, with white space before it. -/
theorem run_eq {stk d root n as k} {b : Str} (hb : Blanks b) (t : Str) :
    XMach.run ⟨stk, d, .attrName n as k, root⟩ (b ++ '=' :: t) = XMach.run ⟨stk, d, .attrQ n as k, root⟩ t := by
  cases b with
  | nil => rw [List.nil_append]; exact run_cons (by rfl) _
  | cons c b =>
    have hc := hb c (by simp)
    have hc' := blank_not_name hc
    rw [List.cons_append, run_cons (m' := ⟨stk, d, .attrEq n as k, root⟩)]
    · exact run_attrEq (fun x hx => hb x (by simp [hx])) t
    · have : c ≠ '=' := by rcases hc with rfl | rfl | rfl <;> decide
      simp only [XMach.step, if_neg this, hc'.1, hc'.2, if_true, Bool.false_eq_true, if_false]

/-- White space after the `=`. -/
theorem run_attrQ {stk d root n as k} : ∀ {b : Str}, Blanks b → ∀ t,
    XMach.run ⟨stk, d, .attrQ n as k, root⟩ (b ++ t) = XMach.run ⟨stk, d, .attrQ n as k, root⟩ t
  | [], _, t => rfl
  | c :: b, hb, t => by
    have hc := hb c (by simp)
    have hc' := blank_not_name hc
    rw [List.cons_append, run_cons (m' := ⟨stk, d, .attrQ n as k, root⟩)]
    · exact run_attrQ (fun x hx => hb x (by simp [hx])) t
    · have : ¬ (c = '"' ∨ c = '\'') := by rcases hc with rfl | rfl | rfl <;> decide
      simp only [XMach.step, if_neg this, hc'.2, if_true]

theorem run_closeEnd {stk d root n} {m' : XMach} (h : ∀ st, XMach.close ⟨stk, d, st, root⟩ n = .ok m') :
    ∀ {b : Str}, Blanks b → ∀ t, XMach.run ⟨stk, d, .closeEnd n, root⟩ (b ++ '>' :: t) = m'.run t
  | [], _, t => by rw [List.nil_append]; exact run_cons (by simp only [XMach.step, if_true]; exact h _) _
  | c :: b, hb, t => by
    have hc := hb c (by simp)
    have hc' := blank_not_name hc
    rw [List.cons_append, run_cons (m' := ⟨stk, d, .closeEnd n, root⟩)]
    · exact run_closeEnd h (fun x hx => hb x (by simp [hx])) t
    · have : c ≠ '>' := by rcases hc with rfl | rfl | rfl <;> decide
      simp only [XMach.step, if_neg this, hc'.2, if_true]

/-- The `>` of an end tag, with white space before it. -/
theorem run_close {stk d root n} {m' : XMach} (h : ∀ st, XMach.close ⟨stk, d, st, root⟩ n = .ok m') {b : Str}
    (hb : Blanks b) (t : Str) : XMach.run ⟨stk, d, .closeName n, root⟩ (b ++ '>' :: t) = m'.run t := by
  cases b with
  | nil => rw [List.nil_append]; exact run_cons (by simp only [XMach.step, if_true]; exact h _) _
  | cons c b =>
    have hc := hb c (by simp)
    have hc' := blank_not_name hc
    rw [List.cons_append, run_cons (m' := ⟨stk, d, .closeEnd n, root⟩)]
    · exact run_closeEnd h (fun x hx => hb x (by simp [hx])) t
    · have : c ≠ '>' := by rcases hc with rfl | rfl | rfl <;> decide
      simp only [XMach.step, if_neg this, hc'.1, hc'.2, if_true, Bool.false_eq_true, if_false]

theorem run_attrsAs {stk d root n} {a : Attrs} {u : Str} (h : AttrsAs a u) : ∀ {as : Attrs} {st}, AtGap n as st →
    ((as.map Prod.fst) ++ a.map Prod.fst).Nodup →
    ∃ st', AtGap n (as ++ a) st' ∧ ∀ t, XMach.run ⟨stk, d, st, root⟩ (u ++ t) = XMach.run ⟨stk, d, st', root⟩ t := by
  induction h with
  | nil => intro as st hst _; exact ⟨st, by simpa using hst, fun _ => rfl⟩
  | @cons k v q b b1 b2 w a u hb hne hk hb1 hb2 hq hv _ ih =>
    intro as st hst hnd
    have hnew : k ∉ as.map Prod.fst := by
      rw [List.map_cons, List.nodup_append] at hnd
      intro hm
      exact hnd.2.2 _ hm _ List.mem_cons_self rfl
    obtain ⟨st', h1, h2⟩ := ih (AtGap.val (n := n) (as ++ [(k, .str v)])) (by simpa using hnd)
    refine ⟨st', by simpa using h1, fun t => ?_⟩
    obtain ⟨st1, -, hs, hrun⟩ := run_blanks (stk := stk) (d := d) (root := root) b (.at hst) hb
    have hok := xmlName_ok hk
    obtain ⟨c, r, hcr⟩ : ∃ c r, k.toList = c :: r := List.exists_cons_of_ne_nil hok.1
    have hall := hok.2
    rw [hcr] at hall
    simp only [List.all_cons, Bool.and_eq_true] at hall
    simp only [List.append_assoc, List.cons_append, hcr]
    rw [hrun, hs hne, run_cons (m' := ⟨stk, d, .attrName n as [c], root⟩) (by simp only [XMach.step, hall.1, if_true]),
      run_attrName _ _ hall.2, run_eq hb1, run_attrQ hb2,
      run_cons (m' := ⟨stk, d, .attrVal n as ([c] ++ r) q [], root⟩) (by simp only [XMach.step, if_pos hq]),
      run_valueAs hq hv, List.nil_append, ← h2]
    apply run_cons
    have e1 : String.ofList ([c] ++ r) = k := by rw [List.singleton_append, ← hcr, String.ofList_toList]
    have hcn : (as.map Prod.fst).contains k = false := by simpa using hnew
    simp only [XMach.step, if_true, e1, hcn, Bool.false_eq_true, if_false]

theorem betweenTags_eq (s : Str) : betweenTags s = textRun s := by
  have e : (∀ c ∈ s, c = ' ' ∨ c = '\t' ∨ c = '\n' ∨ c = '\r' ∨ c = '\x0c') ↔ s.all asciiSpace = true := by
    rw [List.all_eq_true]
    refine forall₂_congr fun c _ => ?_
    unfold asciiSpace
    simp only [Bool.or_eq_true, beq_iff_eq]
    tauto
  unfold betweenTags textRun
  simp only [e, List.contains_iff_mem]

theorem run_textAs_lt {n a done stk root} {s u : Str} (h : TextAs s u) (t : Str) :
    XMach.run ⟨(n, a, done) :: stk, [], .text, root⟩ (u ++ '<' :: t) =
      XMach.run ⟨(n, a, done ++ betweenTags s) :: stk, [], .lt, root⟩ t := by
  rw [run_textAs h, List.nil_append, betweenTags_eq]
  apply run_cons
  rfl

theorem elementAs_lt {x : Node} {u : Str} (h : ElementAs x u) :
    ∃ c r, u = '<' :: c :: r ∧ nameChar c = true ∧ x.isTag = true := by
  cases h with
  | @short n a t b hn _ _ _ =>
    have hok := xmlName_ok hn
    obtain ⟨c, r, hcr⟩ : ∃ c r, n.toList = c :: r := List.exists_cons_of_ne_nil hok.1
    rw [hcr] at hok ⊢
    exact ⟨c, _, rfl, (List.all_eq_true.1 hok.2) c (by simp), rfl⟩
  | @long n a t b ks u _ hn _ _ _ _ _ =>
    have hok := xmlName_ok hn
    obtain ⟨c, r, hcr⟩ : ∃ c r, n.toList = c :: r := List.exists_cons_of_ne_nil hok.1
    rw [hcr] at hok ⊢
    exact ⟨c, _, rfl, (List.all_eq_true.1 hok.2) c (by simp), rfl⟩

theorem place_lt {stk root} {x : Node} {m' : XMach} {st : XSt}
    (h : XMach.place x ⟨stk, [], .lt, root⟩ = .ok m') : XMach.place x ⟨stk, [], st, root⟩ = .ok m' := by
  rw [← h]
  unfold XMach.place
  cases stk with
  | cons => rfl
  | nil => cases root <;> rfl

theorem run_openTag {stk root} {n : String} {a : Attrs} {t b : Str} (hn : XmlName n.toList)
    (hnd : (a.map Prod.fst).Nodup) (ha : AttrsAs a t) (hb : Blanks b) :
    ∃ st, Gap n.toList a st ∧ ∀ w, XMach.run ⟨stk, [], .lt, root⟩ (n.toList ++ (t ++ (b ++ w))) =
      XMach.run ⟨stk, [], st, root⟩ w := by
  have hok := xmlName_ok hn
  obtain ⟨c, r, hcr⟩ : ∃ c r, n.toList = c :: r := List.exists_cons_of_ne_nil hok.1
  have hall := hok.2
  rw [hcr] at hall
  simp only [List.all_cons, Bool.and_eq_true] at hall
  obtain ⟨st1, h1, h2⟩ := run_attrsAs (stk := stk) (d := []) (root := root) ha (AtGap.name (n := n.toList)) (by simpa using hnd)
  rw [List.nil_append] at h1
  obtain ⟨st2, h3, -, h4⟩ := run_blanks (stk := stk) (d := []) (root := root) b (.at h1) hb
  refine ⟨st2, h3, fun w => ?_⟩
  rw [← h4, ← h2]
  rw [hcr, List.cons_append, run_cons (m' := ⟨stk, [], .openName [c], root⟩) (by
    simp only [XMach.step, if_neg (not_name_eq hall.1).2.1, hall.1, if_true]), run_openName _ _ hall.2,
    List.singleton_append]

mutual
theorem run_elementAs : ∀ {x : Node} {u : Str}, ElementAs x u → ∀ {stk root} {m' : XMach},
    XMach.place x ⟨stk, [], .lt, root⟩ = .ok m' → ∀ t, XMach.run ⟨stk, [], .lt, root⟩ (u.tail ++ t) = m'.run t
  | _, _, .short (n := n) (a := a) (t := t) (b := b) hn hnd ha hb, stk, root, m', hp, w => by
    obtain ⟨st, h1, h2⟩ := run_openTag (stk := stk) (root := root) hn hnd ha hb
    simp only [List.cons_append, List.tail_cons, List.append_assoc, List.nil_append]
    rw [h2, run_cons (m' := ⟨stk, [], .slash n.toList a, root⟩) (by rw [h1.step _ _ _ _ (by decide)]; rfl)]
    apply run_cons
    simp only [XMach.step, if_true, String.ofList_toList]
    exact place_lt hp
  | _, _, .long (n := n) (a := a) (t := t) (b := b) (ks := ks) (u := u) (c := c) hn hnd ha hb hk hc, stk, root, m', hp, w => by
    obtain ⟨st, h1, h2⟩ := run_openTag (stk := stk) (root := root) hn hnd ha hb
    simp only [List.cons_append, List.tail_cons, List.append_assoc, List.nil_append]
    rw [h2, run_cons (m' := ⟨(n, a, []) :: stk, [], .text, root⟩) (by
      rw [h1.step _ _ _ _ (by decide)]
      simp only [XMach.tagChar, String.ofList_toList]
      rfl), run_contentAs hk, List.nil_append,
      run_cons (m' := ⟨(n, a, ks) :: stk, [], .closeName [], root⟩) rfl, run_closeName _ _ (xmlName_ok hn).2,
      List.nil_append]
    refine run_close (fun st => ?_) hc w
    simp only [XMach.close, if_true, String.ofList_toList]
    exact place_lt hp

theorem run_contentAs : ∀ {ks : List Node} {u : Str}, ContentAs ks u → ∀ {n a done stk root} {t : Str},
    XMach.run ⟨(n, a, done) :: stk, [], .text, root⟩ (u ++ '<' :: t) =
      XMach.run ⟨(n, a, done ++ ks) :: stk, [], .lt, root⟩ t
  | _, _, .text h, _, _, _, _, _, _ => run_textAs_lt h _
  | _, _, .cons (s := s) (t := t) (x := x) (u := u) (ks := ks) (v := v) h hx hk, n, a, done, stk, root, w => by
    obtain ⟨c, r, hu, -, -⟩ := elementAs_lt hx
    have he := run_elementAs hx (stk := (n, a, done ++ betweenTags s) :: stk) (root := root)
      (m' := ⟨(n, a, done ++ betweenTags s ++ [x]) :: stk, [], .text, root⟩) rfl (v ++ '<' :: w)
    rw [hu] at he ⊢
    simp only [List.append_assoc, List.cons_append, List.tail_cons] at he ⊢
    rw [run_textAs_lt h, he, run_contentAs hk]
    simp
end

/-! ## The document -/

theorem newlines_linesAs {s u : Str} (h : LinesAs s u) : newlines u = s := by
  induction h with
  | nil => rfl
  | char hc _ ih => rw [newlines_cons hc, ih]
  | crlf _ ih => rw [newlines, ih]
  | cr hc _ ih => rw [newlines_cr hc, ih]

theorem linesAs_head {s u : Str} (h : LinesAs s u) {c : Char} (hc : s.head? = some c) (hn : c ≠ '\n') :
    ∃ s' u', s = c :: s' ∧ u = c :: u' ∧ LinesAs s' u' := by
  cases h with
  | nil => cases hc
  | char h1 h2 => injection hc with hc; subst hc; exact ⟨_, _, rfl, rfl, h2⟩
  | crlf => injection hc with hc; exact absurd hc.symm hn
  | cr => injection hc with hc; exact absurd hc.symm hn

theorem afterDecl_decl : ∀ {s : Str} (u : Str), '?' ∉ s → afterDecl (s ++ '?' :: '>' :: u) = u
  | [], u, _ => by rw [List.nil_append, afterDecl]; simp
  | c :: s, u, h => by
    simp only [List.mem_cons, not_or] at h
    rw [List.cons_append, afterDecl, if_neg (by rintro ⟨rfl, -⟩; exact h.1 rfl), afterDecl_decl u h.2]

theorem dropDecl_none {s u : Str} (h : LinesAs s u) (hs : ∀ r, s = '<' :: '?' :: r → ¬ "xml".toList <+: r) :
    dropDecl u = u := by
  rw [dropDecl, if_neg]
  rw [decl_start]
  intro hp
  rw [Bool.and_eq_true] at hp
  obtain ⟨r, hr⟩ := List.isPrefixOf_iff_prefix.1 hp.1
  subst hr
  cases h with
  | char _ h =>
    cases h with
    | char _ h =>
      cases h with
      | char _ h =>
        cases h with
        | char _ h =>
          cases h with
          | char _ h => exact hs _ rfl ⟨_, rfl⟩

theorem dropDecl_decl {s d u : Str} (hd : DeclAs d) (h : LinesAs s u)
    (hs : ∀ r, s = '<' :: '?' :: r → ¬ "xml".toList <+: r) : dropDecl (d ++ u) = u := by
  cases hd with
  | none => exact dropDecl_none h hs
  | @some c t hc hq =>
    have e : "<?xml".toList ++ c :: t ++ "?>".toList ++ u =
        ['<'] ++ '?' :: 'x' :: 'm' :: 'l' :: c :: (t ++ '?' :: '>' :: u) := by
      rw [decl_start]; simp
    have hsp : xmlSpace c = true := by rcases hc with rfl | rfl | rfl | rfl <;> decide
    have hcq : c ≠ '?' := by rcases hc with rfl | rfl | rfl | rfl <;> decide
    rw [e, dropDecl, if_pos (by rw [decl_start]; simp [hsp])]
    have : ∀ w, afterDecl (['<'] ++ '?' :: 'x' :: 'm' :: 'l' :: w) = afterDecl w := fun w => rfl
    rw [this, afterDecl, if_neg (fun h => hcq h.1), afterDecl_decl u hq]

theorem run_outer {root} : ∀ (b : Str) (d t : Str), Blanks b →
    XMach.run ⟨[], d, .text, root⟩ (b ++ t) = XMach.run ⟨[], d ++ b, .text, root⟩ t
  | [], d, t, _ => by simp
  | c :: b, d, t, hb => by
    rw [List.cons_append, run_cons (m' := ⟨[], d ++ [c], .text, root⟩),
      run_outer b _ t (fun x hx => hb x (by simp [hx]))]
    · simp
    · rcases hb c (by simp) with rfl | rfl | rfl <;> rfl

theorem blanks_space {b : Str} (hb : Blanks b) : b.all xmlSpace = true :=
  List.all_eq_true.2 fun c hc => (blank_not_name (hb c hc)).2

/-- What comes before the root. -/
theorem run_before {b w : Str} (hb : Blanks b) :
    XMach.run ⟨[], [], .text, none⟩ (b ++ '<' :: w) = XMach.run ⟨[], [], .lt, none⟩ w := by
  rw [run_outer b [] _ hb, List.nil_append]
  apply run_cons
  simp only [XMach.step, if_true, XMach.flush, blanks_space hb]

theorem not_decl {b t e : Str} (hb : Blanks b) {c : Char} {r : Str} (ht : t = '<' :: c :: r) (hc : c ≠ '?') :
    ∀ r, b ++ t ++ e = '<' :: '?' :: r → ¬ "xml".toList <+: r := by
  intro r' h
  exfalso
  cases b with
  | nil =>
    subst ht
    simp only [List.nil_append, List.cons_append, List.cons.injEq, true_and] at h
    exact hc h.1
  | cons y b =>
    injection h with h _
    have := hb y (by simp)
    rw [h] at this
    revert this
    decide

/-- However a document is written, that is what is read. -/
theorem parse_docAs {x : Node} {t : Str} (h : DocAs x t) : parseXml t = .ok x := by
  obtain ⟨hd, hb, hx, he, hl⟩ := h
  rename_i d b t e u
  obtain ⟨c, r, hu, hc, -⟩ := elementAs_lt hx
  have hcq : c ≠ '?' := by rintro rfl; revert hc; decide
  rw [parseXml, dropDecl_decl hd hl (not_decl hb hu hcq), newlines_linesAs hl]
  have hr := run_elementAs hx (stk := []) (root := none) (m' := ⟨[], [], .text, some x⟩) rfl (e ++ [])
  rw [hu] at hr ⊢
  simp only [List.tail_cons, List.append_nil] at hr
  have : XMach.run ⟨[], [], .text, none⟩ (b ++ '<' :: c :: r ++ e) = .ok ⟨[], e, .text, some x⟩ := by
    rw [List.append_assoc, List.cons_append, run_before hb, hr]
    have := run_outer (root := some x) e [] [] he
    rw [List.append_nil, List.nil_append] at this
    exact this
  rw [this]
  simp only [blanks_space he, if_true]

theorem run_error {m : XMach} {c : Char} {e : Err} (h : m.step c = .error e) (r : Str) : m.run (c :: r) = .error e := by
  rw [XMach.run, h]

theorem step_misc {root} {c : Char} (hc : c = '!' ∨ c = '?') (r : Str) :
    XMach.run ⟨[], [], .lt, root⟩ (c :: r) = .error .assertion := by
  apply run_error
  rcases hc with rfl | rfl <;> rfl

/-- Something other than white space before the root. -/
theorem parse_misc_before {d b s u : Str} (hd : DeclAs d) (hb : Blanks b) (hs : StartsMisc s) (hl : LinesAs (b ++ s) u) :
    parseXml (d ++ u) = .error .assertion := by
  have hdrop : dropDecl (d ++ u) = u := by
    refine dropDecl_decl hd hl fun r h => ?_
    cases b with
    | nil =>
      obtain ⟨r', rfl | ⟨rfl, hx⟩⟩ := hs
      · injection h with _ h; injection h with h _; exact absurd h (by decide)
      · injection h with _ h; injection h with _ h; subst h; exact hx
    | cons y b =>
      injection h with h _
      have := hb y (by simp)
      rw [h] at this
      exact absurd this (by decide)
  rw [parseXml, hdrop, newlines_linesAs hl]
  have : XMach.run ⟨[], [], .text, none⟩ (b ++ s) = .error .assertion := by
    obtain ⟨r, rfl | ⟨rfl, -⟩⟩ := hs <;> rw [run_before hb]
    · exact step_misc (Or.inl rfl) r
    · exact step_misc (Or.inr rfl) r
  rw [this]

/-- Something other than white space after the root. -/
theorem parse_misc_after {x : Node} {d b t e s u : Str} (hd : DeclAs d) (hb : Blanks b) (hx : ElementAs x t) (he : Blanks e)
    (hs : StartsMisc s) (hl : LinesAs (b ++ t ++ (e ++ s)) u) : parseXml (d ++ u) = .error .assertion := by
  obtain ⟨c, r, hu, hc, -⟩ := elementAs_lt hx
  have hcq : c ≠ '?' := by rintro rfl; revert hc; decide
  rw [parseXml, dropDecl_decl hd hl (not_decl hb hu hcq), newlines_linesAs hl]
  have hr := run_elementAs hx (stk := []) (root := none) (m' := ⟨[], [], .text, some x⟩) rfl (e ++ s)
  rw [hu] at hr ⊢
  simp only [List.tail_cons] at hr
  have : XMach.run ⟨[], [], .text, none⟩ (b ++ '<' :: c :: r ++ (e ++ s)) = .error .assertion := by
    rw [List.append_assoc, List.cons_append, run_before hb, List.cons_append, ← List.cons_append, hr]
    have key : ∀ w, XMach.run ⟨[], [], .text, some x⟩ (e ++ '<' :: w) = XMach.run ⟨[], [], .lt, some x⟩ w := by
      intro w
      rw [run_outer e [] _ he, List.nil_append]
      apply run_cons
      simp only [XMach.step, if_true, XMach.flush, blanks_space he]
    obtain ⟨r, rfl | ⟨rfl, -⟩⟩ := hs <;> rw [key]
    · exact step_misc (Or.inl rfl) r
    · exact step_misc (Or.inr rfl) r
  rw [this]

/-- No root. -/
theorem parse_no_root {d b u : Str} (hd : DeclAs d) (hb : Blanks b) (hl : LinesAs b u) :
    parseXml (d ++ u) = .error .assertion := by
  have hdrop : dropDecl (d ++ u) = u := by
    refine dropDecl_decl hd hl fun r h => ?_
    subst h
    exact absurd (hb '<' (by simp)) (by decide)
  rw [parseXml, hdrop, newlines_linesAs hl]
  have := run_outer (root := none) b [] [] hb
  rw [List.append_nil, List.nil_append] at this
  rw [this]
  simp only [XMach.run, blanks_space hb, if_true]

end Sang
