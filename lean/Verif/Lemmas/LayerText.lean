import Verif.Spec.LayerText
import Verif.Lemmas.Literals
import Verif.Lemmas.NumText

namespace Sang
open Spec

/-! ## A literal can be read in one way only -/

theorem between_unique {q : Char} (hq : q = '\'' ∨ q = '"') {t s : Str} (h : Between q t s) :
    ∀ {t' s' r r' : Str}, Between q t' s' → t ++ q :: r = t' ++ q :: r' → t = t' ∧ s = s' ∧ r = r' := by
  have hqb : q ≠ '\\' := by rcases hq with rfl | rfl <;> decide
  have hqk : ∀ (k : Char) (m : ℕ), (k, m) ∈ [('x', 2), ('u', 4), ('U', 8)] → k ≠ '\\' ∧ k ≠ '\'' ∧ k ≠ '"' ∧
      k ≠ 'n' ∧ k ≠ 'r' ∧ k ≠ 't' := by
    intro k m hm
    simp only [List.mem_cons, Prod.mk.injEq, List.not_mem_nil, or_false] at hm
    rcases hm with ⟨rfl, -⟩ | ⟨rfl, -⟩ | ⟨rfl, -⟩ <;> decide
  induction h with
  | nil =>
    intro t' s' r r' h' he
    cases h' with
    | nil => simp at he; exact ⟨rfl, rfl, he⟩
    | plain c t s h1 h2 h3 h4 hb => simp at he; exact absurd he.1.symm h1
    | _ => simp at he; exact absurd he.1 hqb
  | plain c t s h1 h2 h3 h4 hb ih =>
    intro t' s' r r' h' he
    cases h' with
    | nil => simp at he; exact absurd he.1 h1
    | plain c' t' s' g1 g2 g3 g4 hb' =>
      simp only [List.cons_append, List.cons.injEq] at he
      obtain ⟨rfl, he⟩ := he
      obtain ⟨rfl, rfl, rfl⟩ := ih hb' he
      exact ⟨rfl, rfl, rfl⟩
    | _ => simp at he; exact absurd he.1 h2
  | same c t s hc hb ih =>
    intro t' s' r r' h' he
    cases h' with
    | nil => simp at he; exact absurd he.1.symm hqb
    | plain c' t' s' g1 g2 g3 g4 hb' => simp at he; exact absurd he.1.symm g2
    | same c' t' s' hc' hb' =>
      simp only [List.cons_append, List.cons.injEq, true_and] at he
      obtain ⟨rfl, he⟩ := he
      obtain ⟨rfl, rfl, rfl⟩ := ih hb' he
      exact ⟨rfl, rfl, rfl⟩
    | newline t' s' hb' => simp at he; exfalso; obtain ⟨rfl, -⟩ := he; revert hc; decide
    | «return» t' s' hb' => simp at he; exfalso; obtain ⟨rfl, -⟩ := he; revert hc; decide
    | tab t' s' hb' => simp at he; exfalso; obtain ⟨rfl, -⟩ := he; revert hc; decide
    | hex k ds t' s' c' hk hn hb' =>
      simp at he; exfalso
      obtain ⟨rfl, -⟩ := he
      have := hqk _ _ hk
      tauto
  | newline t s hb ih =>
    intro t' s' r r' h' he
    cases h' with
    | nil => simp at he; exact absurd he.1.symm hqb
    | plain c' t' s' g1 g2 g3 g4 hb' => simp at he; exact absurd he.1.symm g2
    | same c' t' s' hc' hb' => simp at he; exfalso; obtain ⟨rfl, -⟩ := he; revert hc'; decide
    | newline t' s' hb' =>
      simp only [List.cons_append, List.cons.injEq, true_and] at he
      obtain ⟨rfl, rfl, rfl⟩ := ih hb' he
      exact ⟨rfl, rfl, rfl⟩
    | «return» t' s' hb' => simp at he
    | tab t' s' hb' => simp at he
    | hex k ds t' s' c' hk hn hb' =>
      simp at he; exfalso
      obtain ⟨rfl, -⟩ := he
      have := hqk _ _ hk
      tauto
  | «return» t s hb ih =>
    intro t' s' r r' h' he
    cases h' with
    | nil => simp at he; exact absurd he.1.symm hqb
    | plain c' t' s' g1 g2 g3 g4 hb' => simp at he; exact absurd he.1.symm g2
    | same c' t' s' hc' hb' => simp at he; exfalso; obtain ⟨rfl, -⟩ := he; revert hc'; decide
    | newline t' s' hb' => simp at he
    | «return» t' s' hb' =>
      simp only [List.cons_append, List.cons.injEq, true_and] at he
      obtain ⟨rfl, rfl, rfl⟩ := ih hb' he
      exact ⟨rfl, rfl, rfl⟩
    | tab t' s' hb' => simp at he
    | hex k ds t' s' c' hk hn hb' =>
      simp at he; exfalso
      obtain ⟨rfl, -⟩ := he
      have := hqk _ _ hk
      tauto
  | tab t s hb ih =>
    intro t' s' r r' h' he
    cases h' with
    | nil => simp at he; exact absurd he.1.symm hqb
    | plain c' t' s' g1 g2 g3 g4 hb' => simp at he; exact absurd he.1.symm g2
    | same c' t' s' hc' hb' => simp at he; exfalso; obtain ⟨rfl, -⟩ := he; revert hc'; decide
    | newline t' s' hb' => simp at he
    | «return» t' s' hb' => simp at he
    | tab t' s' hb' =>
      simp only [List.cons_append, List.cons.injEq, true_and] at he
      obtain ⟨rfl, rfl, rfl⟩ := ih hb' he
      exact ⟨rfl, rfl, rfl⟩
    | hex k ds t' s' c' hk hn hb' =>
      simp at he; exfalso
      obtain ⟨rfl, -⟩ := he
      have := hqk _ _ hk
      tauto
  | hex k ds t s c hk hn hb ih =>
    intro t' s' r r' h' he
    have hkk := hqk _ _ hk
    cases h' with
    | nil => simp at he; exact absurd he.1.symm hqb
    | plain c' t' s' g1 g2 g3 g4 hb' => simp at he; exact absurd he.1.symm g2
    | same c' t' s' hc' hb' =>
      simp at he; exfalso
      obtain ⟨rfl, -⟩ := he
      tauto
    | newline t' s' hb' => simp at he; exfalso; tauto
    | «return» t' s' hb' => simp at he; exfalso; tauto
    | tab t' s' hb' => simp at he; exfalso; tauto
    | hex k' ds' t' s' c' hk' hn' hb' =>
      simp only [List.cons_append, List.cons.injEq, true_and, List.append_assoc] at he
      obtain ⟨rfl, he⟩ := he
      have hl : ds.length = ds'.length := by
        simp only [List.mem_cons, Prod.mk.injEq, List.not_mem_nil, or_false] at hk hk'
        rcases hk with ⟨rfl, h⟩ | ⟨rfl, h⟩ | ⟨rfl, h⟩ <;> simp_all
      obtain ⟨rfl, he2⟩ := List.append_inj he hl
      obtain ⟨rfl, rfl, rfl⟩ := ih hb' he2
      rw [hn, Option.some.injEq] at hn'
      exact ⟨rfl, by rw [Char.toNat_inj.mp hn'], rfl⟩

theorem literal_str {F : Fl} {t x : Str} (h : LiteralFor F t (.str x)) :
    ∃ q u, (q = '\'' ∨ q = '"') ∧ Between q u x ∧ t = q :: (u ++ [q]) := by
  cases h with
  | str q u s hq hb => exact ⟨q, u, hq, hb, rfl⟩

theorem literal_unique {F : Fl} {t t' x x' r r' : Str} (h : LiteralFor F t (.str x))
    (h' : LiteralFor F t' (.str x')) (he : t ++ r = t' ++ r') : t = t' ∧ x = x' ∧ r = r' := by
  obtain ⟨q, u, hq, hb, rfl⟩ := literal_str h
  obtain ⟨q', u', hq', hb', rfl⟩ := literal_str h'
  simp only [List.cons_append, List.append_assoc, List.nil_append, List.cons.injEq] at he
  obtain ⟨rfl, he⟩ := he
  obtain ⟨rfl, rfl, rfl⟩ := between_unique hq hb hb' he
  exact ⟨rfl, rfl, rfl⟩

theorem literals_unique {F : Fl} {l l' xs xs' : List Str} {r r' : Str}
    (h : List.Forall₂ (fun t x => LiteralFor F t (.str x)) l xs)
    (h' : List.Forall₂ (fun t x => LiteralFor F t (.str x)) l' xs')
    (he : l.flatMap (fun t => " ".toList ++ t) ++ ("]".toList ++ r) =
      l'.flatMap (fun t => " ".toList ++ t) ++ ("]".toList ++ r')) :
    l = l' ∧ xs = xs' ∧ r = r' := by
  induction h generalizing l' xs' with
  | nil =>
    cases h' with
    | nil => simpa using he
    | cons => simp at he
  | cons h1 _ ih =>
    cases h' with
    | nil => simp at he
    | cons g1 g2 =>
      simp only [List.flatMap_cons, List.append_assoc] at he
      have he := List.append_cancel_left he
      obtain ⟨rfl, rfl, he⟩ := literal_unique h1 g1 he
      obtain ⟨rfl, rfl, rfl⟩ := ih g2 he
      exact ⟨rfl, rfl, rfl⟩

/-! ## The names of the classes -/

/-- What is shown of a class. -/
def classText (c : LClass) : Str := symbolOf c ++ lower c.name.toList

theorem classText_ok : ∀ c ∈ layerClasses, classText c ≠ [] ∧ (classText c).head? ≠ some '-' ∧
    (∀ x ∈ classText c, x ≠ ' ' ∧ x ≠ ']') ∧ ∀ d ∈ layerClasses, classText d = classText c → d = c := by
  decide +kernel

theorem takeWhile_stops {p : Char → Bool} {a b : Str} (ha : ∀ x ∈ a, p x = true)
    (hb : ∀ x, b.head? = some x → p x = false) : (a ++ b).takeWhile p = a := by
  induction a with
  | nil =>
    cases b with
    | nil => rfl
    | cons x b => simp [hb x rfl]
  | cons x a ih =>
    have := ha x (by simp)
    simp only [List.cons_append, List.takeWhile_cons, this, if_true]
    rw [ih fun y hy => ha y (by simp [hy])]

theorem span_unique {p : Char → Bool} {a b a' b' : Str} (ha : ∀ x ∈ a, p x = true)
    (hb : ∀ x, b.head? = some x → p x = false) (ha' : ∀ x ∈ a', p x = true)
    (hb' : ∀ x, b'.head? = some x → p x = false) (h : a ++ b = a' ++ b') : a = a' ∧ b = b' := by
  have e := congrArg (List.takeWhile p) h
  rw [takeWhile_stops ha hb, takeWhile_stops ha' hb'] at e
  subst e
  exact ⟨rfl, List.append_cancel_left h⟩

theorem literals_head {l : List Str} {r : Str} {x : Char}
    (h : (l.flatMap (fun t => " ".toList ++ t) ++ ("]".toList ++ r)).head? = some x) : x = ' ' ∨ x = ']' := by
  cases l with
  | nil => simp at h; exact Or.inr h.symm
  | cons => simp at h; exact Or.inl h.symm

/-- The text of a layer can be read in one way only, whatever comes after it. -/
theorem shows_unique {F : Fl} {s s' r r' : Str} {d d' : ℕ} {c c' : LClass} {xs xs' : List Str}
    (hc : c ∈ layerClasses) (hc' : c' ∈ layerClasses) (h : Shows F s d c xs) (h' : Shows F s' d' c' xs')
    (he : s ++ r = s' ++ r') : d = d' ∧ c = c' ∧ xs = xs' ∧ s = s' ∧ r = r' := by
  obtain ⟨l, hl, rfl⟩ := h
  obtain ⟨l', hl', rfl⟩ := h'
  obtain ⟨h1, h2, h3, h4⟩ := classText_ok c hc
  obtain ⟨g1, g2, g3, g4⟩ := classText_ok c' hc'
  simp only [List.append_assoc] at he
  have he := List.append_cancel_left he
  rw [← List.append_assoc (symbolOf c), ← List.append_assoc (symbolOf c')] at he
  change List.replicate d '-' ++ (classText c ++ _) = List.replicate d' '-' ++ (classText c' ++ _) at he
  have hd : ∀ {e : LClass} {u : Str} (k1 : classText e ≠ []) (k2 : (classText e).head? ≠ some '-'),
      ∀ x, (classText e ++ u).head? = some x → (x == '-') = false := by
    intro e u k1 k2 x hx
    cases ht : classText e with
    | nil => exact absurd ht k1
    | cons y w =>
      rw [ht] at hx k2
      simp only [List.cons_append, List.head?_cons, Option.some.injEq] at hx
      subst hx
      simpa using k2
  obtain ⟨hdash, he⟩ := span_unique (p := fun x => x == '-') (by simp) (hd h1 h2) (by simp) (hd g1 g2) he
  have hdd : d = d' := by simpa using congrArg List.length hdash
  obtain ⟨hcc, he2⟩ := span_unique (p := fun x => x != ' ' && x != ']') (fun x hx => by simpa using h3 x hx)
    (fun x hx => by rcases literals_head hx with rfl | rfl <;> rfl)
    (fun x hx => by simpa using g3 x hx) (fun x hx => by rcases literals_head hx with rfl | rfl <;> rfl) he
  have := h4 c' hc' hcc.symm
  subst this
  obtain ⟨rfl, rfl, rfl⟩ := literals_unique hl hl' he2
  subst hdd
  exact ⟨rfl, rfl, rfl, rfl, rfl⟩

end Sang
