import Verif.Value

/-! # Lemmas about doing something to every member of a list -/

namespace Sang

theorem mapRes_split {α β : Type} {f : α → Res β} {xs : List α} {ys a b : List β} {y : β}
    (h : mapRes f xs = .ok ys) (hy : ys = a ++ y :: b) :
    ∃ xa x xb, xs = xa ++ x :: xb ∧ mapRes f xa = .ok a ∧ f x = .ok y ∧ mapRes f xb = .ok b := by
  induction a generalizing xs ys with
  | nil =>
    cases xs with
    | nil => simp only [mapRes] at h; injection h with h; rw [← h] at hy; cases hy
    | cons x xs =>
      simp only [mapRes] at h
      cases hf : f x with
      | error e => simp [hf] at h
      | ok z =>
        cases hr : mapRes f xs with
        | error e => simp [hf, hr] at h
        | ok zs =>
          simp only [hf, hr] at h
          injection h with h
          rw [← h] at hy
          injection hy with h1 h2
          subst h1 h2
          exact ⟨[], x, xs, rfl, rfl, hf, hr⟩
  | cons w a ih =>
    cases xs with
    | nil => simp only [mapRes] at h; injection h with h; rw [← h] at hy; cases hy
    | cons x xs =>
      simp only [mapRes] at h
      cases hf : f x with
      | error e => simp [hf] at h
      | ok z =>
        cases hr : mapRes f xs with
        | error e => simp [hf, hr] at h
        | ok zs =>
          simp only [hf, hr] at h
          injection h with h
          rw [← h] at hy
          injection hy with h1 h2
          obtain ⟨xa, x', xb, e1, e2, e3, e4⟩ := ih hr h2
          refine ⟨x :: xa, x', xb, by simp [e1], ?_, e3, e4⟩
          simp [mapRes, hf, e2, h1]

/-- The other way: a split of the argument splits the result. -/
theorem mapRes_split' {α β : Type} {f : α → Res β} {xa xb : List α} {x : α} {ys : List β}
    (h : mapRes f (xa ++ x :: xb) = .ok ys) :
    ∃ a y b, ys = a ++ y :: b ∧ mapRes f xa = .ok a ∧ f x = .ok y ∧ mapRes f xb = .ok b := by
  induction xa generalizing ys with
  | nil =>
    simp only [List.nil_append, mapRes] at h
    cases hf : f x with
    | error e => simp [hf] at h
    | ok z =>
      cases hr : mapRes f xb with
      | error e => simp [hf, hr] at h
      | ok zs =>
        simp only [hf, hr] at h
        injection h with h
        exact ⟨[], z, zs, h.symm, rfl, rfl, rfl⟩
  | cons w xa ih =>
    simp only [List.cons_append, mapRes] at h
    cases hf : f w with
    | error e => simp [hf] at h
    | ok z =>
      cases hr : mapRes f (xa ++ x :: xb) with
      | error e => simp [hf, hr] at h
      | ok zs =>
        simp only [hf, hr] at h
        injection h with h
        obtain ⟨a, y, b, h1, h2, h3, h4⟩ := ih hr
        exact ⟨z :: a, y, b, by simp [← h, h1], by simp [mapRes, hf, h2], h3, h4⟩

theorem mapRes_image {α β : Type} {f : α → Res β} {xs : List α} {ys : List β}
    (h : mapRes f xs = .ok ys) {x : α} (hx : x ∈ xs) : ∃ y ∈ ys, f x = .ok y := by
  obtain ⟨xa, xb, rfl⟩ := List.append_of_mem hx
  obtain ⟨a, y, b, rfl, -, h3, -⟩ := mapRes_split' h
  exact ⟨y, by simp, h3⟩

/-- A list's members that pass a test: how they split. -/
theorem filter_split {α : Type} (p : α → Bool) (l a b : List α) (x : α)
    (h : l.filter p = a ++ x :: b) :
    ∃ la lb, l = la ++ x :: lb ∧ la.filter p = a ∧ lb.filter p = b ∧ p x = true := by
  induction l generalizing a with
  | nil => simp at h
  | cons y l ih =>
    cases hy : p y with
    | false =>
      rw [List.filter_cons_of_neg (by simp [hy])] at h
      obtain ⟨la, lb, h1, h2, h3, h4⟩ := ih a h
      exact ⟨y :: la, lb, by simp [h1], by simp [hy, h2], h3, h4⟩
    | true =>
      rw [List.filter_cons_of_pos hy] at h
      cases a with
      | nil =>
        injection h with h1 h2
        subst h1
        exact ⟨[], l, rfl, rfl, h2, hy⟩
      | cons z a =>
        injection h with h1 h2
        obtain ⟨la, lb, e1, e2, e3, e4⟩ := ih a h2
        exact ⟨y :: la, lb, by simp [e1], by rw [List.filter_cons_of_pos hy, e2, h1], e3, e4⟩

end Sang
