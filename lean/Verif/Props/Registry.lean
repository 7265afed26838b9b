import Verif.Registry
import Verif.Spec.Names
import Mathlib.Tactic.IntervalCases
import Mathlib.Data.List.Induction

/-!
# Properties of the registry (C12, C13)
-/

namespace Sang
open Spec

theorem lowerC_eq (c : Char) : lowerC c = c.toLower := by
  have hc : c = Char.ofNat c.toNat := (Char.ofNat_toNat c).symm
  by_cases h : 65 ≤ c.toNat ∧ c.toNat ≤ 90
  · obtain ⟨h1, h2⟩ := h
    generalize c.toNat = n at *
    subst hc
    interval_cases n <;> decide
  · unfold lowerC Char.toLower
    rw [if_neg h, dif_neg]
    rintro ⟨h1, h2⟩
    exact h ⟨UInt32.le_iff_toNat_le.1 h1, UInt32.le_iff_toNat_le.1 h2⟩

theorem lower_eq (s : Str) : lower s = s.map Char.toLower := by
  rw [lower]
  exact List.map_congr_left fun c _ => lowerC_eq c

theorem normaliseName_cons (c : Char) (s : Str) :
    normaliseName (c :: s) =
      if c = '_' then normaliseName s else c.toLower :: normaliseName s := by
  have key : lowerC c = '_' ↔ c = '_' := by
    unfold lowerC
    split
    · rename_i h
      obtain ⟨h1, h2⟩ := h
      have hc : c = Char.ofNat c.toNat := (Char.ofNat_toNat c).symm
      generalize c.toNat = n at *
      subst hc
      interval_cases n <;> decide
    · rfl
  unfold normaliseName
  by_cases h : c = '_'
  · rw [if_pos h]
    have := key.2 h
    simp [lower, this]
  · rw [if_neg h]
    have : lowerC c ≠ '_' := fun e => h (key.1 e)
    rw [← lowerC_eq]
    simp [lower, this]

theorem toLower_underscore {c : Char} (h : c.toLower = Char.toLower '_') : c = '_' := by
  have e : Char.toLower '_' = '_' := by decide
  rw [e, ← lowerC_eq] at h
  unfold lowerC at h
  split at h
  · rename_i h'
    obtain ⟨h1, h2⟩ := h'
    have hc : c = Char.ofNat c.toNat := (Char.ofNat_toNat c).symm
    generalize c.toNat = n at *
    subst hc
    revert h
    interval_cases n <;> decide
  · exact h

theorem normaliseName_bare (s : Str) : normaliseName s = bareName s := by
  induction s with
  | nil => rfl
  | cons c s ih =>
    rw [normaliseName_cons, ih, bareName, bareName, List.filter_cons]
    by_cases h : c = '_' <;> simp [h]

theorem sameName_of_normalise_nil : ∀ t : Str, normaliseName t = [] → SameName [] t
  | [], _ => .nil
  | c :: t, h => by
    rw [normaliseName_cons] at h
    split at h
    · rename_i hc; subst hc; exact .right (sameName_of_normalise_nil t h)
    · cases h

theorem sameName_cons (c : Char) (s : Str) (hc : c ≠ '_')
    (ih : ∀ t, normaliseName s = normaliseName t → SameName s t) :
    ∀ t, normaliseName (c :: s) = normaliseName t → SameName (c :: s) t
  | [], h => by
    rw [normaliseName_cons, if_neg hc] at h; cases h
  | d :: t, h => by
    by_cases hd : d = '_'
    · subst hd
      rw [normaliseName_cons (c := '_'), if_pos rfl] at h
      exact .right (sameName_cons c s hc ih t h)
    · rw [normaliseName_cons, if_neg hc, normaliseName_cons, if_neg hd] at h
      injection h with h1 h2
      exact .char h1 (ih t h2)

/-- The normal form decides the specification's equivalence of names. -/
theorem sameName_iff (s t : Str) : SameName s t ↔ normaliseName s = normaliseName t := by
  constructor
  · intro h
    induction h with
    | nil => rfl
    | @char a b s t hab _ ih =>
      rw [normaliseName_cons, normaliseName_cons, hab, ih]
      by_cases ha : a = '_'
      · have hb : b = '_' := toLower_underscore (by rw [← hab, ha])
        rw [if_pos ha, if_pos hb]
      · have hb : b ≠ '_' := fun hb => ha (toLower_underscore (by rw [hab, hb]))
        rw [if_neg ha, if_neg hb]
    | left _ ih => rw [normaliseName_cons, if_pos rfl, ih]
    | right _ ih => rw [normaliseName_cons, if_pos rfl, ih]
  · revert t
    induction s with
    | nil => intro t h; exact sameName_of_normalise_nil t h.symm
    | cons c s ih =>
      by_cases hc : c = '_'
      · subst hc
        intro t h
        rw [normaliseName_cons, if_pos rfl] at h
        exact .left (ih t h)
      · exact sameName_cons c s hc ih

/-- C12. In any registry, names differing only in case and underscores get the same answer. -/
theorem c12_lookup_ignores_case_and_underscores {α : Type} (r : Registry α) (s t : Str)
    (h : SameName s t) : r.fromName s = r.fromName t := by
  simp only [Registry.fromName, (sameName_iff s t).1 h]

example : SameName "Time_Loop".toList "timeloop".toList := by
  rw [sameName_iff]; decide

/-- A registry after a history of registrations. -/
def registryAfter {α : Type} (hist : List (Registration α)) : Registry α :=
  hist.foldl (fun r x => r.register x.explicit x.className x.cls) []

theorem lookup_dictSet {κ α : Type} [DecidableEq κ] [BEq κ] [LawfulBEq κ] (k k' : κ) (v : α) (d : List (κ × α)) :
    (dictSet k v d).lookup k' = if k' = k then some v else d.lookup k' := by
  induction d with
  | nil =>
    simp only [dictSet, List.lookup_cons, List.lookup_nil]
    by_cases h : k' = k
    · subst h; simp
    · rw [if_neg h, beq_false_of_ne h]
  | cons p d ih =>
    obtain ⟨k₀, v₀⟩ := p
    simp only [dictSet]
    by_cases h0 : k₀ = k
    · subst h0
      rw [if_pos rfl]
      simp only [List.lookup_cons]
      by_cases h : k' = k₀
      · subst h; simp
      · rw [if_neg h, beq_false_of_ne h]
    · rw [if_neg h0]
      simp only [List.lookup_cons, ih]
      by_cases h : k' = k
      · subst h; rw [beq_false_of_ne (Ne.symm h0)]
      · rw [if_neg h, if_neg h]

theorem registeredName_eq {α : Type} (x : Registration α) :
    registeredName x.explicit x.className = x.name := by
  unfold registeredName Registration.name
  rcases x.explicit with _ | (_ | _) <;> simp

theorem lookup_after {α : Type} (hist : List (Registration α)) (x : Registration α) (n : Str) :
    (registryAfter (hist ++ [x])).fromName n =
      if normaliseName n = normaliseName x.name then .ok x.cls else (registryAfter hist).fromName n := by
  simp only [registryAfter, List.foldl_append, List.foldl_cons, List.foldl_nil, Registry.register,
    Registry.fromName, lookup_dictSet, registeredName_eq]
  by_cases h : normaliseName n = normaliseName x.name
  · rw [if_pos h, if_pos h]
  · rw [if_neg h, if_neg h]

/-- C13. After any history, `from_name(n)` is the class of the last registration under an
equivalent name. -/
theorem c13_last_registration_wins {α : Type} (hist : List (Registration α)) (n : Str) (c : α) :
    (registryAfter hist).fromName n = .ok c ↔
      ∃ pre x post, hist = pre ++ x :: post ∧ SameName x.name n ∧ x.cls = c ∧
        ∀ y ∈ post, ¬ SameName y.name n := by
  induction hist using List.reverseRecOn with
  | nil => simp [registryAfter, Registry.fromName]
  | append_singleton hist z ih =>
    rw [lookup_after]
    by_cases hz : normaliseName n = normaliseName z.name
    · rw [if_pos hz]
      constructor
      · intro h
        injection h with h
        exact ⟨hist, z, [], rfl, (sameName_iff _ _).2 hz.symm, h, by simp⟩
      · rintro ⟨pre, x, post, heq, hx, hc, hpost⟩
        rcases List.eq_nil_or_concat post with rfl | ⟨p', y, rfl⟩
        · have := List.append_inj' heq (by simp)
          simp only [List.cons.injEq, and_true] at this
          rw [this.2, hc]
        · exfalso
          have h' : hist ++ [z] = (pre ++ x :: p') ++ [y] := by rw [heq]; simp
          have := List.append_inj' h' (by simp)
          simp only [List.cons.injEq, and_true] at this
          exact hpost y (by simp) (by rw [← this.2]; exact (sameName_iff _ _).2 hz.symm)
    · rw [if_neg hz, ih]
      constructor
      · rintro ⟨pre, x, post, heq, hx, hc, hpost⟩
        refine ⟨pre, x, post ++ [z], by rw [heq]; simp, hx, hc, ?_⟩
        intro y hy
        rcases List.mem_append.1 hy with hy | hy
        · exact hpost y hy
        · simp only [List.mem_singleton] at hy
          subst hy
          intro h; exact hz ((sameName_iff _ _).1 h).symm
      · rintro ⟨pre, x, post, heq, hx, hc, hpost⟩
        rcases List.eq_nil_or_concat post with rfl | ⟨p', y, rfl⟩
        · exfalso
          have := List.append_inj' heq (by simp)
          simp only [List.cons.injEq, and_true] at this
          rw [← this.2] at hx
          exact hz ((sameName_iff _ _).1 hx).symm
        · have h' : hist ++ [z] = (pre ++ x :: p') ++ [y] := by rw [heq]; simp
          have := List.append_inj' h' (by simp)
          exact ⟨pre, x, p', this.1, hx, hc, fun w hw => hpost w (by simp [hw])⟩

/-- C13. `KeyError` exactly when nothing was registered under an equivalent name; no other
error can come out. -/
theorem c13_keyerror_iff_unregistered {α : Type} (hist : List (Registration α)) (n : Str) :
    ((registryAfter hist).fromName n = .error .key ↔ ∀ x ∈ hist, ¬ SameName x.name n) ∧
    ∀ e, (registryAfter hist).fromName n = .error e → e = .key := by
  constructor
  · induction hist using List.reverseRecOn with
    | nil => simp [registryAfter, Registry.fromName]
    | append_singleton hist z ih =>
      rw [lookup_after]
      by_cases hz : normaliseName n = normaliseName z.name
      · rw [if_pos hz]
        simp only [reduceCtorEq, List.mem_append, List.mem_singleton, false_iff, not_forall, not_not]
        exact ⟨z, Or.inr rfl, (sameName_iff _ _).2 hz.symm⟩
      · rw [if_neg hz, ih]
        constructor
        · intro h x hx
          rcases List.mem_append.1 hx with hx | hx
          · exact h x hx
          · simp only [List.mem_singleton] at hx
            subst hx
            intro h'; exact hz ((sameName_iff _ _).1 h').symm
        · intro h x hx; exact h x (by simp [hx])
  · intro e h
    unfold Registry.fromName at h
    split at h
    · injection h with h; exact h.symm
    · cases h

/-- A history with a re-registration: the later class wins, under any spelling. -/
example : (registryAfter [⟨none, "Circle".toList, 1⟩, ⟨some "solid_color".toList, "X".toList, 2⟩,
    ⟨some "CIRCLE".toList, "Other".toList, 3⟩]).fromName "cir_cle".toList = .ok 3 := by decide

end Sang
