import Verif.Spec.ReplacerAtOnce
import Verif.Props.Replacer

/-!
# C162: one file rewritten by several processes at the same time
-/

namespace Sang

open Spec

section
variable {ι : Type} [DecidableEq ι] {p : Str}

/-- What stays true whatever the order of the steps. -/
structure TInv (p : Str) (s₀ s : TSys ι) : Prop where
  old : ∀ q n, s.names q = some n → n < s.next
  own : ∀ q q' n, s.names q = some n → s.names q' = some n → q = q'
  fds : ∀ i text off fd, s.procs i = .writing text off fd →
    fd < s.next ∧ ∀ q, q ≠ p → q ≠ tempName p → s.names q ≠ some fd
  others : ∀ q, q ≠ p → q ≠ tempName p → s.names q = s₀.names q ∧ s.held q = s₀.held q

omit [DecidableEq ι] in
theorem tinv_start {s : TSys ι} {text : ι → Str} (h : AboutTo s text) : TInv p s s :=
  ⟨h.old, h.own, fun i t off fd hi => (by rw [h.ready i] at hi; cases hi), fun _ _ _ => ⟨rfl, rfl⟩⟩

omit [DecidableEq ι] in
/-- A file which isn't that of a name can be changed and the name still holds the same. -/
theorem held_update {s : TSys ι} {q : Str} {fd : ℕ} (h : s.names q ≠ some fd) (x : Str) :
    (s.names q).map (Function.update s.files fd x) = (s.names q).map s.files := by
  cases hq : s.names q with
  | none => rfl
  | some n =>
    have : n ≠ fd := by rintro rfl; exact h hq
    simp [Function.update_of_ne this]

theorem tinv_step {s₀ s t : TSys ι} {i : ι} (h : TInv p s₀ s) (hs : TStep p i s t) : TInv p s₀ t := by
  have hpp : ∀ {j : ι} {x y : TProc}, Function.update s.procs i x j = y → j = i ∧ x = y ∨ j ≠ i ∧ s.procs j = y := by
    intro j x y e
    by_cases hj : j = i
    · subst hj; exact .inl ⟨rfl, by simpa using e⟩
    · exact .inr ⟨hj, by simpa [Function.update_of_ne hj] using e⟩
  cases hs with
  | @create text hi ht =>
    have hn : ∀ q n, Function.update s.names (tempName p) (some s.next) q = some n →
        q = tempName p ∧ n = s.next ∨ q ≠ tempName p ∧ s.names q = some n ∧ n < s.next := by
      intro q n e
      by_cases hq : q = tempName p
      · subst hq; exact .inl ⟨rfl, by simpa using e.symm⟩
      · rw [Function.update_of_ne hq] at e; exact .inr ⟨hq, e, h.old q n e⟩
    refine ⟨fun q n e => ?_, fun q q' n e e' => ?_, fun j x off fd e => ?_, fun q h1 h2 => ?_⟩
    · rcases hn q n e with ⟨_, rfl⟩ | ⟨_, _, hl⟩ <;> simp only <;> omega
    · rcases hn q n e with ⟨rfl, rfl⟩ | ⟨_, e1, hl⟩ <;> rcases hn q' _ e' with ⟨rfl, h3⟩ | ⟨_, e2, hl'⟩
      · rfl
      · omega
      · omega
      · exact h.own _ _ _ e1 e2
    · rcases hpp e with ⟨_, e⟩ | ⟨_, e⟩
      · simp only [TProc.writing.injEq] at e
        obtain ⟨-, -, rfl⟩ := e
        refine ⟨by simp, fun q _ h2 e => ?_⟩
        dsimp only at e
        rw [Function.update_of_ne h2] at e
        exact absurd (h.old _ _ e) (by omega)
      · obtain ⟨g1, g2⟩ := h.fds _ _ _ _ e
        refine ⟨by simp only; omega, fun q h1 h2 => ?_⟩
        dsimp only
        rw [Function.update_of_ne h2]
        exact g2 q h1 h2
    · obtain ⟨g1, g2⟩ := h.others q h1 h2
      refine ⟨by simp only [Function.update_of_ne h2, g1], ?_⟩
      rw [← g2]
      simp only [TSys.held, Function.update_of_ne h2]
      exact held_update (fun e => absurd (h.old _ _ e) (by omega)) _
  | @truncate text fd hi ht =>
    have hne : ∀ q, q ≠ tempName p → s.names q ≠ some fd := fun q h2 e => h2 (h.own _ _ _ e ht)
    refine ⟨h.old, h.own, fun j x off fd' e => ?_, fun q h1 h2 => ?_⟩
    · rcases hpp e with ⟨_, e⟩ | ⟨_, e⟩
      · simp only [TProc.writing.injEq] at e
        obtain ⟨-, -, rfl⟩ := e
        exact ⟨h.old _ _ ht, fun q _ h2 => hne q h2⟩
      · exact h.fds _ _ _ _ e
    · obtain ⟨g1, g2⟩ := h.others q h1 h2
      refine ⟨g1, ?_⟩
      rw [← g2]
      exact held_update (hne q h2) _
  | @write text off fd k hi h0 hk =>
    obtain ⟨f1, f2⟩ := h.fds _ _ _ _ hi
    refine ⟨h.old, h.own, fun j x off fd' e => ?_, fun q h1 h2 => ?_⟩
    · rcases hpp e with ⟨_, e⟩ | ⟨_, e⟩
      · simp only [TProc.writing.injEq] at e
        obtain ⟨-, -, rfl⟩ := e
        exact ⟨f1, f2⟩
      · exact h.fds _ _ _ _ e
    · obtain ⟨g1, g2⟩ := h.others q h1 h2
      refine ⟨g1, ?_⟩
      rw [← g2]
      exact held_update (f2 q h1 h2) _
  | @rename text fd fd' hi ht =>
    have hne := tempName_ne p
    have hn : ∀ q n, Function.update (Function.update s.names p (some fd')) (tempName p) none q = some n →
        q ≠ tempName p ∧ (q = p ∧ n = fd' ∨ q ≠ p ∧ s.names q = some n) := by
      intro q n e
      by_cases hq : q = tempName p
      · subst hq; simp at e
      · rw [Function.update_of_ne hq] at e
        refine ⟨hq, ?_⟩
        by_cases hp : q = p
        · subst hp; exact .inl ⟨rfl, by simpa using e.symm⟩
        · rw [Function.update_of_ne hp] at e; exact .inr ⟨hp, e⟩
    refine ⟨fun q n e => ?_, fun q q' n e e' => ?_, fun j x off fd'' e => ?_, fun q h1 h2 => ?_⟩
    · rcases (hn q n e).2 with ⟨_, rfl⟩ | ⟨_, e⟩
      · exact h.old _ _ ht
      · exact h.old _ _ e
    · obtain ⟨a1, a2⟩ := hn q n e
      obtain ⟨b1, b2⟩ := hn q' n e'
      rcases a2 with ⟨rfl, rfl⟩ | ⟨_, a3⟩ <;> rcases b2 with ⟨rfl, b3⟩ | ⟨_, b3⟩
      · rfl
      · exact absurd (h.own _ _ _ b3 ht) b1
      · exact absurd (h.own _ _ _ (b3 ▸ a3) ht) a1
      · exact h.own _ _ _ a3 b3
    · rcases hpp e with ⟨_, e⟩ | ⟨_, e⟩
      · cases e
      · obtain ⟨g1, g2⟩ := h.fds _ _ _ _ e
        refine ⟨g1, fun q h1 h2 => ?_⟩
        dsimp only
        rw [Function.update_of_ne h2, Function.update_of_ne h1]
        exact g2 q h1 h2
    · obtain ⟨g1, g2⟩ := h.others q h1 h2
      refine ⟨by simp only [Function.update_of_ne h2, Function.update_of_ne h1, g1], ?_⟩
      rw [← g2]
      simp only [TSys.held, Function.update_of_ne h2, Function.update_of_ne h1]
  | @gone text fd hi ht =>
    refine ⟨h.old, h.own, fun j x off fd' e => ?_, h.others⟩
    rcases hpp e with ⟨_, e⟩ | ⟨_, e⟩
    · cases e
    · exact h.fds _ _ _ _ e

theorem tinv_reach {s₀ s : TSys ι} {text : ι → Str} (h0 : AboutTo s₀ text) (h : Rewrites p s₀ s) : TInv p s₀ s := by
  induction h with
  | refl => exact tinv_start h0
  | tail _ hs ih =>
    obtain ⟨i, hs⟩ := hs
    exact tinv_step ih hs

/-- C162. Whatever the order of the steps, no file changes but the one that is rewritten and the temporary one. -/
theorem c162_others {s₀ s : TSys ι} {text : ι → Str} (h0 : AboutTo s₀ text) (h : Rewrites p s₀ s) {q : Str} (h1 : q ≠ p)
    (h2 : q ≠ tempName p) : s.held q = s₀.held q :=
  ((tinv_reach h0 h).others q h1 h2).2

omit [DecidableEq ι] in
theorem held_some {s : TSys ι} {q : Str} {n : ℕ} (h : s.names q = some n) : s.held q = some (s.files n) := by
  simp [TSys.held, h]

/-- Writing on at the end. -/
theorem textAt_end {text : Str} {off k : ℕ} (hk : off + k ≤ text.length) :
    textAt (text.take off) off ((text.drop off).take k) = text.take (off + k) := by
  have hl : (text.take off).length = off := by rw [List.length_take]; omega
  have e3 : (text.take off).drop (off + ((text.drop off).take k).length) = [] := List.drop_eq_nil_of_le (by omega)
  rw [textAt, hl, Nat.sub_self, List.replicate_zero, List.append_nil, List.take_of_length_le hl.le, e3, List.append_nil,
    List.take_add]

/-- How things are if they take turns. -/
structure TTurn (p : Str) (s₀ s : TSys ι) (text : ι → Str) : Prop where
  inv : TInv p s₀ s
  /-- Those that have ended have ended well. -/
  well : ∀ i r, s.procs i = .done r → r = .ok ()
  ready : ∀ i t, s.procs i = .ready t → t = text i
  /-- At most one is at it, and has the temporary file for itself. -/
  one : ∀ i t off fd, s.procs i = .writing t off fd →
    t = text i ∧ off ≤ t.length ∧ s.names (tempName p) = some fd ∧ s.files fd = t.take off ∧
      ∀ j, j ≠ i → ¬ (s.procs j).Open
  whole : (s.held p = s₀.held p ∧ ∀ i r, s.procs i ≠ .done r) ∨ ∃ i, s.procs i = .done (.ok ()) ∧ s.held p = some (text i)

theorem tturn_step {s₀ s t : TSys ι} {text : ι → Str} {i : ι} (h : TTurn p s₀ s text) (hs : TStep p i s t)
    (hl : (∃ x, s.procs i = .ready x) → ∀ j, ¬ (s.procs j).Open) : TTurn p s₀ t text := by
  have hinv := tinv_step h.inv hs
  have hpp : ∀ {j : ι} {x y : TProc}, Function.update s.procs i x j = y → j = i ∧ x = y ∨ j ≠ i ∧ s.procs j = y := by
    intro j x y e
    by_cases hj : j = i
    · subst hj; exact .inl ⟨rfl, by simpa using e⟩
    · exact .inr ⟨hj, by simpa [Function.update_of_ne hj] using e⟩
  have hne := tempName_ne p
  -- what has ended, when `i` goes from one thing to another without ending
  have hw : ∀ {x : TProc} {hp : Option Str}, (∀ r, s.procs i ≠ .done r) → (∀ r, x ≠ .done r) → hp = s.held p →
      (hp = s₀.held p ∧ ∀ j r, Function.update s.procs i x j ≠ .done r) ∨
        ∃ j, Function.update s.procs i x j = .done (.ok ()) ∧ hp = some (text j) := by
    rintro x hp h1 h2 rfl
    rcases h.whole with ⟨e, hn⟩ | ⟨j, e, hj⟩
    · refine .inl ⟨e, fun j r e' => ?_⟩
      rcases hpp e' with ⟨_, e'⟩ | ⟨_, e'⟩
      · exact h2 r e'
      · exact hn j r e'
    · refine .inr ⟨j, ?_, hj⟩
      have : j ≠ i := by rintro rfl; exact h1 _ e
      rw [Function.update_of_ne this, e]
  cases hs with
  | @create x hi ht =>
    have hno := hl ⟨x, hi⟩
    refine ⟨hinv, fun j r e => ?_, fun j y e => ?_, fun j y off fd e => ?_, ?_⟩
    · rcases hpp e with ⟨_, e⟩ | ⟨_, e⟩
      · cases e
      · exact h.well j r e
    · rcases hpp e with ⟨_, e⟩ | ⟨_, e⟩
      · cases e
      · exact h.ready j y e
    · rcases hpp e with ⟨hji, e'⟩ | ⟨_, e⟩
      · clear e
        subst hji
        simp only [TProc.writing.injEq] at e'
        obtain ⟨rfl, rfl, rfl⟩ := e'
        refine ⟨h.ready _ _ hi, by omega, by simp, by simp, fun j' hj' => ?_⟩
        dsimp only
        rw [Function.update_of_ne hj']
        exact hno j'
      · exact absurd ⟨_, _, _, e⟩ (hno j)
    · refine hw (by simp [hi]) (by simp) ?_
      simp only [TSys.held, Function.update_of_ne hne.symm]
      exact held_update (fun e => absurd (h.inv.old _ _ e) (by omega)) _
  | @truncate x fd hi ht =>
    have hno := hl ⟨x, hi⟩
    refine ⟨hinv, fun j r e => ?_, fun j y e => ?_, fun j y off fd' e => ?_, ?_⟩
    · rcases hpp e with ⟨_, e⟩ | ⟨_, e⟩
      · cases e
      · exact h.well j r e
    · rcases hpp e with ⟨_, e⟩ | ⟨_, e⟩
      · cases e
      · exact h.ready j y e
    · rcases hpp e with ⟨hji, e'⟩ | ⟨_, e⟩
      · clear e
        subst hji
        simp only [TProc.writing.injEq] at e'
        obtain ⟨rfl, rfl, rfl⟩ := e'
        refine ⟨h.ready _ _ hi, by omega, ht, by simp, fun j' hj' => ?_⟩
        dsimp only
        rw [Function.update_of_ne hj']
        exact hno j'
      · exact absurd ⟨_, _, _, e⟩ (hno j)
    · exact hw (by simp [hi]) (by simp) (held_update (fun e => hne (h.inv.own _ _ _ ht e)) _)
  | @write x off fd k hi h0 hk =>
    obtain ⟨o1, o2, o3, o4, o5⟩ := h.one _ _ _ _ hi
    refine ⟨hinv, fun j r e => ?_, fun j y e => ?_, fun j y off' fd' e => ?_, ?_⟩
    · rcases hpp e with ⟨_, e⟩ | ⟨_, e⟩
      · cases e
      · exact h.well j r e
    · rcases hpp e with ⟨_, e⟩ | ⟨_, e⟩
      · cases e
      · exact h.ready j y e
    · rcases hpp e with ⟨hji, e'⟩ | ⟨hj, e⟩
      · clear e
        subst hji
        simp only [TProc.writing.injEq] at e'
        obtain ⟨rfl, rfl, rfl⟩ := e'
        refine ⟨o1, hk, o3, ?_, fun j' hj' => ?_⟩
        · simp only [Function.update_self, o4]
          exact textAt_end hk
        · dsimp only
          rw [Function.update_of_ne hj']
          exact o5 j' hj'
      · exact absurd ⟨_, _, _, e⟩ (o5 j hj)
    · exact hw (by simp [hi]) (by simp) (held_update (fun e => hne (h.inv.own _ _ _ o3 e)) _)
  | @rename x fd fd' hi ht =>
    obtain ⟨o1, o2, o3, o4, o5⟩ := h.one _ _ _ _ hi
    obtain rfl : fd = fd' := by rw [o3] at ht; simpa using ht
    refine ⟨hinv, fun j r e => ?_, fun j y e => ?_, fun j y off' fd' e => ?_, .inr ⟨i, by simp, ?_⟩⟩
    · rcases hpp e with ⟨_, e⟩ | ⟨_, e⟩
      · simpa using e.symm
      · exact h.well j r e
    · rcases hpp e with ⟨_, e⟩ | ⟨_, e⟩
      · cases e
      · exact h.ready j y e
    · rcases hpp e with ⟨_, e⟩ | ⟨hj, e⟩
      · cases e
      · exact absurd ⟨_, _, _, e⟩ (o5 j hj)
    · simp only [TSys.held, Function.update_of_ne hne.symm, Function.update_self, Option.map_some, o4, List.take_length,
        o1]
  | @gone x fd hi ht =>
    obtain ⟨o1, o2, o3, o4, o5⟩ := h.one _ _ _ _ hi
    rw [o3] at ht
    cases ht

/-- C162, if nobody opens the temporary file before another is done with it: at every moment the file holds its old text,
or the complete text of one that has ended; and nobody ends with an exception. -/
theorem c162_in_turn_partial {s₀ s : TSys ι} {text : ι → Str} (h0 : AboutTo s₀ text) (h : RewritesInTurn p s₀ s) :
    ((s.held p = s₀.held p ∧ ∀ i r, s.procs i ≠ .done r) ∨
      ∃ i, s.procs i = .done (.ok ()) ∧ s.held p = some (text i)) ∧
    ∀ i r, s.procs i = .done r → r = .ok () := by
  have : TTurn p s₀ s text := by
    induction h with
    | refl =>
      exact ⟨tinv_start h0, fun i r e => (by rw [h0.ready i] at e; cases e),
        fun i t e => (by rw [h0.ready i] at e; simpa using e.symm),
        fun i t off fd e => (by rw [h0.ready i] at e; cases e),
        .inl ⟨rfl, fun i r e => by rw [h0.ready i] at e; cases e⟩⟩
    | tail _ hs ih =>
      obtain ⟨i, hs, hl⟩ := hs
      exact tturn_step ih hs hl
  exact ⟨this.whole, this.well⟩

/-! ## At the same time -/

/-- A process can open the temporary file. -/
theorem can_open (s : TSys ι) {i : ι} {x : Str} (h : s.procs i = .ready x) :
    ∃ t fd, Rewrites p s t ∧ t.names (tempName p) = some fd ∧ t.files fd = [] ∧
      t.procs = Function.update s.procs i (.writing x 0 fd) := by
  cases ht : s.names (tempName p) with
  | none => exact ⟨_, s.next, .single ⟨i, .create h ht⟩, by simp, by simp, rfl⟩
  | some fd => exact ⟨_, fd, .single ⟨i, .truncate h ht⟩, ht, by simp, rfl⟩

/-- A process can write as much as it likes of what it has to. -/
theorem can_write (s : TSys ι) {i : ι} {x : Str} {off fd : ℕ} (k : ℕ) (h : s.procs i = .writing x off fd)
    (hk : off + k ≤ x.length) (ho : off ≤ (s.files fd).length) :
    ∃ t, Rewrites p s t ∧ t.names = s.names ∧ t.files fd = textAt (s.files fd) off ((x.drop off).take k) ∧
      t.procs = Function.update s.procs i (.writing x (off + k) fd) := by
  rcases Nat.eq_zero_or_pos k with rfl | h0
  · refine ⟨s, .refl, rfl, ?_, ?_⟩
    · rw [textAt, Nat.sub_eq_zero_of_le ho]; simp
    · rw [Nat.add_zero, ← h]; exact (Function.update_eq_self ..).symm
  · exact ⟨_, .single ⟨i, .write h h0 hk⟩, rfl, by simp, rfl⟩

end

section
variable {p : Str}

/-- C162 fails: if two processes rewrite a file at the same time then one may end well, with any part of the other's text
in the file, … -/
theorem c162_incomplete {s₀ : TSys Bool} {text : Bool → Str} (h0 : AboutTo s₀ text) {n : ℕ}
    (hn : n ≤ (text true).length) :
    ∃ s, Rewrites p s₀ s ∧ s.procs false = .done (.ok ()) ∧ s.held p = some ((text true).take n) ∧
      ∃ fd, s.procs true = .writing (text true) n fd := by
  obtain ⟨s1, f1, r1, n1, c1, p1⟩ := can_open (p := p) s₀ (h0.ready false)
  obtain ⟨s2, r2, n2, c2, p2⟩ := can_write (p := p) s1 (i := false) (off := 0) (x := text false) (fd := f1)
    (text false).length (by rw [p1]; simp) (by simp) (by simp)
  obtain ⟨s3, f3, r3, n3, c3, p3⟩ := can_open (p := p) s2 (i := true) (x := text true) (by
    rw [p2, p1]; simpa using h0.ready true)
  obtain ⟨s4, r4, n4, c4, p4⟩ := can_write (p := p) s3 (i := true) (off := 0) (x := text true) (fd := f3) n
    (by rw [p3]; simp) (by simpa using hn) (by simp)
  have hf : s4.procs false = .writing (text false) (text false).length f1 := by
    rw [p4, p3, p2]; simp
  have ht : s4.names (tempName p) = some f3 := by rw [n4, n3]
  refine ⟨_, (((r1.trans r2).trans r3).trans r4).tail ⟨false, .rename hf ht⟩, by simp, ?_, f3, ?_⟩
  · simp only [TSys.held, Function.update_of_ne (tempName_ne p).symm, Function.update_self, Option.map_some, c4, c3]
    simp [textAt]
  · simp [p4]

/-- C162 fails also so: in the end one may have raised `FileNotFoundError`, and the file hold a mixture. -/
theorem c162_mixed {s₀ : TSys Bool} {text : Bool → Str} (h0 : AboutTo s₀ text)
    (hab : (text true).length ≤ (text false).length) {k : ℕ} (hk : k ≤ (text true).length) :
    ∃ s, Rewrites p s₀ s ∧ s.procs false = .done (.ok ()) ∧ s.procs true = .done (.error .notFound) ∧
      s.held p = some ((text true).take k ++ (text false).drop k) := by
  obtain ⟨s1, f1, r1, n1, c1, p1⟩ := can_open (p := p) s₀ (h0.ready false)
  have hi2 : s1.procs true = .ready (text true) := by rw [p1]; simpa using h0.ready true
  let s2 : TSys Bool := ⟨s1.names, Function.update s1.files f1 [], s1.next,
    Function.update s1.procs true (.writing (text true) 0 f1)⟩
  have r2 : Rewrites p s1 s2 := .single ⟨true, .truncate hi2 n1⟩
  have c2 : s2.files f1 = [] := by simp [s2]
  obtain ⟨s3, r3, n3, c3, p3⟩ := can_write (p := p) s2 (i := false) (off := 0) (fd := f1) (x := text false) k
    (by simp [s2, p1]) (by omega) (by simp)
  have e3 : s3.files f1 = (text false).take k := by rw [c3, c2]; simp [textAt]
  obtain ⟨s4, r4, n4, c4, p4⟩ := can_write (p := p) s3 (i := true) (off := 0) (fd := f1) (x := text true)
    (text true).length (by simp [p3, s2]) (by simp) (by simp)
  have e4 : s4.files f1 = text true := by
    rw [c4, e3]
    simp [textAt]
    omega
  obtain ⟨s5, r5, n5, c5, p5⟩ := can_write (p := p) s4 (i := false) (off := 0 + k) (fd := f1) (x := text false)
    ((text false).length - k) (by simp [p4, p3]) (by omega) (by rw [e4]; omega)
  have e5 : s5.files f1 = (text true).take k ++ (text false).drop k := by
    rw [c5, e4, Nat.zero_add]
    have h1 : ((text false).drop k).take ((text false).length - k) = (text false).drop k :=
      List.take_of_length_le (by simp)
    have h2 : (text true).drop (k + ((text false).drop k).length) = [] :=
      List.drop_eq_nil_of_le (by rw [List.length_drop]; omega)
    rw [h1, textAt, h2, List.append_nil, Nat.sub_eq_zero_of_le hk, List.replicate_zero, List.append_nil]
  have hn5 : s5.names (tempName p) = some f1 := by rw [n5, n4, n3]; exact n1
  have hf : s5.procs false = .writing (text false) (text false).length f1 := by
    rw [p5, Function.update_self, Nat.zero_add, Nat.add_sub_cancel' (by omega)]
  have hT : s5.procs true = .writing (text true) (text true).length f1 := by
    rw [p5, p4]; simp
  have r6 := ((((r1.trans r2).trans r3).trans r4).trans r5).tail ⟨false, .rename hf hn5⟩
  have r7 := r6.tail ⟨true, .gone (text := text true) (fd := f1) (by simpa using hT) (by simp)⟩
  refine ⟨_, r7, by simp, by simp, ?_⟩
  simp only [TSys.held, Function.update_of_ne (tempName_ne p).symm, Function.update_self, Option.map_some, e5]

/-- C162's hypotheses are met: a disk with one file, and two processes. -/
example (p : Str) (a b old : Str) :
    let s : TSys Bool := ⟨fun q => if q = p then some 0 else none, fun _ => old, 1, fun i => .ready (if i then b else a)⟩
    AboutTo s (fun i => if i then b else a) ∧ s.held p = some old := by
  refine ⟨⟨fun _ => rfl, fun q n h => ?_, fun q q' n h h' => ?_⟩, by simp [TSys.held]⟩
  · by_cases hq : q = p
    · simp [hq] at h; simp [← h]
    · simp [hq] at h
  · by_cases hq : q = p <;> by_cases hq' : q' = p <;> simp [hq, hq'] at h h' ⊢

/-- There are runs in which they take turns: the file holds what the second made of it. -/
example (p : Str) : let s₀ : TSys Bool := ⟨fun _ => none, fun _ => [], 0, fun i => .ready (if i then ['b'] else ['a'])⟩
    AboutTo s₀ (fun i => if i then ['b'] else ['a']) ∧
    ∃ s, RewritesInTurn p s₀ s ∧ (∀ i, s.procs i = .done (.ok ())) ∧ s.held p = some ['b'] := by
  intro s₀
  refine ⟨⟨fun _ => rfl, fun q n h => by simp [s₀] at h, fun q q' n h => by simp [s₀] at h⟩, ?_⟩
  have hne := tempName_ne p
  have l1 : RewritesInTurn p s₀ ⟨_, _, _, _⟩ :=
    .single ⟨false, .create (text := ['a']) (by simp [s₀]) rfl, fun _ j ⟨x, o, f, h⟩ => by simp [s₀] at h⟩
  have l2 := l1.tail ⟨false, .write (text := ['a']) (off := 0) (k := 1) (fd := 0) (by simp [s₀]) (by simp) (by simp),
    fun ⟨x, h⟩ => by simp at h⟩
  have l3 := l2.tail ⟨false, .rename (text := ['a']) (fd := 0) (fd' := 0) (by simp) (by simp [s₀]),
    fun ⟨x, h⟩ => by simp at h⟩
  have l4 := l3.tail ⟨true, .create (text := ['b']) (by simp [s₀]) (by simp),
    fun _ j ⟨x, o, f, h⟩ => by cases j <;> simp [s₀] at h⟩
  have l5 := l4.tail ⟨true, .write (text := ['b']) (off := 0) (k := 1) (fd := 1) (by simp [s₀]) (by simp) (by simp),
    fun ⟨x, h⟩ => by simp at h⟩
  have l6 := l5.tail ⟨true, .rename (text := ['b']) (fd := 1) (fd' := 1) (by simp) (by simp [s₀]),
    fun ⟨x, h⟩ => by simp at h⟩
  refine ⟨_, l6, ?_, ?_⟩
  · rintro (_ | _) <;> simp
  · simp [TSys.held, Function.update_of_ne hne.symm, textAt, s₀]

end

end Sang
