import Verif.Props.BywordsSaved

/-!
# C152: a program that is killed
-/

namespace Sang

open Spec

/-- At any point of a save, whether or not it would end in an exception, the other files are as before, and the file
saved to is as before or holds a beginning of what the save would leave in it. -/
theorem save_states {D : Type} (C : Codec D) (fs : Disk) (a : Anim D) (p : Str) :
    ∀ s ∈ (a.save C fs (some p)).crash, (∀ q, q ≠ p → s q = fs q) ∧
      (s p = fs p ∨ ∃ new i, (a.save C fs (some p)).disk p = some new ∧ s p = some (new.take i)) := by
  intro s hs
  refine ⟨fun q hq => (c16_other_files_untouched C fs a (some p) q (by simpa using Ne.symm hq) (by simp)).2 s hs, ?_⟩
  have wr : ∀ (a : Anim D) wrap empty, s ∈ (writeOut C fs a wrap empty p).crash → s p = fs p ∨
      ∃ new i, (writeOut C fs a wrap empty p).disk p = some new ∧ s p = some (new.take i) := by
    intro a wrap empty hs
    have key : ∀ b, s ∈ rewriteStates fs p b → s p = fs p ∨ ∃ i, s p = some (b.take i) := by
      intro b hs
      simp only [rewriteStates, List.mem_cons, List.mem_map] at hs
      rcases hs with rfl | ⟨i, _, rfl⟩
      · exact .inl rfl
      · exact .inr ⟨i, put_self _ _ _⟩
    unfold writeOut at hs ⊢
    simp only at hs ⊢
    split at hs
    · next ho =>
      simp only [ho, if_true]
      cases hr : C.render a.doc with
      | error e =>
        rw [hr] at hs
        exact (key _ hs).imp_right fun ⟨i, hi⟩ => ⟨_, i, put_self _ _ _, hi⟩
      | ok b =>
        rw [hr] at hs
        exact (key _ hs).imp_right fun ⟨i, hi⟩ => ⟨_, i, put_self _ _ _, hi⟩
    · simp only [List.mem_singleton] at hs
      subst hs
      exact .inl rfl
  simp only [Anim.save] at hs ⊢
  cases hf : fmtForSaving p with
  | error e =>
    rw [hf] at hs
    simp only [List.mem_singleton] at hs
    subst hs
    exact .inl rfl
  | ok f =>
    rw [hf] at hs
    simp only at hs ⊢
    cases f
    · exact wr _ _ _ hs
    · exact wr _ _ _ hs
    · simp only [fmtSave, List.mem_singleton] at hs
      subst hs
      exact .inl rfl
    · simp only [fmtSave, List.mem_singleton] at hs
      subst hs
      exact .inl rfl

/-- C152, one run. Whenever a program that opens an animation, works on it and saves it is killed, every file other
than the one it saves to is as before, and that one is as before, or holds a beginning of what it would hold at the end. -/
theorem c152_run_partial {D : Type} (C : Codec D) (prog : D → D × Res Unit) (src dst : Str) (fs : Disk) :
    ∀ s ∈ runStates C prog src dst fs, (∀ q, q ≠ dst → s q = fs q) ∧
      (s dst = fs dst ∨ ∃ new i, (runProgram C prog src dst fs).1 dst = some new ∧ s dst = some (new.take i)) := by
  intro s hs
  have same : s = fs → (∀ q, q ≠ dst → s q = fs q) ∧
      (s dst = fs dst ∨ ∃ new i, (runProgram C prog src dst fs).1 dst = some new ∧ s dst = some (new.take i)) := by
    rintro rfl
    exact ⟨fun _ _ => rfl, .inl rfl⟩
  rw [runStates] at hs
  split at hs
  · exact same (by simpa using hs)
  next a ha =>
  split at hs
  · exact same (by simpa using hs)
  next n hn =>
  rcases List.mem_cons.1 hs with hs | hs
  · exact same hs
  · simp only [runProgram, ha, hn]
    exact save_states C fs _ dst s hs

/-- A program touches no file but the one it saves to. -/
theorem run_others {D : Type} (C : Codec D) (prog : D → D × Res Unit) (src dst : Str) (fs : Disk) {q : Str}
    (hq : q ≠ dst) : (runProgram C prog src dst fs).1 q = fs q := by
  rw [runProgram]
  split
  · rfl
  split
  · rfl
  · exact (c16_other_files_untouched C fs _ (some dst) q (by simpa using Ne.symm hq) (by simp)).1

theorem done_cons {D : Type} {C : Codec D} {prog : BywordsUse → D → D × Res Unit} {sif : Str} {u : BywordsUse}
    {us : List BywordsUse} {fs fs' t : Disk} (h : runProgram C (prog u) sif sif fs = (fs', .ok ()))
    (ht : t ∈ doneStates C prog sif us fs') : t ∈ doneStates C prog sif (u :: us) fs := by
  obtain ⟨l, hl, rfl⟩ := List.mem_map.1 ht
  refine List.mem_map.2 ⟨u :: l, by simpa using hl, ?_⟩
  rw [runEach, h]

/-- C152, for runs of bywords one after another. Whenever one of them is killed, every other file is as before, and the
file bywords is run on holds what some of the runs left in it, or a beginning of that. -/
theorem c152_runs_partial {D : Type} (C : Codec D) (prog : BywordsUse → D → D × Res Unit) (sif : Str) :
    ∀ (us : List BywordsUse) (fs : Disk), ∀ s ∈ eachStates C prog sif us fs,
      (∀ q, q ≠ sif → s q = fs q) ∧
      ∃ t ∈ doneStates C prog sif us fs, s sif = t sif ∨ ∃ new i, t sif = some new ∧ s sif = some (new.take i)
  | [], fs, s, hs => by
    simp only [eachStates, List.mem_singleton] at hs
    subst hs
    exact ⟨fun _ _ => rfl, s, by simp [doneStates, runEach], .inl rfl⟩
  | u :: us, fs, s, hs => by
    rw [eachStates] at hs
    have h0 : fs ∈ doneStates C prog sif (u :: us) fs := List.mem_map.2 ⟨[], by simp, rfl⟩
    have h1 : (runProgram C (prog u) sif sif fs).1 ∈ doneStates C prog sif (u :: us) fs :=
      List.mem_map.2 ⟨[u], by simp, by rw [runEach_one.2 rfl]⟩
    rcases List.mem_append.1 hs with hs | hs
    · obtain ⟨a, b⟩ := c152_run_partial C (prog u) sif sif fs s hs
      refine ⟨a, ?_⟩
      rcases b with b | b
      · exact ⟨fs, h0, .inl b⟩
      · exact ⟨_, h1, .inr b⟩
    · cases hr : runProgram C (prog u) sif sif fs with
      | mk fs' o =>
        rw [hr] at hs
        cases o with
        | error e => cases hs
        | ok w =>
          obtain ⟨a, t, ht, b⟩ := c152_runs_partial C prog sif us fs' s hs
          refine ⟨fun q hq => ?_, t, done_cons hr ht, b⟩
          have h := run_others C (prog u) sif sif fs hq
          rw [hr] at h
          exact (a q hq).trans h

/-- C152 fails. Whatever the program does to an animation, if it runs to its end then there is a point at which, if it
is killed, the animation is lost: the file holds neither what it held nor what it would hold at the end, and opening it
raises an exception. -/
theorem c152_killed_fails {D : Type} {C : Codec D} {norm : D → D} (hC : C.Lawful norm) (prog : D → D × Res Unit)
    (sif : Str) (fs : Disk) (h : (runProgram C prog sif sif fs).2 = .ok ()) :
    ∃ s ∈ runStates C prog sif sif fs, s sif ≠ fs sif ∧ s sif ≠ (runProgram C prog sif sif fs).1 sif ∧
      ∃ e, Anim.load C s sif = .error e := by
  simp only [runProgram, runStates] at h ⊢
  cases ha : Anim.load C fs sif with
  | error e => rw [ha] at h; cases h
  | ok a =>
    rw [ha] at h
    simp only at h ⊢
    rcases hp : prog a.doc with ⟨n, _ | _⟩
    · rw [hp] at h; cases h
    · rw [hp] at h
      simp only at h ⊢
      have hold : ∃ old, fs sif = some old ∧ old ≠ [] := by
        rw [Anim.load] at ha
        cases hf : fmtForLoading fs sif with
        | error e => rw [hf] at ha; cases ha
        | ok f =>
          rw [c14_load_by_magic] at hf
          cases ho : fs sif with
          | none => rw [ho] at hf; cases hf
          | some old =>
            refine ⟨old, rfl, ?_⟩
            rintro rfl
            rw [ho] at hf
            cases hf
      obtain ⟨old, ho, hne⟩ := hold
      obtain ⟨s, hs, r⟩ := c17_crash_safety_fails hC fs { a with doc := n } sif old ho hne h
      exact ⟨s, List.mem_cons_of_mem _ hs, r⟩

/-- The same for runs one after another: if all of them run to their ends, each of them has such a point. -/
theorem c152_each_fails {D : Type} {C : Codec D} {norm : D → D} (hC : C.Lawful norm)
    (prog : BywordsUse → D → D × Res Unit) (sif : Str) :
    ∀ (us vs : List BywordsUse) (u : BywordsUse) (fs : Disk),
      (runEach C prog sif (us ++ u :: vs) fs).2 = .ok () →
      ∃ s ∈ eachStates C prog sif (us ++ u :: vs) fs, s sif ≠ (runEach C prog sif us fs).1 sif ∧
        s sif ≠ (runEach C prog sif (us ++ [u]) fs).1 sif ∧ ∃ e, Anim.load C s sif = .error e
  | [], vs, u, fs, h => by
    have h1 : (runProgram C (prog u) sif sif fs).2 = .ok () := by
      simp only [List.nil_append, runEach] at h
      rcases hr : runProgram C (prog u) sif sif fs with ⟨fs', _ | _⟩
      · rw [hr] at h; cases h
      · rfl
    obtain ⟨s, hs, a, b, c⟩ := c152_killed_fails hC (prog u) sif fs h1
    refine ⟨s, ?_, a, ?_, c⟩
    · simp only [List.nil_append, eachStates]
      exact List.mem_append_left _ hs
    · rw [List.nil_append, runEach_one.2 rfl]
      exact b
  | v :: us, vs, u, fs, h => by
    simp only [List.cons_append, runEach, eachStates] at h ⊢
    rcases hr : runProgram C (prog v) sif sif fs with ⟨fs', _ | _⟩
    · rw [hr] at h; cases h
    · rw [hr] at h
      obtain ⟨s, hs, r⟩ := c152_each_fails hC prog sif us vs u fs' h
      exact ⟨s, List.mem_append_right _ hs, r⟩

/-- There are runs that go to their ends, on a file with something in it. -/
example : let fs : Disk := fun p => if p = "a.sif".toList then some (60 :: 63 :: [7]) else none
    (runProgram exCodec (fun b => (8 :: b, .ok ())) "a.sif".toList "a.sif".toList fs).2 = .ok () := by decide

/-- A run of bywords that goes to its end, on a file with an animation of three lines, and the next one after it. -/
example (short : Node → Bool) {gzip : Bytes → Bytes} {gunzip : Bytes → Res Bytes}
    (g1 : ∀ b, gunzip (gzip b) = .ok b) (g2 : ∀ b, ∃ r, gzip b = 0x1f :: 0x8b :: r) :
    ∃ fs, (runEach (xmlCodec double short gzip gunzip fun _ => true)
      (fun u => onXml (adjust double .initial u.perm u.letters u.lines) (adjust_good _ u.perm u.letters u.lines))
      "a.sif".toList [exPlanetUse] fs).2 = .ok () := by
  obtain ⟨fs, a, h, e⟩ := file_of (F := double) (canOpen := fun _ => true) (f := .sif) (sif := "a.sif".toList) short g1 g2
    (by decide +kernel) (.inl rfl) rfl (n := exPlanet) ⟨xmlOkB_ok (by decide +kernel), rfl⟩
  exact ⟨fs, (c151_second_run_fails short g1 g2 (by decide +kernel) (.inl rfl) rfl h (e.trans (by decide +kernel))).2.1⟩

end Sang
