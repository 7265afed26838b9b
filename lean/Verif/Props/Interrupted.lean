import Verif.Spec.Interrupted
import Verif.Props.Replacer

/-!
# C164. Rewriting all the template files, interrupted and run again
-/

namespace Sang

open Spec

/-- `handle` would write the file. -/
def WouldWrite (fields : RFields) (d : TextDisk) (p : Str) : Prop :=
  fields ≠ [] ∧ ∃ text s, d p = some text ∧ (handleText fields [] text).2 = .ok (some s)

theorem tempName_cancel {p q : Str} (h : tempName p = tempName q) : p = q := List.append_cancel_right h

/-- What is left behind if one file is interrupted, as for its temporary file. -/
theorem handleStates_temp {fields : RFields} {seen : List Str} {d d' : TextDisk} {p : Str}
    (h : d' ∈ handleStates fields seen d p) (ht : d' (tempName p) ≠ none) :
    (d (tempName p) ≠ none ∧ d' p = d p) ∨ WouldWrite fields d' p := by
  rw [handleStates] at h
  split at h
  · rw [List.mem_singleton] at h; subst h; exact .inl ⟨ht, rfl⟩
  next hf =>
  split at h
  · rw [List.mem_singleton] at h; subst h; exact .inl ⟨ht, rfl⟩
  next text hd =>
  split at h
  next s hs =>
    rw [writeToStates] at h
    simp only [List.cons_append, List.mem_cons, List.mem_append, List.mem_map, List.not_mem_nil, or_false] at h
    rcases h with rfl | ⟨i, -, rfl⟩ | rfl
    · exact .inl ⟨ht, rfl⟩
    · right
      have : (d.put (tempName p) (s.take i)) p = some text := by
        simp only [TextDisk.put, if_neg (tempName_ne p).symm, hd]
      exact ⟨hf, text, s, this, (handleText_text fields [] seen text).1 ▸ hs⟩
    · refine absurd ?_ ht
      simp [TextDisk.move, tempName_ne p]
  · rw [List.mem_singleton] at h; subst h; exact .inl ⟨ht, rfl⟩

/-- The temporary file is gone when the file has been written. -/
theorem handleFile_temp {fields : RFields} {seen : List Str} {d : TextDisk} {p : Str}
    (h : WouldWrite fields d p ∨ d (tempName p) = none) : (handleFile fields seen d p).2.1 (tempName p) = none := by
  by_cases hw : WouldWrite fields d p
  · obtain ⟨hf, text, s, hd, hs⟩ := hw
    rw [(handleText_text fields [] seen text).1] at hs
    exact ((c64_final fields hf seen d p text hd).1 s hs).2.2
  · have ht := h.resolve_left hw
    rw [handleFile]
    split
    · exact ht
    next hf =>
    split
    · exact ht
    next text hd =>
    split
    · exact ht
    · exact ht
    next s hs =>
    refine absurd ⟨hf, text, s, hd, ?_⟩ hw
    rw [(handleText_text fields [] seen text).1, hs]

theorem handleFilesStates_spec {fields : RFields} : ∀ (ps : List Str) (seen : List Str) (d d' : TextDisk),
    ps.Nodup → (∀ p ∈ ps, tempName p ∉ ps) → d' ∈ handleFilesStates fields seen d ps →
    (∀ p ∈ ps, d' p = d p ∨ d' p = (handleFile fields [] d p).2.1 p) ∧
    (∀ p ∈ ps, d' (tempName p) ≠ none → (d (tempName p) ≠ none ∧ d' p = d p) ∨ WouldWrite fields d' p) ∧
    ∀ q, q ∉ ps → (∀ p ∈ ps, q ≠ tempName p) → d' q = d q
  | [], seen, d, d', _, _, h => by
    rw [handleFilesStates, List.mem_singleton] at h
    subst h
    exact ⟨by simp, by simp, fun _ _ _ => rfl⟩
  | p :: r, seen, d, d', hnd, htemp, h => by
    obtain ⟨hp, hnd'⟩ := List.nodup_cons.1 hnd
    have htp : tempName p ∉ p :: r := htemp p (by simp)
    have htr : ∀ q ∈ r, tempName q ∉ p :: r := fun q hq => htemp q (List.mem_cons_of_mem _ hq)
    have htr' : ∀ q ∈ r, tempName q ∉ r := fun q hq h => htr q hq (List.mem_cons_of_mem _ h)
    have hne : ∀ q ∈ r, q ≠ p ∧ q ≠ tempName p ∧ tempName q ≠ p ∧ tempName q ≠ tempName p := by
      intro q hq
      have h1 : q ≠ p := by rintro rfl; exact hp hq
      refine ⟨h1, ?_, ?_, fun h => h1 (tempName_cancel h)⟩
      · rintro rfl; exact htp (List.mem_cons_of_mem _ hq)
      · intro h; exact htr q hq (h ▸ List.mem_cons_self)
    rw [handleFilesStates, List.mem_append] at h
    rcases h with h | h
    · obtain ⟨h1, h2⟩ := c64_crash_safe fields seen d p d' h
      refine ⟨?_, ?_, ?_⟩
      · intro q hq
        rcases List.mem_cons.1 hq with rfl | hq
        · rwa [(handleFile_local fields seen [] d d q rfl).2] at h1
        · exact .inl (h2 q (hne q hq).1 (hne q hq).2.1)
      · intro q hq ht
        rcases List.mem_cons.1 hq with rfl | hq
        · exact handleStates_temp h ht
        · rw [h2 _ (hne q hq).2.2.1 (hne q hq).2.2.2] at ht
          exact .inl ⟨ht, h2 q (hne q hq).1 (hne q hq).2.1⟩
      · intro q hq hq'
        exact h2 q (fun e => hq (e ▸ List.mem_cons_self)) (hq' p (by simp))
    · match hx : handleFile fields seen d p with
      | (_, _, .error _) => rw [hx] at h; simp at h
      | (seen', x, .ok ()) =>
        rw [hx] at h
        simp only at h
        have ex : (handleFile fields seen d p).2.1 = x := by rw [hx]
        obtain ⟨i1, i2, i3⟩ := handleFilesStates_spec r seen' x d' hnd' htr' h
        have other : ∀ q, q ≠ p → q ≠ tempName p → x q = d q := fun q h1 h2 =>
          ex ▸ handleFile_other fields seen d p q h1 h2
        have hpx : d' p = x p := i3 p hp fun q hq => (hne q hq).2.2.1.symm
        have htx : d' (tempName p) = x (tempName p) :=
          i3 _ (fun h => htp (List.mem_cons_of_mem _ h)) fun q hq => (hne q hq).2.2.2.symm
        refine ⟨?_, ?_, ?_⟩
        · intro q hq
          rcases List.mem_cons.1 hq with rfl | hq
          · right
            rw [hpx, ← ex, (handleFile_local fields seen [] d d q rfl).2]
          · have e := other q (hne q hq).1 (hne q hq).2.1
            rw [← (handleFile_local fields [] [] x d q e).2, ← e]
            exact i1 q hq
        · intro q hq ht
          rcases List.mem_cons.1 hq with rfl | hq
          · rw [htx, ← ex] at ht
            by_cases hw : WouldWrite fields d q ∨ d (tempName q) = none
            · exact absurd (handleFile_temp hw) ht
            · push Not at hw
              refine .inl ⟨hw.2, ?_⟩
              rw [hpx, ← ex, handleFile]
              split
              · rfl
              next hf =>
              split
              · rfl
              next text hd =>
              split
              · rfl
              · rfl
              next s hs =>
              refine absurd ⟨hf, text, s, hd, ?_⟩ hw.1
              rw [(handleText_text fields [] seen text).1, hs]
          · have e := other q (hne q hq).1 (hne q hq).2.1
            rw [← e, ← other _ (hne q hq).2.2.1 (hne q hq).2.2.2]
            exact i2 q hq ht
        · intro q hq hq'
          rw [i3 q (fun h => hq (List.mem_cons_of_mem _ h)) fun q hq => hq' q (List.mem_cons_of_mem _ hq)]
          exact other q (fun e => hq (e ▸ List.mem_cons_self)) (hq' p (by simp))

/-- After a run that comes to its end, no temporary files are left but those that there were for files which aren't
written. -/
theorem handleFiles_temp {fields : RFields} : ∀ (ps : List Str) (seen : List Str) (d : TextDisk),
    ps.Nodup → (∀ p ∈ ps, tempName p ∉ ps) → (handleFiles fields seen d ps).2.2 = .ok () →
    (∀ p ∈ ps, d (tempName p) ≠ none → WouldWrite fields d p) →
    ∀ p ∈ ps, (handleFiles fields seen d ps).2.1 (tempName p) = none
  | [], _, _, _, _, _, _ => by simp
  | p :: r, seen, d, hnd, htemp, hok, hw => by
    obtain ⟨hp, hnd'⟩ := List.nodup_cons.1 hnd
    have htp : tempName p ∉ p :: r := htemp p (by simp)
    have htr : ∀ q ∈ r, tempName q ∉ p :: r := fun q hq => htemp q (List.mem_cons_of_mem _ hq)
    have htr' : ∀ q ∈ r, tempName q ∉ r := fun q hq h => htr q hq (List.mem_cons_of_mem _ h)
    have hne : ∀ q ∈ r, q ≠ p ∧ q ≠ tempName p ∧ tempName q ≠ p ∧ tempName q ≠ tempName p := by
      intro q hq
      have h1 : q ≠ p := by rintro rfl; exact hp hq
      refine ⟨h1, ?_, ?_, fun h => h1 (tempName_cancel h)⟩
      · rintro rfl; exact htp (List.mem_cons_of_mem _ hq)
      · intro h; exact htr q hq (h ▸ List.mem_cons_self)
    have ht := handleFile_temp (fields := fields) (seen := seen) (d := d) (p := p)
      (by
        by_cases h : d (tempName p) = none
        · exact .inr h
        · exact .inl (hw p (by simp) h))
    rw [handleFiles] at hok ⊢
    match hx : handleFile fields seen d p with
    | (_, _, .error _) => rw [hx] at hok; simp at hok
    | (seen', x, .ok ()) =>
      rw [hx] at hok ht
      simp only at hok ht ⊢
      have other : ∀ q, q ≠ p → q ≠ tempName p → x q = d q := fun q h1 h2 => by
        have := handleFile_other fields seen d p q h1 h2
        rwa [hx] at this
      have ih := handleFiles_temp r seen' x hnd' htr' hok (by
        intro q hq h
        rw [other _ (hne q hq).2.2.1 (hne q hq).2.2.2] at h
        obtain ⟨hf, text, s, h1, h2⟩ := hw q (List.mem_cons_of_mem _ hq) h
        exact ⟨hf, text, s, by rw [other q (hne q hq).1 (hne q hq).2.1, h1], h2⟩)
      intro q hq
      rcases List.mem_cons.1 hq with rfl | hq
      · rw [(c91_all_files fields seen' x r hnd' htr').2.2 _ (fun h => htp (List.mem_cons_of_mem _ h))
          fun q' hq' => (hne q' hq').2.2.2.symm]
        exact ht
      · exact ih q hq

/-- C164. If rewriting the template files is interrupted, any number of times and at whatever points, and then run to its
end, the disk is as if it had never been interrupted. What is missing from the English claim: as for C62, no block may
have a line naming a class in it or start inside another. -/
theorem c164_run_again_partial (fields : RFields) (hplain : ∀ n v, fields.lookup n = some v → Markerless v)
    (ps : List Str) (hnd : ps.Nodup) (htemp : ∀ p ∈ ps, tempName p ∉ ps) (d : TextDisk)
    (hno : ∀ p ∈ ps, d (tempName p) = none) (htext : ∀ p ∈ ps, ∀ text, d p = some text → PlainBlocks text)
    (hok : (handleFiles fields [] d ps).2.2 = .ok ()) {d' : TextDisk} (h : AfterInterruptions fields ps d d') :
    (handleFiles fields [] d' ps).2 = (handleFiles fields [] d ps).2 := by
  obtain ⟨-, hall, hothers⟩ := c91_all_files fields [] d ps hnd htemp
  have hall := hall hok
  have again : ∀ p ∈ ps, ∀ x : TextDisk, x p = (handleFile fields [] d p).2.1 p →
      (handleFile fields [] x p).2.2 = .ok () ∧
      (handleFile fields [] x p).2.1 p = (handleFile fields [] d p).2.1 p := by
    intro p hp x hx
    cases hd : d p with
    | none =>
      have e : x p = d p := by
        rw [hx, handleFile]
        simp only [hd]
        split <;> simp [hd]
      obtain ⟨h1, h2⟩ := handleFile_local fields [] [] x d p e
      exact ⟨h1.trans (hall p hp).1, h2⟩
    | some text =>
      obtain ⟨segs, g1, g2, g3, g4⟩ := htext p hp text hd
      have := c62_idempotent_partial fields hplain [] [] d p text hd segs g1 g2 g3 g4 (hall p hp).1
      obtain ⟨h1, h2⟩ := handleFile_local fields [] [] x _ p hx
      rw [h1, h2, this]
      exact ⟨(hall p hp).1, rfl⟩
  have inv : (∀ p ∈ ps, d' p = d p ∨ d' p = (handleFile fields [] d p).2.1 p) ∧
      (∀ p ∈ ps, d' (tempName p) ≠ none → WouldWrite fields d' p) ∧
      ∀ q, q ∉ ps → (∀ p ∈ ps, q ≠ tempName p) → d' q = d q := by
    induction h with
    | refl => exact ⟨fun _ _ => .inl rfl, fun p hp h => absurd (hno p hp) h, fun _ _ _ => rfl⟩
    | @tail x y _ hy ih =>
      obtain ⟨i1, i2, i3⟩ := ih
      obtain ⟨j1, j2, j3⟩ := handleFilesStates_spec ps [] x y hnd htemp hy
      refine ⟨fun p hp => ?_, fun p hp ht => ?_, fun q hq hq' => (j3 q hq hq').trans (i3 q hq hq')⟩
      · rcases j1 p hp with e | e
        · rw [e]
          exact i1 p hp
        · right
          rw [e]
          rcases i1 p hp with e' | e'
          · exact (handleFile_local fields [] [] x d p e').2
          · exact (again p hp x e').2
      · rcases j2 p hp ht with ⟨e1, e2⟩ | e
        · obtain ⟨hf, text, s, h1, h2⟩ := i2 p hp e1
          exact ⟨hf, text, s, e2.trans h1, h2⟩
        · exact e
  obtain ⟨i1, i2, i3⟩ := inv
  have hnow : ∀ p ∈ ps, (handleFile fields [] d' p).2.2 = .ok () ∧
      (handleFile fields [] d' p).2.1 p = (handleFile fields [] d p).2.1 p := by
    intro p hp
    rcases i1 p hp with e | e
    · obtain ⟨h1, h2⟩ := handleFile_local fields [] [] d' d p e
      exact ⟨h1.trans (hall p hp).1, h2⟩
    · exact again p hp d' e
  obtain ⟨kerr, kall, kothers⟩ := c91_all_files fields [] d' ps hnd htemp
  have hok' : (handleFiles fields [] d' ps).2.2 = .ok () := by
    cases he : (handleFiles fields [] d' ps).2.2 with
    | ok u => rfl
    | error e =>
      obtain ⟨pre, p, post, hps, -, h1, -⟩ := kerr e he
      rw [(hnow p (by rw [hps]; simp)).1] at h1
      cases h1
  refine Prod.ext (funext fun q => ?_) (hok'.trans hok.symm)
  by_cases hq : q ∈ ps
  · rw [(kall hok' q hq).2, (hall q hq).2, (hnow q hq).2]
  · by_cases ht : ∃ p ∈ ps, q = tempName p
    · obtain ⟨p, hp, rfl⟩ := ht
      rw [handleFiles_temp ps [] d' hnd htemp hok' i2 p hp,
        handleFiles_temp ps [] d hnd htemp hok (fun p hp h => absurd (hno p hp) h) p hp]
    · push Not at ht
      rw [kothers q hq ht, hothers q hq ht, i3 q hq ht]

/-- What `handle_all_files()` leaves is among what it may leave when it is interrupted. -/
theorem handleFiles_state (fields : RFields) : ∀ (ps : List Str) (seen : List Str) (d : TextDisk),
    (handleFiles fields seen d ps).2.2 = .ok () → (handleFiles fields seen d ps).2.1 ∈ handleFilesStates fields seen d ps
  | [], _, _, _ => by simp [handleFiles, handleFilesStates]
  | p :: r, seen, d, h => by
    rw [handleFiles] at h ⊢
    rw [handleFilesStates]
    match hx : handleFile fields seen d p with
    | (_, _, .error _) => rw [hx] at h; simp at h
    | (seen', x, .ok ()) =>
      rw [hx] at h
      simp only at h ⊢
      exact List.mem_append_right _ (handleFiles_state fields r seen' x h)

/-- C164 fails if a block names a class: a run that comes to its end would rewrite the file, but if it is interrupted after
that, every later run raises. -/
theorem c164_fails :
    let fields : RFields := [("foo".toList, "x".toList)]
    let d : TextDisk := fun q =>
      if q = "a.py".toList then some "### {{{ foo\nclass A:\n### }}}\n### {{{\n### }}}\n".toList else none
    (handleFiles fields [] d ["a.py".toList]).2.2 = .ok () ∧
    ∃ d', AfterInterruptions fields ["a.py".toList] d d' ∧
      (handleFiles fields [] d' ["a.py".toList]).2.2 = .error .value := by
  intro fields d
  have hok : (handleFiles fields [] d ["a.py".toList]).2.2 = .ok () := by decide +kernel
  exact ⟨hok, _, .single (handleFiles_state fields _ _ _ hok), by decide +kernel⟩

/-! ## The hypotheses are met -/

theorem exSegs_plain : PlainBlocks (segText exSegs) := by
  refine ⟨exSegs, exSegs_ok, exSegs_file, newlines_id (by decide +kernel), ?_⟩
  intro a body z h l hl
  simp only [exSegs, List.mem_cons, List.not_mem_nil, or_false, reduceCtorEq, false_or, Seg.block.injEq] at h
  rcases h with ⟨-, rfl, -⟩ | ⟨-, rfl, -⟩ <;>
    (rw [List.mem_singleton] at hl; subst hl; exact noClass_of (by decide +kernel))

/-- Two files; the process dies when it has written the first and the first five characters of the second one's
temporary file. -/
example :
    let d : TextDisk := fun q => if q ∈ ["a.py".toList, "b.py".toList] then some (segText exSegs) else none
    let d' : TextDisk := (writeTo d "a.py".toList (segText exOut)).put "b.py.1".toList ((segText exOut).take 5)
    AfterInterruptions exFields ["a.py".toList, "b.py".toList] d d' ∧ d' "a.py".toList ≠ d "a.py".toList ∧
    d' "b.py".toList = d "b.py".toList ∧
    (handleFiles exFields [] d' ["a.py".toList, "b.py".toList]).2 =
      (handleFiles exFields [] d ["a.py".toList, "b.py".toList]).2 := by
  intro d d'
  have h1 : (handleText exFields [] (segText exSegs)).2 = .ok (some (segText exOut)) := by decide +kernel
  have ha : d "a.py".toList = some (segText exSegs) := by simp [d]
  have hb : (writeTo d "a.py".toList (segText exOut)) "b.py".toList = some (segText exSegs) := by decide +kernel
  have hint : AfterInterruptions exFields ["a.py".toList, "b.py".toList] d d' := by
    refine .single ?_
    rw [handleFilesStates]
    refine List.mem_append_right _ ?_
    have hx : ∃ seen, handleFile exFields [] d "a.py".toList =
        (seen, writeTo d "a.py".toList (segText exOut), .ok ()) := by
      rw [handleFile, if_neg (by decide), ha]
      rcases hh : handleText exFields [] (segText exSegs) with ⟨seen, r⟩
      rw [hh] at h1
      simp only at h1
      subst h1
      exact ⟨seen, by simp only [hh]⟩
    obtain ⟨seen, hx⟩ := hx
    rw [hx]
    simp only
    rw [handleFilesStates]
    refine List.mem_append_left _ ?_
    rw [handleStates, if_neg (by decide), hb]
    simp only
    rw [(handleText_text exFields seen [] _).1, h1]
    simp only
    rw [writeToStates]
    refine List.mem_append_left _ (List.mem_cons_of_mem _ (List.mem_map.2 ⟨5, ?_, rfl⟩))
    decide +kernel
  refine ⟨hint, by decide +kernel, by decide +kernel, ?_⟩
  refine c164_run_again_partial exFields exFields_markerless _ (by decide) (by decide) d (by decide +kernel) ?_
    (by decide +kernel) hint
  intro p hp text ht
  have : d p = some (segText exSegs) := if_pos hp
  rw [this] at ht
  injection ht with ht
  exact ht ▸ exSegs_plain

end Sang
