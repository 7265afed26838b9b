import Verif.Lemmas.Concurrent
import Verif.Props.Killed

/-!
# C153: animations saved to one file at the same time
-/

namespace Sang

open Spec

section
variable {D ι : Type} [DecidableEq ι] {C : Codec D} {prog : ι → D → D × Res Unit} {sif : Str}

/-- What has become of a process that was about to save `b`. -/
theorem saver_cases {fs : Disk} {bytes : ι → Bytes} {s : Sys ι} (h : Leads C prog sif (savers fs bytes) s) (i : ι) :
    s.procs i = .ready (bytes i) (.ok ()) ∨ (∃ n ≤ (bytes i).length, s.procs i = .writing (bytes i) n (.ok ())) ∨
      s.procs i = .done (.ok ()) := by
  induction h with
  | refl => exact .inl rfl
  | @tail s t _ hst ih =>
    obtain ⟨j, hst⟩ := hst
    by_cases hij : i = j
    · subst hij
      cases hst with
      | read h => rw [h] at ih; simp at ih
      | «open» h =>
        rw [h] at ih
        simp only [Proc.ready.injEq, reduceCtorEq, and_false, exists_false, or_false] at ih
        obtain ⟨rfl, rfl⟩ := ih
        exact .inr (.inl ⟨0, by omega, by simp⟩)
      | write h hf h0 hk =>
        rw [h] at ih
        simp only [Proc.writing.injEq, reduceCtorEq, or_false, false_or] at ih
        obtain ⟨n, _, rfl, rfl, rfl⟩ := ih
        exact .inr (.inl ⟨_, hk, by simp⟩)
      | close h =>
        rw [h] at ih
        simp only [Proc.writing.injEq, reduceCtorEq, or_false, false_or] at ih
        obtain ⟨n, _, rfl, rfl, rfl⟩ := ih
        exact .inr (.inr (by simp))
    · have : t.procs i = s.procs i := by cases hst <;> exact Function.update_of_ne hij ..
      rw [this]
      exact ih

/-- C153: no file but the one saved to is touched, whatever the order of the steps, and whether or not all of the
processes come to an end. -/
theorem c153_others {s t : Sys ι} (h : Leads C prog sif s t) {q : Str} (hq : q ≠ sif) : t.disk q = s.disk q := by
  induction h with
  | refl => rfl
  | tail _ hst ih =>
    obtain ⟨i, hst⟩ := hst
    rw [← ih]
    cases hst
    · rfl
    · exact put_other _ _ _ _ hq
    · exact put_other _ _ _ _ hq
    · rfl

/-- C153, what holds whatever the order of the steps. Either nobody has opened the file, and it is as it was; or there
is one, `l`, such that in the part of the file that `l` has written so far, every byte is what one of them has to write at
that place; and in the rest of the file, every byte is that or zero. -/
theorem c153_bytes_partial {fs : Disk} {bytes : ι → Bytes} {s : Sys ι} (h : Leads C prog sif (savers fs bytes) s) :
    (s = savers fs bytes) ∨
      ∃ l f n, s.disk sif = some f ∧
        (s.procs l = .writing (bytes l) n (.ok ()) ∨ s.procs l = .done (.ok ()) ∧ n = (bytes l).length) ∧
        (∀ j < n, ∃ i x, (bytes i)[j]? = some x ∧ f[j]? = some x) ∧
        (∀ (j : ℕ) x, f[j]? = some x → ∃ i y, (bytes i)[j]? = some y ∧ (x = y ∨ x = 0)) := by
  induction h with
  | refl => exact .inl rfl
  | @tail s t hs hst ih =>
    right
    obtain ⟨i, hst⟩ := hst
    have hc := saver_cases hs i
    cases hst with
    | read h => rw [h] at hc; simp at hc
    | @«open» b r h =>
      rw [h] at hc
      simp only [Proc.ready.injEq, reduceCtorEq, and_false, exists_false, or_false] at hc
      obtain ⟨rfl, rfl⟩ := hc
      exact ⟨i, [], 0, put_self _ _ _, .inl (by simp), by simp, by simp⟩
    | @write b f off k r h hf h0 hk =>
      rw [h] at hc
      simp only [Proc.writing.injEq, reduceCtorEq, or_false, false_or] at hc
      obtain ⟨n, _, rfl, rfl, rfl⟩ := hc
      rcases ih with rfl | ⟨l, f', n, hf', hl, h1, h2⟩
      · simp [savers] at h
      rw [hf] at hf'
      obtain rfl : f = f' := by injection hf'
      have hlen : (((bytes i).drop off).take k).length = k := by
        rw [List.length_take, List.length_drop]; omega
      have hget : ∀ j : ℕ, off ≤ j → j < off + k → (((bytes i).drop off).take k)[j - off]? = (bytes i)[j]? := by
        intro j ha hb
        rw [List.getElem?_take_of_lt (by omega), List.getElem?_drop]
        congr 1
        omega
      have hin : ∀ j : ℕ, j < off + k → ∃ y, (bytes i)[j]? = some y := fun j hj =>
        ⟨(bytes i)[j]'(by omega), List.getElem?_eq_getElem _⟩
      -- every byte of the new file, in the old one or written just now
      have hall : ∀ (j : ℕ) x, (writeAt f off (((bytes i).drop off).take k))[j]? = some x →
          ∃ i y, (bytes i)[j]? = some y ∧ (x = y ∨ x = 0) := by
        intro j x hx
        rw [writeAt_get, hlen] at hx
        split at hx
        · next hj =>
          split at hx
          · exact h2 j x hx
          · obtain ⟨y, hy⟩ := hin j (by omega)
            injection hx with hx
            exact ⟨i, y, hy, .inr hx.symm⟩
        · next hj =>
          split at hx
          · next hj' =>
            rw [hget j (by omega) hj'] at hx
            exact ⟨i, x, hx, .inl rfl⟩
          · exact h2 j x hx
      have hold : ∀ j : ℕ, (∃ i' x, (bytes i')[j]? = some x ∧ f[j]? = some x) → ∃ i' x, (bytes i')[j]? = some x ∧
          (writeAt f off (((bytes i).drop off).take k))[j]? = some x := by
        rintro j ⟨i', x, ha, hb⟩
        rw [writeAt_get, hlen]
        have hj : j < f.length := (List.getElem?_eq_some_iff.1 hb).1
        split
        · exact ⟨i', x, ha, hb⟩
        · split
          · next hj' =>
            rw [hget j (by omega) hj']
            obtain ⟨y, hy⟩ := hin j hj'
            exact ⟨i, y, hy, hy⟩
          · exact ⟨i', x, ha, hb⟩
      by_cases hil : l = i
      · subst hil
        rw [h] at hl
        simp only [Proc.writing.injEq, true_and, and_true, reduceCtorEq, false_and, or_false] at hl
        subst hl
        refine ⟨l, _, off + k, put_self _ _ _, .inl (by simp), fun j hj => ?_, hall⟩
        by_cases hj' : j < off
        · exact hold j (h1 j hj')
        · rw [writeAt_get, hlen, if_neg hj', if_pos hj, hget j (by omega) hj]
          obtain ⟨y, hy⟩ := hin j hj
          exact ⟨l, y, hy, hy⟩
      · refine ⟨l, _, n, put_self _ _ _, ?_, fun j hj => hold j (h1 j hj), hall⟩
        simpa only [Function.update_of_ne hil] using hl
    | @close b r h =>
      rw [h] at hc
      simp only [Proc.writing.injEq, reduceCtorEq, or_false, false_or] at hc
      obtain ⟨n, _, rfl, _, rfl⟩ := hc
      rcases ih with rfl | ⟨l, f, n, hf, hl, h1, h2⟩
      · simp [savers] at h
      refine ⟨l, f, n, hf, ?_, h1, h2⟩
      by_cases hil : l = i
      · subst hil
        rw [h] at hl
        simp only [Proc.writing.injEq, true_and, and_true, reduceCtorEq, false_and, or_false] at hl
        subst hl
        exact .inr ⟨by simp, rfl⟩
      · simpa only [Function.update_of_ne hil] using hl

/-- C153, if all of them save the same: whenever nobody is writing, and somebody has been, the file holds that. -/
theorem c153_same_partial {fs : Disk} {b : Bytes} {s : Sys ι} (h : Leads C prog sif (savers fs fun _ => b) s)
    (hq : ∀ i, ¬ (s.procs i).Writes) {i : ι} (hi : (s.procs i).Ended) : s.disk sif = some b := by
  rcases c153_bytes_partial h with rfl | ⟨l, f, n, hf, hl, h1, h2⟩
  · obtain ⟨r, hr⟩ := hi
    simp [savers] at hr
  rcases hl with hl | ⟨-, rfl⟩
  · exact absurd ⟨_, _, _, hl⟩ (hq l)
  rw [hf]
  congr 1
  apply List.ext_getElem?
  intro j
  by_cases hj : j < b.length
  · obtain ⟨_, x, ha, hb⟩ := h1 j hj
    rw [ha, hb]
  · rw [List.getElem?_eq_none (l := b) (by omega)]
    cases hfj : f[j]? with
    | none => rfl
    | some x =>
      obtain ⟨_, y, hy, -⟩ := h2 j x hfj
      rw [List.getElem?_eq_none (by omega)] at hy
      cases hy

/-- C153, if they take turns: whenever nobody is writing, the file is as it was before, or holds just what one of them
saved; and while one is writing it holds a beginning of what that one saves. -/
theorem c153_locked_partial {fs : Disk} {bytes : ι → Bytes} {s : Sys ι}
    (h : Relation.ReflTransGen (SaveLocked C prog sif) (savers fs bytes) s) :
    ((∀ i, ¬ (s.procs i).Writes) ∧
      (s = savers fs bytes ∨ ∃ i, (s.procs i).Ended ∧ s.disk sif = some (bytes i))) ∨
    ∃ i n, s.procs i = .writing (bytes i) n (.ok ()) ∧ (∀ j, (s.procs j).Writes → j = i) ∧
      s.disk sif = some ((bytes i).take n) := by
  induction h with
  | refl => exact .inl ⟨fun i ⟨b, n, r, h⟩ => by simp [savers] at h, .inl rfl⟩
  | @tail s t hs hst ih =>
    obtain ⟨i, hst, hlock⟩ := hst
    have hlead : Leads C prog sif (savers fs bytes) s :=
      Relation.ReflTransGen.mono (r := SaveLocked C prog sif) (fun _ _ h => ⟨h.choose, h.choose_spec.1⟩) _ _ hs
    have hc := saver_cases hlead i
    cases hst with
    | read h => rw [h] at hc; simp at hc
    | @«open» b r h =>
      rw [h] at hc
      simp only [Proc.ready.injEq, reduceCtorEq, and_false, exists_false, or_false] at hc
      obtain ⟨rfl, rfl⟩ := hc
      refine .inr ⟨i, 0, by simp, fun j hj => ?_, put_self _ _ _⟩
      by_contra hji
      simp only [Function.update_of_ne hji] at hj
      exact hlock ⟨_, _, h⟩ j hj
    | @write b f off k r h hf h0 hk =>
      rw [h] at hc
      simp only [Proc.writing.injEq, reduceCtorEq, or_false, false_or] at hc
      obtain ⟨n, _, rfl, rfl, rfl⟩ := hc
      rcases ih with ⟨ih, -⟩ | ⟨l, n, hl, hother, hdisk⟩
      · exact absurd ⟨_, _, _, h⟩ (ih i)
      obtain rfl := hother i ⟨_, _, _, h⟩
      rw [h] at hl
      simp only [Proc.writing.injEq, true_and, and_true] at hl
      subst hl
      rw [hdisk] at hf
      injection hf with hf
      subst hf
      refine .inr ⟨i, off + k, by simp, fun j hj => ?_, by rw [writeAt_end _ hk]; exact put_self _ _ _⟩
      by_contra hji
      simp only [Function.update_of_ne hji] at hj
      exact hji (hother j hj)
    | @close b r h =>
      rw [h] at hc
      simp only [Proc.writing.injEq, reduceCtorEq, or_false, false_or] at hc
      obtain ⟨n, _, rfl, _, rfl⟩ := hc
      rcases ih with ⟨ih, -⟩ | ⟨l, n, hl, hother, hdisk⟩
      · exact absurd ⟨_, _, _, h⟩ (ih i)
      obtain rfl := hother i ⟨_, _, _, h⟩
      rw [h] at hl
      simp only [Proc.writing.injEq, true_and, and_true] at hl
      subst hl
      rw [List.take_length] at hdisk
      refine .inl ⟨fun j hj => ?_, .inr ⟨i, ⟨.ok (), by simp⟩, hdisk⟩⟩
      by_cases hji : j = i
      · subst hji
        obtain ⟨b, n, r, hj⟩ := hj
        simp at hj
      · simp only [Function.update_of_ne hji] at hj
        exact hji (hother j hj)

/-- A process can write as much as it likes of what it has to. -/
theorem leads_write {s : Sys ι} {i : ι} {b f : Bytes} {off : ℕ} (k : ℕ) {r : Res Unit}
    (h : s.procs i = .writing b off r) (hf : s.disk sif = some f) (hk : off + k ≤ b.length) (ho : off ≤ f.length) :
    Leads C prog sif s
      ⟨s.disk.put sif (writeAt f off ((b.drop off).take k)), Function.update s.procs i (.writing b (off + k) r)⟩ := by
  rcases Nat.eq_zero_or_pos k with rfl | h0
  · have e1 : writeAt f off ((b.drop off).take 0) = f := by
      rw [writeAt, Nat.sub_eq_zero_of_le ho]
      simp
    have e2 : s.disk.put sif f = s.disk := by
      rw [Disk.put, ← hf]
      exact Function.update_eq_self ..
    have e3 : Function.update s.procs i (.writing b (off + 0) r) = s.procs := by
      rw [Nat.add_zero, ← h]
      exact Function.update_eq_self ..
    rw [e1, e2, e3]
    exact .refl
  · exact .single ⟨i, .write h hf h0 hk⟩

/-- C153 fails: if one process saves `a` and another saves `b`, which is no longer than `a`, then for any `k` up to the
length of `b` the file may hold in the end the first `k` bytes of `b` and after them those of `a`. -/
theorem c153_mixed {C : Codec D} {prog : Bool → D → D × Res Unit} (fs : Disk) (sif : Str) {a b : Bytes} {k : ℕ}
    (hab : b.length ≤ a.length) (hk : k ≤ b.length) :
    ∃ s, Leads C prog sif (savers fs fun i => if i then b else a) s ∧ (∀ i, (s.procs i).Ended) ∧
      s.disk sif = some (b.take k ++ a.drop k) := by
  have h1 : Leads C prog sif (savers fs fun i => if i then b else a) ⟨_, _⟩ := .single ⟨false, .open rfl⟩
  have h2 := h1.tail ⟨true, .open rfl⟩
  have h3 := h2.trans (leads_write (i := false) k rfl (put_self _ _ _) (by simp; omega) (by simp))
  have h4 := h3.trans (leads_write (i := true) b.length rfl (put_self _ _ _) (by simp) (by simp))
  have e4 : writeAt (writeAt [] 0 ((a.drop 0).take k)) 0 ((b.drop 0).take b.length) = b := by
    simp [writeAt]
    omega
  have h5 := h4.trans (leads_write (i := false) (a.length - k) (off := 0 + k) (b := a) rfl (put_self _ _ _) (by omega)
    (by simpa [writeAt] using by omega))
  have h6 := h5.tail ⟨true, .close (b := b) (r := .ok ()) (by simp)⟩
  have h7 := h6.tail ⟨false, .close (b := a) (r := .ok ()) (by simp; omega)⟩
  refine ⟨_, h7, ?_, ?_⟩
  · rintro (_ | _)
    · exact ⟨.ok (), by simp⟩
    · exact ⟨.ok (), by simp⟩
  · refine (put_self _ _ _).trans (congrArg some ?_)
    have e6 : (a.drop (0 + k)).take (a.length - k) = a.drop k := by simp
    have hl : (a.drop k).length = a.length - k := List.length_drop
    change writeAt (writeAt (writeAt [] 0 ((a.drop 0).take k)) 0 ((b.drop 0).take b.length)) (0 + k)
      ((a.drop (0 + k)).take (a.length - k)) = _
    have e7 : b.drop (k + (a.drop k).length) = [] := List.drop_eq_nil_of_le (by omega)
    rw [e4, e6, writeAt, Nat.zero_add, e7, List.append_nil, Nat.sub_eq_zero_of_le hk, List.replicate_zero, List.append_nil]

/-- C153 fails whenever the two are of different lengths and the shorter isn't a beginning of the longer: the file may
hold neither in the end. -/
theorem c153_neither {C : Codec D} {prog : Bool → D → D × Res Unit} (fs : Disk) (sif : Str) {a b : Bytes}
    (hab : b.length < a.length) (hne : ¬ b <+: a) :
    ∃ s, Leads C prog sif (savers fs fun i => if i then b else a) s ∧ (∀ i, (s.procs i).Ended) ∧
      s.disk sif ≠ some a ∧ s.disk sif ≠ some b := by
  obtain ⟨s, h1, h2, h3⟩ := c153_mixed (C := C) (prog := prog) fs sif hab.le le_rfl
  rw [List.take_length] at h3
  refine ⟨s, h1, h2, ?_, ?_⟩
  · rw [h3]
    intro h
    injection h with h
    exact hne ⟨_, h⟩
  · rw [h3]
    intro h
    injection h with h
    have := congrArg List.length h
    simp only [List.length_append, List.length_drop] at this
    omega

end

/-- An animation with a name. -/
def exCalled (s : String) : Node := .tag "canvas" [] [.tag "name" [] [.text s.toList]]

/-- C153 fails for animations: if one process saves an animation called "an" and another one called "by", the file may
hold in the end an animation which is neither, called "bn". -/
theorem c153_third {gzip : Bytes → Bytes} {gunzip : Bytes → Res Bytes} {prog : Bool → XmlDoc double → XmlDoc double × Res Unit}
    (fs : Disk) :
    let C := xmlCodec double (fun _ => true) gzip gunzip fun _ => true
    let sif := "a.sif".toList
    ∃ x y z : XmlDoc double, x.1 = exCalled "an" ∧ y.1 = exCalled "by" ∧ z.1 = exCalled "bn" ∧
    ∃ s, Leads C prog sif ⟨fs, fun i => if i then saving C y sif else saving C x sif⟩ s ∧ (∀ i, (s.procs i).Ended) ∧
      Anim.load C s.disk sif = .ok ⟨.sif, some sif, z⟩ := by
  intro C sif
  let x : XmlDoc double := ⟨exCalled "an", xmlOkB_ok (by decide +kernel), rfl⟩
  let y : XmlDoc double := ⟨exCalled "by", xmlOkB_ok (by decide +kernel), rfl⟩
  let a := utf8 (docText double (fun _ => true) x.1)
  let b := utf8 (docText double (fun _ => true) y.1)
  have hk : (b.take 54 ++ a.drop 54) = utf8 (docText double (fun _ => true) (exCalled "bn")) := by decide +kernel
  have hx : saving C x sif = .ready a (.ok ()) := rfl
  have hy : saving C y sif = .ready b (.ok ()) := rfl
  obtain ⟨s, h1, h2, h3⟩ := c153_mixed (C := C) (prog := prog) fs sif (a := a) (b := b) (k := 54)
    (by decide +kernel) (by decide +kernel)
  have hp : ∃ p, C.parse (b.take 54 ++ a.drop 54) = .ok ⟨exCalled "bn", p⟩ := by
    rw [hk]
    exact xmlCodec_parse (s := docText double (fun _ => true) (exCalled "bn")) (by decide +kernel) (by decide +kernel)
  obtain ⟨p, hp⟩ := hp
  refine ⟨x, y, ⟨exCalled "bn", p⟩, rfl, rfl, rfl, s, ?_, h2, ?_⟩
  · rw [hx, hy]
    convert h1 using 1
    simp only [savers, Sys.mk.injEq, true_and]
    funext i
    cases i <;> rfl
  · have hf : fmtForLoading s.disk sif = .ok .sif := by
      rw [c14_load_by_magic, h3, hk]
      decide +kernel
    simp only [Anim.load, hf, h3, hp]

/-- There are runs in which all save the same and the steps are mixed. -/
example {D : Type} {C : Codec D} {prog : Bool → D → D × Res Unit} (fs : Disk) (sif : Str) (b : Bytes) :
    ∃ s, Leads C prog sif (savers fs fun _ => b) s ∧ ∀ i, (s.procs i).Ended := by
  obtain ⟨s, h1, h2, -⟩ := c153_mixed (C := C) (prog := prog) fs sif (le_refl b.length) (le_refl _)
  exact ⟨s, by simpa using h1, h2⟩

/-- There are runs in which they take turns. -/
example {D : Type} {C : Codec D} {prog : Bool → D → D × Res Unit} (fs : Disk) (sif : Str) :
    ∃ s, Relation.ReflTransGen (SaveLocked C prog sif) (savers fs fun i => if i then [1] else [2, 3]) s ∧
      (∀ i, (s.procs i).Ended) ∧ s.disk sif = some [1] := by
  have l1 : Relation.ReflTransGen (SaveLocked C prog sif) (savers fs fun i => if i then [1] else [2, 3]) ⟨_, _⟩ :=
    .single ⟨false, .open (b := [2, 3]) rfl, fun _ j ⟨b, n, r, h⟩ => by simp [savers] at h⟩
  have l2 := l1.tail ⟨false, .write (b := [2, 3]) (off := 0) (k := 2) rfl (put_self _ _ _) (by simp) (by simp),
    fun ⟨b, r, h⟩ => by simp at h⟩
  have l3 := l2.tail ⟨false, .close (b := [2, 3]) (r := .ok ()) (by simp), fun ⟨b, r, h⟩ => by simp at h⟩
  have l4 := l3.tail ⟨true, .open (b := [1]) (r := .ok ()) (by simp [savers]), fun _ j ⟨b, n, r, h⟩ => by
    cases j <;> simp [savers] at h⟩
  have l5 := l4.tail ⟨true, .write (b := [1]) (r := .ok ()) (off := 0) (k := 1) (by simp) (put_self _ _ _) (by simp)
    (by simp), fun ⟨b, r, h⟩ => by simp at h⟩
  have l6 := l5.tail ⟨true, .close (b := [1]) (r := .ok ()) (by simp), fun ⟨b, r, h⟩ => by simp at h⟩
  refine ⟨_, l6, ?_, (put_self _ _ _).trans (by simp [writeAt])⟩
  rintro (_ | _) <;> exact ⟨.ok (), by simp⟩

end Sang
