import Verif.Spec.Opening
import Verif.Props.Concurrent

/-!
# C161: opening an animation while others save to its file
-/

namespace Sang

open Spec

section
variable {D ι : Type} [DecidableEq ι] {C : Codec D} {prog : ι → D → D × Res Unit} {sif : Str}

theorem fmtForLoading_congr {fs fs' : Disk} (h : fs' sif = fs sif) : fmtForLoading fs' sif = fmtForLoading fs sif := by
  simp only [fmtForLoading, h]

theorem load_finish {fs : Disk} {f : Fmt} {b : Bytes} (hf : fmtForLoading fs sif = .ok f) (hb : fs sif = some b) :
    Anim.load C fs sif = finishOpening C f sif b := by
  cases f <;> simp only [Anim.load, hf, hb, finishOpening] <;> rfl

theorem load_refused {fs : Disk} {e : Err} (hf : fmtForLoading fs sif = .error e) : Anim.load C fs sif = .error e := by
  simp only [Anim.load, hf]

/-- How far it has got, if the file stays as it is. -/
def UndisturbedAt (C : Codec D) (sif : Str) (fs : Disk) : Opening D → Prop
  | .start => True
  | .sniffed f => fmtForLoading fs sif = .ok f
  | .reading f got => fmtForLoading fs sif = .ok f ∧ ∃ b, fs sif = some b ∧ got = b.take got.length
  | .done r => r = Anim.load C fs sif

theorem undisturbed_step {fs fs' : Disk} (h : fs' sif = fs sif) {o o' : Opening D} (hs : OpenStep C sif fs' o o')
    (ho : UndisturbedAt C sif fs o) : UndisturbedAt C sif fs o' := by
  cases hs with
  | sniff =>
    unfold sniffStep
    rw [fmtForLoading_congr h]
    cases hf : fmtForLoading fs sif with
    | error e => exact (load_refused hf).symm
    | ok f => exact hf
  | @«open» f =>
    have hf : fmtForLoading fs sif = .ok f := ho
    have hb : ∃ b, fs sif = some b := by
      rw [fmtForLoading] at hf
      cases hb : fs sif with
      | none => rw [hb] at hf; cases hf
      | some b => exact ⟨b, rfl⟩
    obtain ⟨b, hb⟩ := hb
    have hl : ∀ e : Res (Anim D), finishOpening C f sif b = e → e = Anim.load C fs sif := by
      rintro _ rfl
      exact (load_finish hf hb).symm
    cases f with
    | sif | sifz =>
      simp only [openStep, h, hb]
      exact ⟨hf, b, hb, rfl⟩
    | sfg | blank => exact hl _ rfl
  | @piece f got b k hb h0 hk =>
    obtain ⟨hf, b', hb', e⟩ := ho
    rw [h, hb'] at hb
    obtain rfl : b' = b := by simpa using hb
    refine ⟨hf, b', hb', ?_⟩
    have : (got ++ (b'.drop got.length).take k).length = got.length + k := by
      rw [List.length_append, List.length_take, List.length_drop]; omega
    rw [this, List.take_add, ← e]
  | @ends f got b hb hle =>
    obtain ⟨hf, b', hb', e⟩ := ho
    rw [h, hb'] at hb
    obtain rfl : b' = b := by simpa using hb
    rw [List.take_of_length_le hle] at e
    subst e
    exact (load_finish hf hb').symm

/-- C161, if the file stays as it is from the beginning to the end: opening it comes to what it would at one moment. -/
theorem c161_undisturbed_partial {s t : Sys ι} {r : Res (Anim D)}
    (h : Relation.ReflTransGen (Undisturbed C prog sif) (s, .start) (t, .done r)) : r = Anim.load C s.disk sif := by
  have : ∀ x : Sys ι × Opening D, Relation.ReflTransGen (Undisturbed C prog sif) (s, .start) x →
      x.1.disk sif = s.disk sif ∧ UndisturbedAt C sif s.disk x.2 := by
    intro x hx
    induction hx with
    | refl => exact ⟨rfl, trivial⟩
    | @tail x y _ hxy ih =>
      obtain ⟨hm, hd⟩ := hxy
      refine ⟨hd.trans ih.1, ?_⟩
      cases hm with
      | other _ => exact ih.2
      | ours hs => exact undisturbed_step ih.1 hs ih.2
  exact (this _ h).2

/-- C161. And so it can always be brought to its end. -/
theorem c161_ends (s : Sys ι) :
    Relation.ReflTransGen (Undisturbed C prog sif) (s, .start) (s, .done (Anim.load C s.disk sif)) := by
  have step : ∀ {o o' : Opening D}, OpenStep C sif s.disk o o' → Undisturbed C prog sif (s, o) (s, o') :=
    fun h => ⟨.ours h, rfl⟩
  have h1 : Undisturbed C prog sif (s, .start) (s, sniffStep s.disk sif) := step .sniff
  cases hf : fmtForLoading s.disk sif with
  | error e =>
    rw [load_refused hf]
    rw [sniffStep, hf] at h1
    exact .single h1
  | ok f =>
    rw [sniffStep, hf] at h1
    have h2 : Undisturbed C prog sif (s, .sniffed f) (s, openStep s.disk sif f) := step .open
    have hb : ∃ b, s.disk sif = some b := by
      rw [fmtForLoading] at hf
      cases hb : s.disk sif with
      | none => rw [hb] at hf; cases hf
      | some b => exact ⟨b, rfl⟩
    obtain ⟨b, hb⟩ := hb
    rw [load_finish hf hb]
    have main : openStep s.disk sif f = (.reading f [] : Opening D) →
        Relation.ReflTransGen (Undisturbed C prog sif) (s, .start) (s, .done (finishOpening C f sif b)) := by
      intro e
      rw [e] at h2
      have h3 := (Relation.ReflTransGen.single h1).tail h2
      rcases Nat.eq_zero_or_pos b.length with h0 | h0
      · have := h3.tail (step (.ends hb (by simp [h0])))
        rwa [show b = [] from List.eq_nil_of_length_eq_zero h0]
      · have h4 := h3.tail (step (.piece (k := b.length) hb h0 (by simp)))
        simp only [List.nil_append, List.length_nil, List.drop_zero, List.take_length] at h4
        exact h4.tail (step (.ends hb le_rfl))
    cases f with
    | sif | sifz => exact main (by simp only [openStep, hb])
    | sfg | blank => exact (Relation.ReflTransGen.single h1).tail h2

end

section
variable {D : Type} {C : Codec D} {prog : Unit → D → D × Res Unit} {sif : Str}

/-- How far one saver and the opening have got: `n` bytes of `b` have been written. -/
def PatchedAt (C : Codec D) (sif : Str) (a b : Bytes) (n : ℕ) : Opening D → Prop
  | .reading _ got => ∃ k m, k ≤ a.length ∧ m ≤ n ∧ got = patched a b k m
  | .done r => (∃ e, r = .error e) ∨ ∃ f k m, k ≤ a.length ∧ m ≤ n ∧ r = finishOpening C f sif (patched a b k m)
  | _ => True

theorem PatchedAt.mono {a b : Bytes} {n n' : ℕ} (h : n ≤ n') : ∀ {o : Opening D}, PatchedAt C sif a b n o →
    PatchedAt C sif a b n' o
  | .start, _ | .sniffed _, _ => trivial
  | .reading _ _, ⟨k, m, h1, h2, h3⟩ => ⟨k, m, h1, h2.trans h, h3⟩
  | .done _, .inl e => .inl e
  | .done _, .inr ⟨f, k, m, h1, h2, h3⟩ => .inr ⟨f, k, m, h1, h2.trans h, h3⟩

theorem patched_zero (a b : Bytes) (k : ℕ) : patched a b k 0 = a.take k := by simp [patched]

/-- Reading on in `b`. -/
theorem patched_more {a b : Bytes} {k m n j : ℕ} (hk : k ≤ a.length) (hm : m ≤ n) (hn : n ≤ b.length)
    (hj : (patched a b k m).length + j ≤ n) :
    ∃ m' ≤ n, patched a b k m ++ ((b.take n).drop (patched a b k m).length).take j = patched a b k m' := by
  rcases Nat.lt_or_ge k m with h | h
  · have hl : (patched a b k m).length = m := by
      simp only [patched, List.length_append, List.length_take, List.length_drop]; omega
    rw [hl] at hj ⊢
    refine ⟨m + j, hj, ?_⟩
    have e1 : ((b.take n).drop m).take j = (b.drop m).take j := by
      rw [List.drop_take, List.take_take, Nat.min_eq_left (by omega)]
    have e2 : (b.take (m + j)).drop k = (b.take m).drop k ++ (b.drop m).take j := by
      rw [List.take_add, List.drop_append_of_le_length]
      rw [List.length_take]; omega
    rw [patched, patched, e1, e2, List.append_assoc]
  · have e0 : patched a b k m = a.take k := by
      rw [patched, List.drop_eq_nil_of_le (by rw [List.length_take]; omega), List.append_nil]
    rw [e0] at hj ⊢
    have hl : (a.take k).length = k := by rw [List.length_take]; omega
    rw [hl] at hj ⊢
    refine ⟨k + j, hj, ?_⟩
    rw [patched, List.drop_take, List.drop_take, List.take_take, Nat.min_eq_left (by omega), Nat.add_sub_cancel_left]

theorem patched_step {fs : Disk} {a b : Bytes} {n : ℕ} (hn : n ≤ b.length)
    (hd : fs sif = some a ∧ n = 0 ∨ fs sif = some (b.take n)) {o o' : Opening D}
    (hs : OpenStep C sif fs o o') (ho : PatchedAt C sif a b n o) : PatchedAt C sif a b n o' := by
  cases hs with
  | sniff =>
    unfold sniffStep
    split
    · exact .inl ⟨_, rfl⟩
    · trivial
  | @«open» f =>
    have : ∀ g : Fmt, PatchedAt C sif a b n (match fs sif with
        | none => .done (.error .notFound)
        | some _ => .reading g [] : Opening D) := by
      intro g
      split
      · exact .inl ⟨_, rfl⟩
      · exact ⟨0, 0, by omega, by omega, by simp [patched]⟩
    cases f with
    | sif => exact this .sif
    | sifz => exact this .sifz
    | sfg | blank => exact .inl ⟨_, rfl⟩
  | @piece f got c j hc h0 hj =>
    obtain ⟨k, m, hk, hm, rfl⟩ := ho
    rcases hd with ⟨hd, rfl⟩ | hd
    · obtain rfl : a = c := by rw [hd] at hc; simpa using hc
      obtain rfl : m = 0 := by omega
      rw [patched_zero] at hj ⊢
      have hl : (a.take k).length = k := by rw [List.length_take]; omega
      rw [hl] at hj ⊢
      exact ⟨k + j, 0, hj, le_rfl, by rw [patched_zero, List.take_add]⟩
    · obtain rfl : b.take n = c := by rw [hd] at hc; simpa using hc
      rw [List.length_take, Nat.min_eq_left hn] at hj
      obtain ⟨m', h1, h2⟩ := patched_more hk hm hn hj
      exact ⟨k, m', hk, h1, h2⟩
  | @ends f got c hc hle =>
    obtain ⟨k, m, hk, hm, rfl⟩ := ho
    exact .inr ⟨f, k, m, hk, hm, rfl⟩

/-- C161, with one process that saves `b` to a file that holds `a`. Whatever the order of the steps: if the opening
doesn't raise, then what it takes the file to hold is the first `k` bytes of `a` and, from there on, those of the first
`m` bytes of `b`, for some `k` and `m`. Missing: that is neither `a` nor `b` in general (`c161_patched`). -/
theorem c161_saved_over_partial {fs : Disk} {a b : Bytes} (ha : fs sif = some a) {s : Sys Unit} {r : Res (Anim D)}
    (h : Relation.ReflTransGen (Meanwhile C prog sif) (savers fs fun _ => b, .start) (s, .done r)) :
    (∃ e, r = .error e) ∨
      ∃ f k m, k ≤ a.length ∧ m ≤ b.length ∧ r = finishOpening C f sif (patched a b k m) := by
  have inv : ∀ x : Sys Unit × Opening D,
      Relation.ReflTransGen (Meanwhile C prog sif) (savers fs fun _ => b, .start) x →
      ∃ n ≤ b.length, PatchedAt C sif a b n x.2 ∧
        ((x.1.procs () = .ready b (.ok ()) ∧ n = 0 ∧ x.1.disk sif = some a) ∨
         (x.1.procs () = .writing b n (.ok ()) ∧ x.1.disk sif = some (b.take n)) ∨
         (x.1.procs () = .done (.ok ()) ∧ n = b.length ∧ x.1.disk sif = some (b.take n))) := by
    intro x hx
    induction hx with
    | refl => exact ⟨0, by omega, trivial, .inl ⟨rfl, rfl, ha⟩⟩
    | @tail x y _ hxy ih =>
      obtain ⟨n, hn, ho, hw⟩ := ih
      cases hxy with
      | @ours s o o' hs =>
        refine ⟨n, hn, patched_step hn ?_ hs ho, hw⟩
        rcases hw with ⟨_, h0, hd⟩ | ⟨_, hd⟩ | ⟨_, _, hd⟩
        · exact .inl ⟨hd, h0⟩
        · exact .inr hd
        · exact .inr hd
      | @other s t o hs =>
        obtain ⟨⟨⟩, hs⟩ := hs
        rcases hw with ⟨hp, h0, hd⟩ | ⟨hp, hd⟩ | ⟨hp, h0, hd⟩
        · cases hs with
          | «open» h' =>
            obtain ⟨rfl, rfl⟩ : b = _ ∧ _ = _ := by simpa using hp.symm.trans h'
            exact ⟨0, by omega, h0 ▸ ho, .inr (.inl ⟨by simp, by simp [Disk.put]⟩)⟩
          | read h' => simp only at hp; rw [hp] at h'; cases h'
          | write h' => simp only at hp; rw [hp] at h'; cases h'
          | close h' => simp only at hp; rw [hp] at h'; cases h'
        · cases hs with
          | @write b' f off k r h' hf h0 hk =>
            obtain ⟨rfl, rfl, rfl⟩ : b = b' ∧ n = off ∧ (.ok () : Res Unit) = r := by simpa using hp.symm.trans h'
            obtain rfl : b.take n = f := by simpa using hd.symm.trans hf
            refine ⟨n + k, hk, ho.mono (by omega), .inr (.inl ⟨by simp, ?_⟩)⟩
            have hl : (b.take n).length = n := by rw [List.length_take]; omega
            have e : writeAt (b.take n) n ((b.drop n).take k) = b.take (n + k) := by
              have e3 : (b.take n).drop (n + ((b.drop n).take k).length) = [] := List.drop_eq_nil_of_le (by omega)
              rw [writeAt, hl, Nat.sub_self, List.replicate_zero, List.append_nil, List.take_of_length_le hl.le,
                e3, List.append_nil, List.take_add]
            simp only [Disk.put, Function.update_self, e]
          | @close b' r h' =>
            obtain ⟨rfl, rfl, rfl⟩ : b = b' ∧ n = b'.length ∧ (.ok () : Res Unit) = r := by simpa using hp.symm.trans h'
            exact ⟨b.length, le_rfl, ho, .inr (.inr ⟨by simp, rfl, hd⟩)⟩
          | read h' => simp only at hp; rw [hp] at h'; cases h'
          | «open» h' => simp only at hp; rw [hp] at h'; cases h'
        · cases hs with
          | read h' => simp only at hp; rw [hp] at h'; cases h'
          | «open» h' => simp only at hp; rw [hp] at h'; cases h'
          | write h' => simp only at hp; rw [hp] at h'; cases h'
          | close h' => simp only at hp; rw [hp] at h'; cases h'
  obtain ⟨n, hn, ho, _⟩ := inv _ h
  rcases ho with ho | ⟨f, k, m, h1, h2, h3⟩
  · exact .inl ho
  · exact .inr ⟨f, k, m, h1, h2.trans hn, h3⟩

theorem meanwhile_leads {s t : Sys Unit} (h : Leads C prog sif s t) (o : Opening D) :
    Relation.ReflTransGen (Meanwhile C prog sif) (s, o) (t, o) := by
  induction h with
  | refl => exact .refl
  | tail _ h ih => exact ih.tail (.other h)

/-- C161 fails: for every `k` and `m` there is an order of the steps in which the opening takes the file to hold the
first `k` bytes of what was in it before and, from there on, those of the first `m` bytes that are saved to it. -/
theorem c161_patched {fs : Disk} {a b : Bytes} (ha : fs sif = some a) {f : Fmt} (hf : fmtForLoading fs sif = .ok f)
    (hs : f = .sif ∨ f = .sifz) {k m : ℕ} (hk : k ≤ a.length) (hm : m ≤ b.length) :
    ∃ s, Relation.ReflTransGen (Meanwhile C prog sif) (savers fs fun _ => b, .start)
      (s, .done (finishOpening C f sif (patched a b k m))) := by
  have h1 : Relation.ReflTransGen (Meanwhile C prog sif) (savers fs fun _ => b, .start)
      (savers fs fun _ => b, .sniffed f) := by
    have : OpenStep C sif fs .start (sniffStep fs sif) := .sniff
    rw [sniffStep, hf] at this
    exact .single (.ours this)
  have h2 : Relation.ReflTransGen (Meanwhile C prog sif) (savers fs fun _ => b, .start)
      (savers fs fun _ => b, .reading f []) := by
    have : OpenStep C sif fs (.sniffed f) (openStep fs sif f) := .open
    have e : openStep fs sif f = (.reading f [] : Opening D) := by
      rcases hs with rfl | rfl <;> simp only [openStep, ha]
    rw [e] at this
    exact h1.tail (.ours this)
  have h3 : Relation.ReflTransGen (Meanwhile C prog sif) (savers fs fun _ => b, .start)
      (savers fs fun _ => b, .reading f (a.take k)) := by
    rcases Nat.eq_zero_or_pos k with rfl | h0
    · simpa using h2
    · have := h2.tail (.ours (.piece (k := k) ha h0 (by simpa using hk)))
      simpa using this
  have h4 := h3.tail (.other ⟨(), .open rfl⟩)
  have h5 := h4.trans (meanwhile_leads (leads_write (i := ()) m rfl (put_self _ _ _) (by simpa using hm) (by simp)) _)
  have e5 : writeAt [] 0 ((b.drop 0).take m) = b.take m := by simp [writeAt]
  rw [e5] at h5
  have hl : (a.take k).length = k := by rw [List.length_take]; omega
  have hl' : (b.take m).length = m := by rw [List.length_take]; omega
  rcases Nat.lt_or_ge k m with h | h
  · have h6 := h5.tail (.ours (.piece (k := m - k) (b := b.take m) (put_self _ _ _) (by omega) (by omega)))
    have e6 : a.take k ++ ((b.take m).drop (a.take k).length).take (m - k) = patched a b k m := by
      have e7 : ((b.take m).drop k).take (m - k) = (b.take m).drop k :=
        List.take_of_length_le (by rw [List.length_drop]; omega)
      rw [hl, patched, e7]
    rw [e6] at h6
    have hl6 : (patched a b k m).length = m := by
      simp only [patched, List.length_append, List.length_take, List.length_drop]; omega
    exact ⟨_, h6.tail (.ours (.ends (b := b.take m) (put_self _ _ _) (by omega)))⟩
  · have e6 : patched a b k m = a.take k := by
      rw [patched, List.drop_eq_nil_of_le (by omega), List.append_nil]
    rw [e6]
    exact ⟨_, h5.tail (.ours (.ends (b := b.take m) (put_self _ _ _) (by omega)))⟩

/-- C161 fails also so: opening a file while it is saved to may raise `ValueError`, whatever was in it and whatever is
saved. -/
theorem c161_empty (fs : Disk) (b : Bytes) :
    ∃ s, Relation.ReflTransGen (Meanwhile C prog sif) (savers fs fun _ => b, .start) (s, .done (.error .value)) := by
  have h1 : Relation.ReflTransGen (Meanwhile C prog sif) (savers fs fun _ => b, .start)
      (⟨fs.put sif [], Function.update (fun _ => .ready b (.ok ())) () (.writing b 0 (.ok ()))⟩, .start) :=
    .single (.other ⟨(), .open rfl⟩)
  have h2 : OpenStep C sif (fs.put sif []) .start (sniffStep (fs.put sif []) sif) := .sniff
  have e : sniffStep (fs.put sif []) sif = (.done (.error .value) : Opening D) := by
    simp [sniffStep, fmtForLoading, put_self]
  rw [e] at h2
  exact ⟨_, h1.tail (.ours h2)⟩

end

/-- C161 fails for animations: the file holds an animation called "by", and is being replaced by one called "an"; it may
be opened as one called "bn". -/
theorem c161_third {gzip : Bytes → Bytes} {gunzip : Bytes → Res Bytes} {prog : Unit → XmlDoc double → XmlDoc double × Res Unit} :
    let C := xmlCodec double (fun _ => true) gzip gunzip fun _ => true
    let sif := "a.sif".toList
    ∃ (x y z : XmlDoc double) (fs : Disk), x.1 = exCalled "an" ∧ y.1 = exCalled "by" ∧ z.1 = exCalled "bn" ∧
      Anim.load C fs sif = .ok ⟨.sif, some sif, y⟩ ∧
      ∃ s, Relation.ReflTransGen (Meanwhile C prog sif) (⟨fs, fun _ => saving C x sif⟩, .start)
        (s, .done (.ok ⟨.sif, some sif, z⟩)) := by
  intro C sif
  let x : XmlDoc double := ⟨exCalled "an", xmlOkB_ok (by decide +kernel), rfl⟩
  let b := utf8 (docText double (fun _ => true) x.1)
  let a := utf8 (docText double (fun _ => true) (exCalled "by"))
  have hk : patched a b 54 b.length = utf8 (docText double (fun _ => true) (exCalled "bn")) := by decide +kernel
  have hx : saving C x sif = .ready b (.ok ()) := rfl
  have hp : ∃ p, C.parse (patched a b 54 b.length) = .ok ⟨exCalled "bn", p⟩ := by
    rw [hk]
    exact xmlCodec_parse (s := docText double (fun _ => true) (exCalled "bn")) (by decide +kernel) (by decide +kernel)
  obtain ⟨p, hp⟩ := hp
  have hq : ∃ p, C.parse a = .ok ⟨exCalled "by", p⟩ :=
    xmlCodec_parse (s := docText double (fun _ => true) (exCalled "by")) (by decide +kernel) (by decide +kernel)
  obtain ⟨q, hq⟩ := hq
  let fs : Disk := fun _ => some a
  have hf : fmtForLoading fs sif = .ok .sif := by
    rw [c14_load_by_magic]
    decide +kernel
  refine ⟨x, ⟨exCalled "by", q⟩, ⟨exCalled "bn", p⟩, fs, rfl, rfl, rfl, ?_, ?_⟩
  · rw [load_finish hf (b := a) rfl]
    simp only [finishOpening, hq]
  · obtain ⟨s, h⟩ := c161_patched (C := C) (prog := prog) (fs := fs) (a := a) (b := b) rfl hf (.inl rfl)
      (k := 54) (m := b.length) (by decide +kernel) le_rfl
    refine ⟨s, ?_⟩
    have e : finishOpening C .sif sif (patched a b 54 b.length) = .ok ⟨.sif, some sif, ⟨exCalled "bn", p⟩⟩ := by
      simp only [finishOpening, hp]
    rw [e] at h
    rw [hx]
    exact h

end Sang
