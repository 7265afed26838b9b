import Verif.Spec.Stepwise
import Verif.Props.AtOnce
import Verif.Props.Opening

/-!
# C154, when files are read step by step
-/

namespace Sang

open Spec

section
variable {D ι : Type} [DecidableEq ι] {C : Codec D} {prog : ι → D → D × Res Unit} {sif : Str}

theorem begin_work (prog : D → D × Res Unit) (fs : Disk) :
    begin C prog sif fs = work C prog sif (Anim.load C fs sif) := by
  unfold begin work
  cases Anim.load C fs sif <;> rfl

/-- The state in which nothing is in the middle of being read, as one where files are read at one moment. -/
structure Simulates (C : Codec D) (prog : ι → D → D × Res Unit) (sif : Str) (fs : Disk) (s : FSys D ι) (c : Sys ι) :
    Prop where
  reach : Relation.ReflTransGen (RunLocked C prog sif) (starters fs) c
  disk : c.disk = s.disk
  reads : ∀ i o, s.procs i = .opening o → c.procs i = .waiting ∧ UndisturbedAt C sif s.disk o
  saves : ∀ i p, s.procs i = .working p → c.procs i = p ∧ p ≠ .waiting
  alone : ∀ i j, (s.procs i).Busy → (s.procs j).Busy → i = j

theorem work_not_waiting (prog : D → D × Res Unit) (r : Res (Anim D)) : work C prog sif r ≠ .waiting := by
  unfold work
  cases r with
  | error e => simp
  | ok a =>
    simp only
    rcases prog a.doc with ⟨n, _ | _⟩
    · simp
    · rcases saving_spec C (fun _ => none) { a with doc := n } sif with ⟨r, h1, -⟩ | ⟨b, r, h1, -⟩
      · simp only at h1 ⊢
        rw [h1]
        simp
      · simp only at h1 ⊢
        rw [h1]
        simp

/-- A step of saving, among other processes. -/
theorem saves_step {pr : D → D × Res Unit} {fs fs' : Disk} {p p' : Proc} (hp : p ≠ .waiting)
    (h : Step C (fun _ : Unit => pr) sif () ⟨fs, fun _ => p⟩ ⟨fs', fun _ => p'⟩) {i : ι} {c : Sys ι}
    (hc : c.procs i = p) (hd : c.disk = fs) :
    Step C prog sif i c ⟨fs', Function.update c.procs i p'⟩ ∧ p' ≠ .waiting ∧ ¬ p.Ended := by
  subst hd
  generalize hs : (⟨c.disk, fun _ => p⟩ : Sys Unit) = s at h
  generalize ht : (⟨fs', fun _ => p'⟩ : Sys Unit) = t at h
  have hsd : s.disk = c.disk := by rw [← hs]
  have hsp : s.procs () = p := by rw [← hs]
  have htd : t.disk = fs' := by rw [← ht]
  have htp : t.procs () = p' := by rw [← ht]
  clear hs ht
  cases h with
  | read h => exact absurd (hsp.symm.trans h) hp
  | «open» h =>
    simp only [Function.update_self] at htp htd
    subst htp htd
    rw [hsd]
    rw [hsp] at h
    exact ⟨.open (hc.trans h), by simp, by rw [h]; rintro ⟨r, hr⟩; cases hr⟩
  | write h hf h0 hk =>
    simp only [Function.update_self] at htp htd
    subst htp htd
    rw [hsd] at hf ⊢
    rw [hsp] at h
    exact ⟨.write (hc.trans h) hf h0 hk, by simp, by rw [h]; rintro ⟨r, hr⟩; cases hr⟩
  | close h =>
    simp only [Function.update_self] at htp htd
    subst htp htd
    rw [hsd]
    rw [hsp] at h
    exact ⟨.close (hc.trans h), by simp, by rw [h]; rintro ⟨r, hr⟩; cases hr⟩

theorem locked_simulates {fs : Disk} {s : FSys D ι}
    (h : Relation.ReflTransGen (RunLockedStepwise C prog sif) (beginners fs) s) : ∃ c, Simulates C prog sif fs s c := by
  induction h with
  | refl =>
    refine ⟨starters fs, .refl, rfl, ?_, ?_, ?_⟩
    · intro i o ho
      injection ho with ho
      subst ho
      exact ⟨rfl, trivial⟩
    · intro i p hp
      cases hp
    · intro i j hi
      exact absurd rfl hi.1
  | @tail s t _ hst ih =>
    obtain ⟨i, hst, hlock⟩ := hst
    obtain ⟨c, hc⟩ := ih
    -- after the step, nobody else is busy
    have hothers : ¬ (s.procs i).Ended → ∀ j, (s.procs j).Busy → j = i := by
      intro he j hj
      by_cases hi : s.procs i = .opening .start
      · exact absurd hj (hlock hi j)
      · exact hc.alone j i hj ⟨hi, he⟩
    have halone : ∀ (q : FProc D), ¬ (s.procs i).Ended →
        ∀ j k, (Function.update s.procs i q j).Busy → (Function.update s.procs i q k).Busy → j = k := by
      intro q he
      have : ∀ j, (Function.update s.procs i q j).Busy → j = i := by
        intro j hj
        by_cases hji : j = i
        · exact hji
        · rw [Function.update_of_ne hji] at hj
          exact hothers he j hj
      intro j k hj hk
      rw [this j hj, this k hk]
    cases hst with
    | @opens o o' h ho =>
      have he : ¬ (s.procs i).Ended := by rw [h]; rintro ⟨r, hr⟩; cases hr
      refine ⟨c, hc.reach, hc.disk, ?_, ?_, halone _ he⟩
      · intro j q hq
        by_cases hji : j = i
        · subst hji
          simp only [Function.update_self, FProc.opening.injEq] at hq
          subst hq
          obtain ⟨h1, h2⟩ := hc.reads _ _ h
          exact ⟨h1, undisturbed_step rfl ho h2⟩
        · simp only [Function.update_of_ne hji] at hq
          exact hc.reads j q hq
      · intro j p hp
        by_cases hji : j = i
        · subst hji
          simp at hp
        · simp only [Function.update_of_ne hji] at hp
          exact hc.saves j p hp
    | @works r h =>
      have he : ¬ (s.procs i).Ended := by rw [h]; rintro ⟨r, hr⟩; cases hr
      obtain ⟨h1, h2⟩ := hc.reads _ _ h
      have hr : r = Anim.load C c.disk sif := by rw [hc.disk]; exact h2
      refine ⟨⟨c.disk, Function.update c.procs i (begin C (prog i) sif c.disk)⟩, hc.reach.tail ⟨i, .read h1, ?_⟩,
        hc.disk, ?_, ?_, halone _ he⟩
      · intro _ j hj
        have hij : j = i := by
          cases hq : s.procs j with
          | opening o => exact absurd (hc.reads j o hq).1 hj.1
          | working p =>
            refine hothers he j ⟨by rw [hq]; simp, ?_⟩
            rw [hq]
            rintro ⟨r, hr⟩
            injection hr with hr
            exact hj.2 ⟨r, by rw [(hc.saves j p hq).1, hr]⟩
        subst hij
        exact hj.1 h1
      · intro j q hq
        by_cases hji : j = i
        · subst hji
          simp at hq
        · simp only [Function.update_of_ne hji] at hq ⊢
          exact hc.reads j q hq
      · intro j p hp
        by_cases hji : j = i
        · subst hji
          simp only [Function.update_self, FProc.working.injEq] at hp ⊢
          subst hp
          rw [begin_work, ← hr]
          exact ⟨rfl, work_not_waiting _ _⟩
        · simp only [Function.update_of_ne hji] at hp ⊢
          exact hc.saves j p hp
    | @saves p p' fs' h hp hs =>
      obtain ⟨h1, -⟩ := hc.saves _ _ h
      obtain ⟨hstep, hw, hne⟩ := saves_step (prog := prog) hp hs h1 hc.disk
      have he : ¬ (s.procs i).Ended := by
        rw [h]
        rintro ⟨r, hr⟩
        injection hr with hr
        exact hne ⟨r, hr⟩
      have hb : (s.procs i).Busy := ⟨by rw [h]; simp, he⟩
      refine ⟨⟨fs', Function.update c.procs i p'⟩, hc.reach.tail ⟨i, hstep, fun hwait => absurd (h1.symm.trans hwait) hp⟩,
        rfl, ?_, ?_, halone _ he⟩
      · intro j q hq
        by_cases hji : j = i
        · subst hji
          simp at hq
        · simp only [Function.update_of_ne hji] at hq ⊢
          refine ⟨(hc.reads j q hq).1, ?_⟩
          have : q = .start := by
            by_contra hq'
            exact hji (hothers he j ⟨by rw [hq]; simpa using hq', by rw [hq]; rintro ⟨r, hr⟩; cases hr⟩)
          subst this
          trivial
      · intro j q hq
        by_cases hji : j = i
        · subst hji
          simp only [Function.update_self, FProc.working.injEq] at hq ⊢
          subst hq
          exact ⟨rfl, hw⟩
        · simp only [Function.update_of_ne hji] at hq ⊢
          exact hc.saves j q hq

/-- C154, if none of the programs begins while another is busy, and each reads the file step by step: whenever nobody is
busy, those that have ended have left on the disk what they would have if run one after another, in some order, and each
came out as it would have in that. -/
theorem c154_stepwise_locked_partial {fs : Disk} {s : FSys D ι}
    (h : Relation.ReflTransGen (RunLockedStepwise C prog sif) (beginners fs) s) (hq : ∀ i, ¬ (s.procs i).Busy) :
    ∃ order : List ι, order.Nodup ∧ (∀ i, i ∈ order ↔ (s.procs i).Ended) ∧
      s.disk = oneByOne C prog sif order fs ∧
      ∀ l i l', order = l ++ i :: l' →
        s.procs i = .working (.done (runProgram C (prog i) sif sif (oneByOne C prog sif l fs)).2) := by
  obtain ⟨c, hc⟩ := locked_simulates h
  have hend : ∀ i, (c.procs i).Ended ↔ (s.procs i).Ended := by
    intro i
    cases hp : s.procs i with
    | opening o =>
      rw [(hc.reads i o hp).1]
      constructor <;> rintro ⟨r, hr⟩ <;> cases hr
    | working p =>
      rw [(hc.saves i p hp).1]
      constructor
      · rintro ⟨r, rfl⟩; exact ⟨r, rfl⟩
      · rintro ⟨r, hr⟩; injection hr with hr; exact ⟨r, hr⟩
  have hbusy : ∀ i, ¬ (c.procs i).Busy := by
    intro i hi
    cases hp : s.procs i with
    | opening o => exact hi.1 (hc.reads i o hp).1
    | working p => exact hq i ⟨by rw [hp]; simp, fun he => hi.2 ((hend i).2 he)⟩
  obtain ⟨order, h1, h2, h3, h4⟩ := c154_locked_partial hc.reach hbusy
  refine ⟨order, h1, fun i => (h2 i).trans (hend i), hc.disk ▸ h3, fun l i l' hl => ?_⟩
  obtain ⟨r, hr⟩ := (hend i).1 ((h2 i).1 (by rw [hl]; simp))
  have := h4 l i l' hl
  rw [(hc.saves i _ hr).1] at this
  rw [hr, this]

/-! ## Whatever can come about if files are read at one moment can come about if they are read step by step -/

/-- The state in which nothing is in the middle of being read. -/
def atRest (D : Type) (c : Sys ι) : FSys D ι :=
  ⟨c.disk, fun i => match c.procs i with
    | .waiting => .opening .start
    | p => .working p⟩

omit [DecidableEq ι] in
theorem atRest_waiting {c : Sys ι} {i : ι} (h : c.procs i = .waiting) : (atRest D c).procs i = .opening .start := by
  simp only [atRest, h]

omit [DecidableEq ι] in
theorem atRest_of {c : Sys ι} {i : ι} {p : Proc} (h : c.procs i = p) (hp : p ≠ .waiting) :
    (atRest D c).procs i = .working p := by
  simp only [atRest, h]

theorem atRest_update (c : Sys ι) (fs : Disk) (i : ι) {p : Proc} (hp : p ≠ .waiting) :
    (atRest D ⟨fs, Function.update c.procs i p⟩ : FSys D ι) =
      ⟨fs, Function.update (atRest D c).procs i (.working p)⟩ := by
  unfold atRest
  congr 1
  funext j
  by_cases hji : j = i
  · subst hji
    simp only [Function.update_self]
  · simp only [Function.update_of_ne hji]

omit [DecidableEq ι] in
theorem atRest_ended {c : Sys ι} (i : ι) : ((atRest D c).procs i).Ended ↔ (c.procs i).Ended := by
  unfold FProc.Ended Proc.Ended
  cases h : c.procs i with
  | waiting => simp [atRest_waiting h]
  | _ => simp [atRest_of h (by simp)]

omit [DecidableEq ι] in
theorem atRest_busy {c : Sys ι} (i : ι) : ((atRest D c).procs i).Busy ↔ (c.procs i).Busy := by
  unfold FProc.Busy Proc.Busy
  rw [atRest_ended]
  refine and_congr_left fun _ => not_congr ?_
  cases h : c.procs i with
  | waiting => simp [atRest_waiting h]
  | _ => simp [atRest_of h (by simp)]

omit [DecidableEq ι] in
theorem atRest_starters (fs : Disk) : atRest D (starters fs : Sys ι) = beginners fs := rfl

/-- Opening can be brought to its end, if the disk stays as it is. -/
theorem opening_ends (C : Codec D) (fs : Disk) (sif : Str) :
    Relation.ReflTransGen (OpenStep C sif fs) .start (.done (Anim.load C fs sif)) := by
  have h1 : OpenStep C sif fs .start (sniffStep fs sif) := .sniff
  cases hf : fmtForLoading fs sif with
  | error e =>
    rw [load_refused hf]
    rw [sniffStep, hf] at h1
    exact .single h1
  | ok f =>
    rw [sniffStep, hf] at h1
    have h2 : OpenStep C sif fs (.sniffed f) (openStep fs sif f) := .open
    have hb : ∃ b, fs sif = some b := by
      rw [fmtForLoading] at hf
      cases hb : fs sif with
      | none => rw [hb] at hf; cases hf
      | some b => exact ⟨b, rfl⟩
    obtain ⟨b, hb⟩ := hb
    rw [load_finish hf hb]
    have main : openStep fs sif f = (.reading f [] : Opening D) →
        Relation.ReflTransGen (OpenStep C sif fs) .start (.done (finishOpening C f sif b)) := by
      intro e
      rw [e] at h2
      have h3 := (Relation.ReflTransGen.single h1).tail h2
      rcases Nat.eq_zero_or_pos b.length with h0 | h0
      · have := h3.tail (.ends hb (by simp [h0]))
        rwa [show b = [] from List.eq_nil_of_length_eq_zero h0]
      · have h4 := h3.tail (.piece (k := b.length) hb h0 (by simp))
        simp only [List.nil_append, List.length_nil, List.drop_zero, List.take_length] at h4
        exact h4.tail (.ends hb le_rfl)
    cases f with
    | sif | sifz => exact main (by simp only [openStep, hb])
    | sfg | blank => exact (Relation.ReflTransGen.single h1).tail h2

theorem step_stepwise {c t : Sys ι} {i : ι} (h : Step C prog sif i c t) :
    Relation.ReflTransGen (fun s u => FStep C prog sif i s u ∧
      (s.procs i = .opening .start → c.procs i = .waiting ∧ s = atRest D c)) (atRest D c) (atRest D t) := by
  have one : ∀ {p p' : Proc} {fs : Disk}, c.procs i = p → p ≠ .waiting → p' ≠ .waiting →
      Step C (fun _ : Unit => prog i) sif () ⟨c.disk, fun _ => p⟩ ⟨fs, fun _ => p'⟩ →
      Relation.ReflTransGen (fun s u => FStep C prog sif i s u ∧
        (s.procs i = .opening .start → c.procs i = .waiting ∧ s = atRest D c)) (atRest D c)
          (atRest D ⟨fs, Function.update c.procs i p'⟩) := by
    intro p p' fs hp hw hw' hs
    rw [atRest_update c fs i hw']
    refine .single ⟨.saves (atRest_of hp hw) hw hs, fun he => ?_⟩
    rw [atRest_of hp hw] at he
    cases he
  have upd : ∀ p q : Proc, (Function.update (fun _ : Unit => p) () q) = fun _ => q := by
    intro p q; funext u; simp
  cases h with
  | read h =>
    rw [atRest_update c c.disk i (begin_work (C := C) (sif := sif) (prog i) c.disk ▸ work_not_waiting _ _)]
    have hopen : ∀ {o : Opening D}, Relation.ReflTransGen (OpenStep C sif c.disk) .start o →
        Relation.ReflTransGen (fun s u => FStep C prog sif i s u ∧
          (s.procs i = .opening .start → c.procs i = .waiting ∧ s = atRest D c)) (atRest D c)
            ⟨c.disk, Function.update (atRest D c).procs i (.opening o)⟩ := by
      intro o ho
      induction ho with
      | refl =>
        rw [← atRest_waiting h, Function.update_eq_self]
        exact .refl
      | @tail o o' _ ho ih =>
        refine ih.tail ⟨?_, fun he => ⟨h, ?_⟩⟩
        · have := FStep.opens (C := C) (prog := prog) (sif := sif) (i := i)
            (s := ⟨c.disk, Function.update (atRest D c).procs i (.opening o)⟩) (Function.update_self ..) ho
          simpa only [Function.update_idem] using this
        · simp only [Function.update_self, FProc.opening.injEq] at he
          subst he
          rw [← atRest_waiting h, Function.update_eq_self]
          rfl
    refine Relation.ReflTransGen.tail (b := ⟨c.disk, Function.update (atRest D c).procs i
      (.opening (.done (Anim.load C c.disk sif)))⟩) (hopen (opening_ends C c.disk sif)) ⟨?_, fun he => ?_⟩
    · have := FStep.works (C := C) (prog := prog) (sif := sif) (i := i) (s := ⟨c.disk, Function.update
        (atRest D c).procs i (.opening (.done (Anim.load C c.disk sif)))⟩) (Function.update_self ..)
      simpa only [Function.update_idem, begin_work] using this
    · simp at he
  | @«open» b r h =>
    refine one h (by simp) (by simp) ?_
    rw [← upd (.ready b r)]
    exact .open rfl
  | @write b _ off _ r h hf h0 hk =>
    refine one h (by simp) (by simp) ?_
    rw [← upd (.writing b off r)]
    exact .write rfl hf h0 hk
  | @close b r h =>
    refine one h (by simp) (by simp) ?_
    rw [← upd (.writing b b.length r)]
    exact .close rfl

theorem leads_stepwise {c t : Sys ι} (h : Leads C prog sif c t) :
    LeadsStepwise C prog sif (atRest D c) (atRest D t) := by
  induction h with
  | refl => exact .refl
  | tail _ hst ih =>
    obtain ⟨i, hst⟩ := hst
    exact ih.trans (Relation.ReflTransGen.mono (fun _ _ hs => ⟨i, hs.1⟩) _ _ (step_stepwise hst))

theorem locked_stepwise {c t : Sys ι} (h : Relation.ReflTransGen (RunLocked C prog sif) c t) :
    Relation.ReflTransGen (RunLockedStepwise C prog sif) (atRest D c) (atRest D t) := by
  induction h with
  | refl => exact .refl
  | tail _ hst ih =>
    obtain ⟨i, hst, hl⟩ := hst
    refine ih.trans (Relation.ReflTransGen.mono (fun s u hs => ⟨i, hs.1, fun he j => ?_⟩) _ _ (step_stepwise hst))
    obtain ⟨h1, rfl⟩ := hs.2 he
    rw [atRest_busy]
    exact hl h1 j

/-- And any order can come about. -/
theorem c154_stepwise_any_order (fs : Disk) (order : List ι) (ho : order.Nodup) :
    ∃ s : FSys D ι, Relation.ReflTransGen (RunLockedStepwise C prog sif) (beginners fs) s ∧
      s.disk = oneByOne C prog sif order fs ∧ (∀ i, ¬ (s.procs i).Busy) ∧ ∀ i, (i ∈ order ↔ (s.procs i).Ended) := by
  obtain ⟨s, h1, h2, h3, h4⟩ := c154_any_order (C := C) (prog := prog) (sif := sif) fs order ho
  exact ⟨atRest D s, locked_stepwise h1, h2, fun i => (atRest_busy i).not.2 (h3 i), fun i => (h4 i).trans
    (atRest_ended i).symm⟩

end

section
variable {D : Type} {C : Codec D} {prog : Bool → D → D × Res Unit} {sif : Str}

/-- C154 fails without a lock: of two programs that end well, one may leave nothing of what it did. -/
theorem c154_stepwise_lost {fs f1 f2 : Disk} (h1 : runProgram C (prog false) sif sif fs = (f1, .ok ()))
    (h2 : runProgram C (prog true) sif sif fs = (f2, .ok ())) :
    ∃ s : FSys D Bool, LeadsStepwise C prog sif (beginners fs) s ∧ (∀ i, s.procs i = .working (.done (.ok ()))) ∧
      s.disk = f2 := by
  obtain ⟨s, l, he, hd⟩ := c154_lost h1 h2
  exact ⟨atRest D s, leads_stepwise l, fun i => atRest_of (he i) (by simp), hd⟩

/-- And one may find the file empty, and so end with an exception. -/
theorem c154_stepwise_empty {fs f1 : Disk} (h1 : runProgram C (prog false) sif sif fs = (f1, .ok ())) :
    ∃ s : FSys D Bool, LeadsStepwise C prog sif (beginners fs) s ∧ s.procs false = .working (.done (.ok ())) ∧
      s.procs true = .working (.done (.error .value)) ∧ s.disk = f1 := by
  obtain ⟨s, l, h2, h3, hd⟩ := c154_empty (prog := prog) h1
  exact ⟨atRest D s, leads_stepwise l, atRest_of h2 (by simp), atRest_of h3 (by simp), hd⟩

end

/-- A case: of `animation.width = 100` and `animation.height = 200`, run at the same time, the first is lost. -/
theorem c154_stepwise_width_lost {gzip : Bytes → Bytes} {gunzip : Bytes → Res Bytes}
    (g1 : ∀ b, gunzip (gzip b) = .ok b) (g2 : ∀ b, ∃ r, gzip b = 0x1f :: 0x8b :: r) :
    let C := xmlCodec double (fun _ => true) gzip gunzip fun _ => true
    let sif := "a.sif".toList
    ∃ fs a, Anim.load C fs sif = .ok a ∧ a.doc.1 = exCalled "an" ∧
      (∀ order ∈ [[false, true], [true, false]],
        ∃ s : FSys (XmlDoc double) Bool, Relation.ReflTransGen (RunLockedStepwise C exSizes sif) (beginners fs) s ∧
          (∀ i, ¬ (s.procs i).Busy) ∧ (∀ i, (s.procs i).Ended) ∧ s.disk = oneByOne C exSizes sif order fs ∧
          ∃ b, Anim.load C s.disk sif = .ok b ∧ b.doc.1.attrs.get "width" = some (.str "100".toList) ∧
            b.doc.1.attrs.get "height" = some (.str "200".toList)) ∧
      ∃ s : FSys (XmlDoc double) Bool, LeadsStepwise C exSizes sif (beginners fs) s ∧
        (∀ i, s.procs i = .working (.done (.ok ()))) ∧
        ∃ b, Anim.load C s.disk sif = .ok b ∧
          b.doc.1.attrs.get "width" = none ∧ b.doc.1.attrs.get "height" = some (.str "200".toList) := by
  intro C sif
  obtain ⟨fs, a, h1, h2, h3, s, l, he, hb⟩ := c154_width_lost g1 g2
  refine ⟨fs, a, h1, h2, fun order ho => ?_, atRest _ s, leads_stepwise l, fun i => atRest_of (he i) (by simp), hb⟩
  have hn : order.Nodup ∧ ∀ i, i ∈ order := by
    simp only [List.mem_cons, List.not_mem_nil, or_false] at ho
    rcases ho with rfl | rfl <;> decide
  obtain ⟨s, k1, k2, k3, k4⟩ := c154_stepwise_any_order (C := C) (prog := exSizes) (sif := sif) fs order hn.1
  refine ⟨s, k1, k3, fun i => (k4 i).1 (hn.2 i), k2, ?_⟩
  rw [k2]
  exact h3 order ho

/-! ## A program may work on what was never in the file -/

section
variable {D ι : Type} [DecidableEq ι] {C : Codec D} {prog : ι → D → D × Res Unit} {sif : Str}

theorem opens_all {s : FSys D ι} {i : ι} {o o' : Opening D} (h : s.procs i = .opening o)
    (ho : Relation.ReflTransGen (OpenStep C sif s.disk) o o') :
    LeadsStepwise C prog sif s ⟨s.disk, Function.update s.procs i (.opening o')⟩ := by
  induction ho with
  | refl =>
    rw [← h, Function.update_eq_self]
    exact .refl
  | @tail o o' _ ho ih =>
    refine ih.tail ⟨i, ?_⟩
    have := FStep.opens (C := C) (prog := prog) (sif := sif) (i := i)
      (s := ⟨s.disk, Function.update s.procs i (.opening o)⟩) (Function.update_self ..) ho
    simpa only [Function.update_idem] using this

theorem works_step {s : FSys D ι} {i : ι} {r : Res (Anim D)} {p : Proc} (h : s.procs i = .opening (.done r))
    (hp : work C (prog i) sif r = p) :
    LeadsStepwise C prog sif s ⟨s.disk, Function.update s.procs i (.working p)⟩ :=
  hp ▸ .single ⟨i, .works h⟩

theorem saves_all {s : FSys D ι} {i : ι} {b : Bytes} {r : Res Unit} (h : s.procs i = .working (.ready b r)) :
    LeadsStepwise C prog sif s ⟨s.disk.put sif b, Function.update s.procs i (.working (.done r))⟩ := by
  have upd : ∀ p q : Proc, (Function.update (fun _ : Unit => p) () q) = fun _ => q := by
    intro p q; funext u; simp
  have l1 : LeadsStepwise C prog sif s ⟨s.disk.put sif [], Function.update s.procs i (.working (.writing b 0 r))⟩ :=
    .single ⟨i, .saves h (by simp) (by rw [← upd (.ready b r)]; exact .open rfl)⟩
  have l2 : LeadsStepwise C prog sif s
      ⟨s.disk.put sif b, Function.update s.procs i (.working (.writing b b.length r))⟩ := by
    rcases Nat.eq_zero_or_pos b.length with h0 | h0
    · rw [List.eq_nil_of_length_eq_zero h0] at l1 ⊢
      exact l1
    · refine l1.tail ⟨i, ?_⟩
      have := FStep.saves (C := C) (prog := prog) (sif := sif) (i := i) (p' := .writing b b.length r)
        (s := ⟨s.disk.put sif [], Function.update s.procs i (.working (.writing b 0 r))⟩)
        (fs := s.disk.put sif b) (Function.update_self ..) (by simp) (by
          have := Step.write (C := C) (prog := fun _ : Unit => prog i) (sif := sif) (i := ()) (k := b.length)
            (s := ⟨s.disk.put sif [], fun _ => .writing b 0 r⟩) rfl (put_self _ _ _) h0 (by simp)
          simpa [put_put, writeAt, upd] using this)
      simpa only [Function.update_idem] using this
  refine l2.tail ⟨i, ?_⟩
  have := FStep.saves (C := C) (prog := prog) (sif := sif) (i := i) (p' := .done r)
    (s := ⟨s.disk.put sif b, Function.update s.procs i (.working (.writing b b.length r))⟩)
    (fs := s.disk.put sif b) (Function.update_self ..) (by simp) (by
      rw [← upd (.writing b b.length r)]
      exact .close rfl)
  simpa only [Function.update_idem] using this

end

section
variable {D : Type} {C : Codec D} {prog : Bool → D → D × Res Unit} {sif : Str}

/-- C154 fails in this way, too: of two programs that end well, one may work on the first `k` bytes of the file as it was
together with the rest of what the other saves. -/
theorem c154_stepwise_patched {fs f2 : Disk} {a b : Bytes} {f : Fmt} (hf : f = .sif ∨ f = .sifz) (ha : fs sif = some a)
    (h0 : fmtForLoading fs sif = .ok f) (h1 : runProgram C (prog false) sif sif fs = (fs.put sif b, .ok ())) {k : ℕ}
    (hk : k ≤ a.length) (hp : fmtForLoading (fs.put sif (patched a b k b.length)) sif = .ok f)
    (h2 : runProgram C (prog true) sif sif (fs.put sif (patched a b k b.length)) = (f2, .ok ())) :
    ∃ s : FSys D Bool, LeadsStepwise C prog sif (beginners fs) s ∧ (∀ i, s.procs i = .working (.done (.ok ()))) ∧
      s.disk = f2 := by
  obtain ⟨b', hb', e⟩ := begin_ready h1
  have e : b' = b := by
    have := congrFun e sif
    rw [put_self, put_self] at this
    exact (Option.some.inj this).symm
  subst e
  obtain ⟨c, hc, rfl⟩ := begin_ready h2
  rw [begin_work, load_finish hp (put_self _ _ _)] at hc
  rw [begin_work] at hb'
  have l1 : LeadsStepwise C prog sif (beginners fs)
      ⟨fs, Function.update (fun _ => .opening .start) true (.opening (.reading f (a.take k)))⟩ := by
    refine opens_all (s := beginners fs) (i := true) rfl ?_
    have q1 : OpenStep C sif fs .start (sniffStep fs sif) := .sniff
    have q2 : OpenStep C sif fs (.sniffed f) (openStep fs sif f) := .open
    rw [sniffStep, h0] at q1
    have : (openStep fs sif f : Opening D) = .reading f [] := by rcases hf with rfl | rfl <;> simp only [openStep, ha]
    rw [this] at q2
    have q3 := (Relation.ReflTransGen.single q1).tail q2
    rcases Nat.eq_zero_or_pos k with hk0 | hk0
    · rw [hk0]
      exact q3
    · have q4 := q3.tail (.piece (k := k) ha hk0 (by simpa using hk))
      simp only [List.nil_append, List.length_nil, List.drop_zero] at q4
      exact q4
  have l2 := l1.trans (opens_all (i := false) (o := .start) (by simp) (opening_ends C fs sif))
  have l3 := l2.trans (works_step (i := false) (by simp) hb')
  have l4 := l3.trans (saves_all (i := false) (b := b') (r := .ok ()) (by simp))
  have hl : (a.take k).length = k := by simp [hk]
  have rest : Relation.ReflTransGen (OpenStep C sif (fs.put sif b')) (.reading f (a.take k))
      (.done (finishOpening C f sif (patched a b' k b'.length))) := by
    rcases Nat.lt_or_ge k b'.length with hkb | hkb
    · have q1 : OpenStep C sif (fs.put sif b') (.reading f (a.take k))
          (.reading f (a.take k ++ (b'.drop (a.take k).length).take (b'.length - k))) :=
        .piece (put_self _ _ _) (by omega) (by rw [hl]; omega)
      have e : a.take k ++ (b'.drop (a.take k).length).take (b'.length - k) = patched a b' k b'.length := by
        rw [hl, patched, List.take_length, List.take_of_length_le (l := b'.drop k) (i := b'.length - k) (by simp)]
      rw [e] at q1
      refine (Relation.ReflTransGen.single q1).tail (.ends (put_self _ _ _) ?_)
      rw [patched, List.length_append, hl, List.take_length, List.length_drop]
      omega
    · have e : a.take k = patched a b' k b'.length := by
        rw [patched, List.take_length, List.drop_eq_nil_of_le hkb, List.append_nil]
      rw [← e]
      exact .single (.ends (put_self _ _ _) (by rw [hl]; exact hkb))
  have l5 := l4.trans (opens_all (i := true) (o := .reading f (a.take k)) (by simp) rest)
  have l6 := l5.trans (works_step (i := true) (by simp) hc)
  have l7 := l6.trans (saves_all (i := true) (b := c) (r := .ok ()) (by simp))
  refine ⟨_, l7, ?_, ?_⟩
  · rintro (_ | _) <;> simp
  · simp only [put_put]

end

/-- An empty animation with a width. -/
def exWidth (s : String) : Node := .tag "canvas" [("width", .str s.toList)] []

/-- A case: a file holds an animation 477 wide. If `animation.width = 100` and `animation.height = 200` are run one after
another, it becomes one that is 100 wide and 200 high; if they are run at the same time, both may end well and leave one
that is 400 wide. -/
theorem c154_stepwise_third {gzip : Bytes → Bytes} {gunzip : Bytes → Res Bytes}
    (g1 : ∀ b, gunzip (gzip b) = .ok b) (g2 : ∀ b, ∃ r, gzip b = 0x1f :: 0x8b :: r) :
    let C := xmlCodec double (fun _ => true) gzip gunzip fun _ => true
    let sif := "a.sif".toList
    ∃ fs a, Anim.load C fs sif = .ok a ∧ a.doc.1 = exWidth "477" ∧
      (∀ order ∈ [[false, true], [true, false]], ∃ b, Anim.load C (oneByOne C exSizes sif order fs) sif = .ok b ∧
        b.doc.1.attrs.get "width" = some (.str "100".toList) ∧ b.doc.1.attrs.get "height" = some (.str "200".toList)) ∧
      ∃ s : FSys (XmlDoc double) Bool, LeadsStepwise C exSizes sif (beginners fs) s ∧
        (∀ i, s.procs i = .working (.done (.ok ()))) ∧
        ∃ b, Anim.load C s.disk sif = .ok b ∧
          b.doc.1.attrs.get "width" = some (.str "400".toList) ∧ b.doc.1.attrs.get "height" = some (.str "200".toList) := by
  intro C sif
  let a := utf8 (docText double (fun _ => true) (exWidth "477"))
  let b := utf8 (docText double (fun _ => true) (exWide (exWidth "477")).1)
  let c := utf8 (docText double (fun _ => true) (exWidth "400"))
  let fs : Disk := fun _ => some a
  have hk : patched a b 55 b.length = c := by decide +kernel
  obtain ⟨p, hp⟩ : ∃ p, C.parse a = .ok ⟨exWidth "477", p⟩ :=
    xmlCodec_parse (s := docText double (fun _ => true) (exWidth "477")) (by decide +kernel) (by decide +kernel)
  obtain ⟨q, hq⟩ : ∃ q, C.parse c = .ok ⟨exWidth "400", q⟩ :=
    xmlCodec_parse (s := docText double (fun _ => true) (exWidth "400")) (by decide +kernel) (by decide +kernel)
  have f1 : fmtForLoading fs sif = .ok .sif := by
    rw [c14_load_by_magic]
    decide +kernel
  have f2 : fmtForLoading (fs.put sif c) sif = .ok .sif := by
    rw [c14_load_by_magic, put_self]
    decide +kernel
  have o1 : Anim.load C fs sif = .ok ⟨.sif, some sif, ⟨exWidth "477", p⟩⟩ := by
    rw [load_finish f1 (b := a) rfl]
    simp only [finishOpening, hp]
  have o2 : Anim.load C (fs.put sif c) sif = .ok ⟨.sif, some sif, ⟨exWidth "400", q⟩⟩ := by
    rw [load_finish f2 (put_self _ _ _)]
    simp only [finishOpening, hq]
  have r1 : runProgram C (exSizes false) sif sif fs = (fs.put sif b, .ok ()) := by
    have hb : begin C (exSizes false) sif fs = .ready b (.ok ()) := by
      rw [begin_work, o1]
      rfl
    obtain ⟨d, y, r, -, -⟩ := run_saved (canOpen := fun _ => true) (fun _ => true) g1 g2 exWide_good (f := .sif)
      (by decide +kernel) (.inl rfl) rfl o1 rfl
    obtain ⟨b', h1, rfl⟩ := begin_ready (prog := exSizes false) r
    rw [hb] at h1
    injection h1 with h1 _
    rw [h1]
    exact r
  obtain ⟨d, y, r2, l2, e2⟩ := run_saved (canOpen := fun _ => true) (fun _ => true) g1 g2 exTall_good (f := .sif)
    (by decide +kernel) (.inl rfl) rfl o2 rfl
  obtain ⟨s, k1, k2, rfl⟩ := c154_stepwise_patched (C := C) (prog := exSizes) (sif := sif) (fs := fs) (a := a) (b := b)
    (f2 := d) (k := 55) (.inl rfl) rfl f1 r1 (by decide +kernel) (by rw [hk]; exact f2) (by rw [hk]; exact r2)
  change y.1 = (exTall (exWidth "400")).1.opened double at e2
  have run : ∀ {P : Node → Node × Res Unit} (hP : ∀ n, Good double n → Good double (P n).1) {fs : Disk}
      {a : Anim (XmlDoc double)}, Anim.load C fs sif = .ok a → (P a.doc.1).2 = .ok () →
      ∃ fs' y, runProgram C (onXml P hP) sif sif fs = (fs', .ok ()) ∧ Anim.load C fs' sif = .ok ⟨.sif, some sif, y⟩ ∧
        y.1 = (P a.doc.1).1.opened double := fun hP _ _ ha hok =>
    run_saved (canOpen := fun _ => true) (fun _ => true) g1 g2 hP (f := .sif) (by decide +kernel) (.inl rfl) rfl ha hok
  refine ⟨fs, _, o1, rfl, fun order ho => ?_, s, k1, k2, _, l2, by rw [e2]; decide +kernel, by rw [e2]; decide +kernel⟩
  simp only [List.mem_cons, List.not_mem_nil, or_false] at ho
  rcases ho with rfl | rfl
  · obtain ⟨w, yw, w1, w2, w3⟩ := run exWide_good o1 rfl
    obtain ⟨wt, ywt, wt1, wt2, wt3⟩ := run exTall_good w2 rfl
    have hd : oneByOne C exSizes sif [false, true] fs = wt := by
      simp only [oneByOne]
      change (runProgram C (onXml exTall exTall_good) sif sif
        (runProgram C (onXml exWide exWide_good) sif sif fs).1).1 = wt
      rw [w1, wt1]
    simp only at wt3 w3
    rw [w3] at wt3
    rw [hd]
    exact ⟨⟨.sif, some sif, ywt⟩, wt2, by rw [wt3]; decide +kernel, by rw [wt3]; decide +kernel⟩
  · obtain ⟨t, yt, t1, t2, t3⟩ := run exTall_good o1 rfl
    obtain ⟨tw, ytw, tw1, tw2, tw3⟩ := run exWide_good t2 rfl
    have hd : oneByOne C exSizes sif [true, false] fs = tw := by
      simp only [oneByOne]
      change (runProgram C (onXml exWide exWide_good) sif sif
        (runProgram C (onXml exTall exTall_good) sif sif fs).1).1 = tw
      rw [t1, tw1]
    simp only at tw3 t3
    rw [t3] at tw3
    rw [hd]
    exact ⟨⟨.sif, some sif, ytw⟩, tw2, by rw [tw3]; decide +kernel, by rw [tw3]; decide +kernel⟩

end Sang
