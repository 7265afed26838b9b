import Verif.Props.Concurrent

/-!
# C154: programs run on one file at the same time
-/

namespace Sang

open Spec

/-- What a process has to do when it saves is what `Animation.save` does. -/
theorem saving_spec {D : Type} (C : Codec D) (fs : Disk) (a : Anim D) (p : Str) :
    (∃ e, saving C a.doc p = .done (.error e) ∧ (a.save C fs (some p)).disk = fs ∧
      (a.save C fs (some p)).res = .error e) ∨
    ∃ b r, saving C a.doc p = .ready b r ∧ (a.save C fs (some p)).disk = fs.put p b ∧ (a.save C fs (some p)).res = r := by
  simp only [saving, Anim.save]
  cases fmtForSaving p with
  | error e => exact .inl ⟨_, rfl, rfl, rfl⟩
  | ok f =>
    cases f <;> simp only [fmtSave, writeOut]
    · cases C.canOpen p
      · exact .inl ⟨_, rfl, rfl, rfl⟩
      · cases C.render a.doc
        · exact .inr ⟨_, _, rfl, rfl, rfl⟩
        · exact .inr ⟨_, _, rfl, rfl, rfl⟩
    · cases C.canOpen p
      · exact .inl ⟨_, rfl, rfl, rfl⟩
      · cases C.render a.doc
        · exact .inr ⟨_, _, rfl, rfl, rfl⟩
        · exact .inr ⟨_, _, rfl, rfl, rfl⟩
    · exact .inl ⟨_, rfl, by simp⟩
    · exact .inl ⟨_, rfl, by simp⟩

/-- And with what comes before it, it is what a run of the program does. -/
theorem begin_spec {D : Type} (C : Codec D) (prog : D → D × Res Unit) (sif : Str) (fs : Disk) :
    (∃ e, begin C prog sif fs = .done (.error e) ∧ runProgram C prog sif sif fs = (fs, .error e)) ∨
    ∃ b r, begin C prog sif fs = .ready b r ∧ runProgram C prog sif sif fs = (fs.put sif b, r) := by
  simp only [begin, runProgram]
  cases Anim.load C fs sif with
  | error e => exact .inl ⟨_, rfl, rfl⟩
  | ok a =>
    simp only
    rcases prog a.doc with ⟨n, _ | _⟩
    · exact .inl ⟨_, rfl, rfl⟩
    · rcases saving_spec C fs { a with doc := n } sif with ⟨r, h1, h2, h3⟩ | ⟨b, r, h1, h2, h3⟩
      · exact .inl ⟨r, h1, Prod.ext h2 h3⟩
      · exact .inr ⟨b, r, h1, Prod.ext h2 h3⟩

section
variable {D ι : Type} [DecidableEq ι] {C : Codec D} {prog : ι → D → D × Res Unit} {sif : Str}

omit [DecidableEq ι] in
theorem oneByOne_append (l : List ι) (i : ι) (fs : Disk) : oneByOne C prog sif (l ++ [i]) fs =
    (runProgram C (prog i) sif sif (oneByOne C prog sif l fs)).1 := by
  induction l generalizing fs with
  | nil => rfl
  | cons j l ih => exact ih _

theorem put_put (fs : Disk) (p : Str) (b c : Bytes) : (fs.put p b).put p c = fs.put p c := by
  simp [Disk.put]

/-- How each of the processes that have ended came out: as it would have after those before it in the order. -/
def Results (C : Codec D) (prog : ι → D → D × Res Unit) (sif : Str) (fs : Disk) (order : List ι) (s : Sys ι) : Prop :=
  ∀ l i l', order = l ++ i :: l' → s.procs i = .done (runProgram C (prog i) sif sif (oneByOne C prog sif l fs)).2

/-- What holds while the programs are run one at a time. -/
theorem locked_inv {fs : Disk} {s : Sys ι} (h : Relation.ReflTransGen (RunLocked C prog sif) (starters fs) s) :
    ∃ order : List ι, order.Nodup ∧ (∀ i, i ∈ order ↔ (s.procs i).Ended) ∧ Results C prog sif fs order s ∧
      ((∀ i, ¬ (s.procs i).Busy) ∧ s.disk = oneByOne C prog sif order fs ∨
        ∃ i b r, (∀ j, (s.procs j).Busy → j = i) ∧
          runProgram C (prog i) sif sif (oneByOne C prog sif order fs) = ((oneByOne C prog sif order fs).put sif b, r) ∧
          (s.procs i = .ready b r ∧ s.disk = oneByOne C prog sif order fs ∨
            ∃ n, s.procs i = .writing b n r ∧ s.disk = (oneByOne C prog sif order fs).put sif (b.take n))) := by
  induction h with
  | refl =>
    refine ⟨[], List.nodup_nil, fun i => ⟨by simp, fun ⟨r, h⟩ => by simp [starters] at h⟩, fun l i l' h => by simp at h,
      .inl ⟨fun i h => h.1 rfl, rfl⟩⟩
  | @tail s t hs hst ih =>
    obtain ⟨i, hst, hlock⟩ := hst
    obtain ⟨order, hnd, hend, hres, hst'⟩ := ih
    have hnot : ∀ {p}, s.procs i = p → ¬ p.Ended → i ∉ order := fun hp hn hi => hn (hp ▸ (hend i).1 hi)
    -- one more has ended
    have more : ∀ (d : Disk) (r : Res Unit), i ∉ order →
        (runProgram C (prog i) sif sif (oneByOne C prog sif order fs)).2 = r →
        (order ++ [i]).Nodup ∧ (∀ j, j ∈ order ++ [i] ↔ (Function.update s.procs i (.done r) j).Ended) ∧
          Results C prog sif fs (order ++ [i]) ⟨d, Function.update s.procs i (.done r)⟩ := by
      intro d r hi hr
      refine ⟨?_, fun j => ?_, fun l k l' hl => ?_⟩
      · rw [List.nodup_append]
        exact ⟨hnd, by simp, by rintro a ha b hb rfl; simp at hb; exact hi (hb ▸ ha)⟩
      · by_cases hj : j = i
        · subst hj
          simp [Proc.Ended]
        · rw [Function.update_of_ne hj, ← hend]
          simp [hj]
      · rcases List.eq_nil_or_concat l' with rfl | ⟨m, x, rfl⟩
        · obtain ⟨rfl, e⟩ := List.append_inj' hl rfl
          simp only [List.cons.injEq, and_true] at e
          subst e
          simp [hr]
        · have e : order ++ [i] = (l ++ k :: m) ++ [x] := by rw [hl]; simp
          have e2 := (List.append_inj' e rfl).1
          have hk : k ≠ i := by rintro rfl; exact hi (by rw [e2]; simp)
          simp only [Function.update_of_ne hk]
          exact hres l k m e2
    -- nobody has ended
    have same : ∀ (d : Disk) (p : Proc), i ∉ order → ¬ p.Ended →
        (∀ j, j ∈ order ↔ (Function.update s.procs i p j).Ended) ∧
          Results C prog sif fs order ⟨d, Function.update s.procs i p⟩ := by
      intro d p hi hp
      refine ⟨fun j => ?_, fun l k l' hl => ?_⟩
      · by_cases hj : j = i
        · subst hj
          simp [hi, hp]
        · rw [Function.update_of_ne hj, hend]
      · have hk : k ≠ i := by rintro rfl; exact hi (by rw [hl]; simp)
        simp only [Function.update_of_ne hk]
        exact hres l k l' hl
    cases hst with
    | read h =>
      have hi := hnot h (by rintro ⟨r, hr⟩; cases hr)
      have hq := hlock h
      have hdisk : s.disk = oneByOne C prog sif order fs := by
        rcases hst' with ⟨-, hd⟩ | ⟨k, b, r, -, -, hb⟩
        · exact hd
        · refine absurd ?_ (hq k)
          rcases hb with ⟨hb, -⟩ | ⟨n, hb, -⟩ <;> rw [hb] <;> exact ⟨by simp, by rintro ⟨r, hr⟩; cases hr⟩
      rw [hdisk]
      rcases begin_spec C (prog i) sif (oneByOne C prog sif order fs) with ⟨e, h1, h2⟩ | ⟨b, r, h1, h2⟩
      · rw [h1]
        obtain ⟨m1, m2, m3⟩ := more (oneByOne C prog sif order fs) (.error e) hi (by rw [h2])
        refine ⟨order ++ [i], m1, m2, m3, .inl ⟨fun j hj => ?_, ?_⟩⟩
        · by_cases hji : j = i
          · subst hji
            exact hj.2 ⟨.error e, by simp⟩
          · simp only [Function.update_of_ne hji] at hj
            exact hq j hj
        · rw [oneByOne_append, h2]
      · rw [h1]
        obtain ⟨m2, m3⟩ := same (oneByOne C prog sif order fs) (.ready b r) hi (by rintro ⟨r, hr⟩; cases hr)
        refine ⟨order, hnd, m2, m3, .inr ⟨i, b, r, fun j hj => ?_, h2, .inl ⟨by simp, rfl⟩⟩⟩
        by_contra hji
        simp only [Function.update_of_ne hji] at hj
        exact hq j hj
    | @«open» b r h =>
      have hi := hnot h (by rintro ⟨r, hr⟩; cases hr)
      rcases hst' with ⟨hq, -⟩ | ⟨k, b', r', hk, hrun, hb⟩
      · exact absurd ⟨by simp [h], by rw [h]; rintro ⟨r, hr⟩; cases hr⟩ (hq i)
      obtain rfl := hk i ⟨by simp [h], by rw [h]; rintro ⟨r, hr⟩; cases hr⟩
      rcases hb with ⟨hb, hd⟩ | ⟨n, hb, hd⟩
      · rw [h] at hb
        injection hb with e1 e2
        subst e1 e2
        obtain ⟨m2, m3⟩ := same (s.disk.put sif []) (.writing b 0 r) hi (by rintro ⟨r, hr⟩; cases hr)
        refine ⟨order, hnd, m2, m3, .inr ⟨i, b, r, fun j hj => ?_, hrun, .inr ⟨0, by simp, by rw [hd]; rfl⟩⟩⟩
        by_contra hji
        simp only [Function.update_of_ne hji] at hj
        exact hji (hk j hj)
      · rw [h] at hb
        cases hb
    | @write b f off n r h hf h0 hn =>
      have hi := hnot h (by rintro ⟨r, hr⟩; cases hr)
      rcases hst' with ⟨hq, -⟩ | ⟨k, b', r', hk, hrun, hb⟩
      · exact absurd ⟨by simp [h], by rw [h]; rintro ⟨r, hr⟩; cases hr⟩ (hq i)
      obtain rfl := hk i ⟨by simp [h], by rw [h]; rintro ⟨r, hr⟩; cases hr⟩
      rcases hb with ⟨hb, hd⟩ | ⟨m, hb, hd⟩
      · rw [h] at hb
        cases hb
      · rw [h] at hb
        injection hb with e1 e2 e3
        subst e1 e2 e3
        obtain ⟨m2, m3⟩ := same (s.disk.put sif (writeAt f off ((b.drop off).take n))) (.writing b (off + n) r) hi
          (by rintro ⟨r, hr⟩; cases hr)
        rw [hd, put_self] at hf
        injection hf with hf
        subst hf
        refine ⟨order, hnd, m2, m3, .inr ⟨i, b, r, fun j hj => ?_, hrun, .inr ⟨off + n, by simp, ?_⟩⟩⟩
        · by_contra hji
          simp only [Function.update_of_ne hji] at hj
          exact hji (hk j hj)
        · rw [hd, writeAt_end b hn, put_put]
    | @close b r h =>
      have hi := hnot h (by rintro ⟨r, hr⟩; cases hr)
      rcases hst' with ⟨hq, -⟩ | ⟨k, b', r', hk, hrun, hb⟩
      · exact absurd ⟨by simp [h], by rw [h]; rintro ⟨r, hr⟩; cases hr⟩ (hq i)
      obtain rfl := hk i ⟨by simp [h], by rw [h]; rintro ⟨r, hr⟩; cases hr⟩
      rcases hb with ⟨hb, hd⟩ | ⟨m, hb, hd⟩
      · rw [h] at hb
        cases hb
      · rw [h] at hb
        injection hb with e1 e2 e3
        subst e1 e2 e3
        obtain ⟨m1, m2, m3⟩ := more s.disk r hi (by rw [hrun])
        refine ⟨order ++ [i], m1, m2, m3, .inl ⟨fun j hj => ?_, ?_⟩⟩
        · by_cases hji : j = i
          · subst hji
            exact hj.2 ⟨r, by simp⟩
          · simp only [Function.update_of_ne hji] at hj
            exact hji (hk j hj)
        · rw [oneByOne_append, hrun]
          simpa using hd

/-- C154, if none of them begins while another is busy: whenever nobody is busy, those that have ended have left on the
disk what they would have if run one after another, in some order, and each came out as it would have in that. -/
theorem c154_locked_partial {fs : Disk} {s : Sys ι} (h : Relation.ReflTransGen (RunLocked C prog sif) (starters fs) s)
    (hq : ∀ i, ¬ (s.procs i).Busy) :
    ∃ order : List ι, order.Nodup ∧ (∀ i, i ∈ order ↔ (s.procs i).Ended) ∧
      s.disk = oneByOne C prog sif order fs ∧
      ∀ l i l', order = l ++ i :: l' →
        s.procs i = .done (runProgram C (prog i) sif sif (oneByOne C prog sif l fs)).2 := by
  obtain ⟨order, h1, h2, h3, ⟨-, h4⟩ | ⟨i, b, r, h5, -, h6⟩⟩ := locked_inv h
  · exact ⟨order, h1, h2, h4, h3⟩
  · refine absurd ?_ (hq i)
    rcases h6 with ⟨h6, -⟩ | ⟨n, h6, -⟩ <;> rw [h6] <;> exact ⟨by simp, by rintro ⟨r, hr⟩; cases hr⟩

/-- While nobody is busy, any one of them can run to its end. -/
theorem locked_alone {s : Sys ι} (hq : ∀ j, ¬ (s.procs j).Busy) {i : ι} (hi : s.procs i = .waiting) :
    Relation.ReflTransGen (RunLocked C prog sif) s ⟨(runProgram C (prog i) sif sif s.disk).1,
      Function.update s.procs i (.done (runProgram C (prog i) sif sif s.disk).2)⟩ := by
  have l1 : Relation.ReflTransGen (RunLocked C prog sif) s
      ⟨s.disk, Function.update s.procs i (begin C (prog i) sif s.disk)⟩ := .single ⟨i, .read hi, fun _ => hq⟩
  rcases begin_spec C (prog i) sif s.disk with ⟨e, h1, h2⟩ | ⟨b, r, h1, h2⟩
  · rw [h1] at l1
    rw [h2]
    exact l1
  · rw [h1] at l1
    rw [h2]
    have l2 := l1.tail ⟨i, .open (b := b) (r := r) (by simp), by simp⟩
    have l3 : Relation.ReflTransGen (RunLocked C prog sif) s
        ⟨s.disk.put sif b, Function.update s.procs i (.writing b b.length r)⟩ := by
      rcases Nat.eq_zero_or_pos b.length with h0 | h0
      · obtain rfl := List.eq_nil_of_length_eq_zero h0
        simpa using l2
      · have := l2.tail ⟨i, .write (b := b) (r := r) (off := 0) (k := b.length) (by simp) (put_self _ _ _) h0 (by simp),
          by simp⟩
        simpa [writeAt, put_put] using this
    simpa using l3.tail ⟨i, .close (b := b) (r := r) (by simp), by simp⟩

/-- C154, if none of them begins while another is busy: each order is one that can come about. -/
theorem c154_any_order (fs : Disk) : ∀ (order : List ι), order.Nodup →
    ∃ s, Relation.ReflTransGen (RunLocked C prog sif) (starters fs) s ∧ s.disk = oneByOne C prog sif order fs ∧
      (∀ i, ¬ (s.procs i).Busy) ∧ ∀ i, (i ∈ order ↔ (s.procs i).Ended) := by
  intro order
  induction order using List.reverseRecOn with
  | nil => exact fun _ => ⟨_, .refl, rfl, fun i h => h.1 rfl, fun i => ⟨by simp, fun ⟨r, h⟩ => by simp [starters] at h⟩⟩
  | append_singleton l i ih =>
    intro hnd
    rw [List.nodup_append] at hnd
    obtain ⟨s, h1, h2, h3, h4⟩ := ih hnd.1
    have hil : i ∉ l := fun h => hnd.2.2 i h i (by simp) rfl
    have hw : s.procs i = .waiting := by
      by_contra hw
      exact h3 i ⟨hw, fun he => hil ((h4 i).2 he)⟩
    refine ⟨_, h1.trans (locked_alone h3 hw), by rw [oneByOne_append, h2], fun j hj => ?_, fun j => ?_⟩
    · by_cases hji : j = i
      · subst hji
        exact hj.2 ⟨_, Function.update_self ..⟩
      · simp only [Function.update_of_ne hji] at hj
        exact h3 j hj
    · by_cases hji : j = i
      · subst hji
        simp [Proc.Ended]
      · simp only [Function.update_of_ne hji, ← h4]
        simp [hji]

/-- A program that runs to its end when alone has something to write. -/
theorem begin_ready {D : Type} {C : Codec D} {prog : D → D × Res Unit} {fs fs' : Disk}
    (h : runProgram C prog sif sif fs = (fs', .ok ())) :
    ∃ b, begin C prog sif fs = .ready b (.ok ()) ∧ fs' = fs.put sif b := by
  rcases begin_spec C prog sif fs with ⟨e, h1, h2⟩ | ⟨b, r, h1, h2⟩
  · rw [h] at h2
    injection h2 with e1 e2
    cases e2
  · rw [h] at h2
    injection h2 with e1 e2
    subst e2
    exact ⟨b, h1, e1⟩

end

section
variable {D : Type} {C : Codec D} {prog : Bool → D → D × Res Unit} {sif : Str}

/-- C154 fails: if two programs would each run to its end alone, then run at the same time both may run to their ends
and leave what the second would leave alone. What the first did is lost. -/
theorem c154_lost {fs f1 f2 : Disk} (h1 : runProgram C (prog false) sif sif fs = (f1, .ok ()))
    (h2 : runProgram C (prog true) sif sif fs = (f2, .ok ())) :
    ∃ s, Leads C prog sif (starters fs) s ∧ (∀ i, s.procs i = .done (.ok ())) ∧ s.disk = f2 := by
  obtain ⟨a, ha, -⟩ := begin_ready h1
  obtain ⟨b, hb, rfl⟩ := begin_ready h2
  have l1 : Leads C prog sif (starters fs) ⟨_, _⟩ := .single ⟨false, .read rfl⟩
  have l2 := l1.tail ⟨true, .read rfl⟩
  have l3 := l2.tail ⟨false, .open (b := a) (r := .ok ()) (by simpa [starters] using ha)⟩
  have l4 := l3.trans (leads_write (i := false) (b := a) (r := .ok ()) (off := 0) a.length (by simp) (put_self _ _ _)
    (by simp) (by simp))
  have l5 := l4.tail ⟨false, .close (b := a) (r := .ok ()) (by simp)⟩
  have l6 := l5.tail ⟨true, .open (b := b) (r := .ok ()) (by simpa [starters] using hb)⟩
  have l7 := l6.trans (leads_write (i := true) (b := b) (r := .ok ()) (off := 0) b.length (by simp) (put_self _ _ _)
    (by simp) (by simp))
  have l8 := l7.tail ⟨true, .close (b := b) (r := .ok ()) (by simp)⟩
  refine ⟨_, l8, ?_, ?_⟩
  · rintro (_ | _) <;> simp
  · simp only [put_put]
    congr 1
    simp [writeAt]

/-- C154 fails also so: a program may find the file empty, because another is about to write it, and so end with an
exception, though it would have run to its end before or after the other. -/
theorem c154_empty {fs f1 : Disk} (h1 : runProgram C (prog false) sif sif fs = (f1, .ok ())) :
    ∃ s, Leads C prog sif (starters fs) s ∧ s.procs false = .done (.ok ()) ∧ s.procs true = .done (.error .value) ∧
      s.disk = f1 := by
  obtain ⟨a, ha, rfl⟩ := begin_ready h1
  have l1 : Leads C prog sif (starters fs) ⟨_, _⟩ := .single ⟨false, .read rfl⟩
  have l2 := l1.tail ⟨false, .open (b := a) (r := .ok ()) (by simpa [starters] using ha)⟩
  have l3 := l2.tail ⟨true, .read (by simp [starters])⟩
  have l4 := l3.trans (leads_write (i := false) (b := a) (r := .ok ()) (off := 0) a.length (by simp) (put_self _ _ _)
    (by simp) (by simp))
  have l5 := l4.tail ⟨false, .close (b := a) (r := .ok ()) (by simp)⟩
  refine ⟨_, l5, by simp, ?_, ?_⟩
  · have : fmtForLoading (fs.put sif []) sif = .error .value := by
      rw [c14_load_by_magic, put_self]; rfl
    simp [begin, Anim.load, starters, this]
  · simp only [put_put]
    congr 1
    simp [writeAt]

end

/-! ## A case -/

/-- `animation.width = 100`. -/
def exWide (n : Node) : Node × Res Unit := setHeader double ⟨"width", .int, .int 480⟩ (.int 100) n

/-- `animation.height = 200`. -/
def exTall (n : Node) : Node × Res Unit := setHeader double ⟨"height", .int, .int 270⟩ (.int 200) n

theorem exWide_good (n : Node) (h : Good double n) : Good double (exWide n).1 :=
  h.setAttr (nameOk_dec (by decide)) (by decide +kernel)

theorem exTall_good (n : Node) (h : Good double n) : Good double (exTall n).1 :=
  h.setAttr (nameOk_dec (by decide)) (by decide +kernel)

/-- Two programs, one of which sets the width of an animation and the other its height. -/
def exSizes (i : Bool) : XmlDoc double → XmlDoc double × Res Unit :=
  if i then onXml exTall exTall_good else onXml exWide exWide_good

/-- C154 fails for these. The file holds an animation called "an". If they are run one after another, in whichever
order, the file holds an animation 100 wide and 200 high; if they are run at the same time, the width may be lost. -/
theorem c154_width_lost {gzip : Bytes → Bytes} {gunzip : Bytes → Res Bytes} (g1 : ∀ b, gunzip (gzip b) = .ok b)
    (g2 : ∀ b, ∃ r, gzip b = 0x1f :: 0x8b :: r) :
    let C := xmlCodec double (fun _ => true) gzip gunzip fun _ => true
    let sif := "a.sif".toList
    ∃ fs a, Anim.load C fs sif = .ok a ∧ a.doc.1 = exCalled "an" ∧
      (∀ order ∈ [[false, true], [true, false]], ∃ b, Anim.load C (oneByOne C exSizes sif order fs) sif = .ok b ∧
        b.doc.1.attrs.get "width" = some (.str "100".toList) ∧ b.doc.1.attrs.get "height" = some (.str "200".toList)) ∧
      ∃ s, Leads C exSizes sif (starters fs) s ∧ (∀ i, s.procs i = .done (.ok ())) ∧
        ∃ b, Anim.load C s.disk sif = .ok b ∧
          b.doc.1.attrs.get "width" = none ∧ b.doc.1.attrs.get "height" = some (.str "200".toList) := by
  intro C sif
  obtain ⟨fs, a, h, e⟩ := file_of (F := double) (canOpen := fun _ => true) (f := .sif) (sif := sif) (fun _ => true) g1 g2
    (by decide +kernel) (.inl rfl) rfl (n := exCalled "an") ⟨xmlOkB_ok (by decide +kernel), rfl⟩
  have e : a.doc.1 = exCalled "an" := e.trans (by decide +kernel)
  have run : ∀ {P : Node → Node × Res Unit} (hP : ∀ n, Good double n → Good double (P n).1) {fs : Disk}
      {a : Anim (XmlDoc double)}, Anim.load C fs sif = .ok a → (P a.doc.1).2 = .ok () →
      ∃ fs' y, runProgram C (onXml P hP) sif sif fs = (fs', .ok ()) ∧ Anim.load C fs' sif = .ok ⟨.sif, some sif, y⟩ ∧
        y.1 = (P a.doc.1).1.opened double := fun hP _ _ ha hok =>
    run_saved (canOpen := fun _ => true) (fun _ => true) g1 g2 hP (f := .sif) (by decide +kernel) (.inl rfl) rfl ha hok
  obtain ⟨w, yw, w1, w2, w3⟩ := run exWide_good h rfl
  obtain ⟨t, yt, t1, t2, t3⟩ := run exTall_good h rfl
  obtain ⟨wt, ywt, wt1, wt2, wt3⟩ := run exTall_good w2 rfl
  obtain ⟨tw, ytw, tw1, tw2, tw3⟩ := run exWide_good t2 rfl
  simp only at wt3 tw3
  rw [e] at w3 t3
  rw [w3] at wt3
  rw [t3] at tw3
  refine ⟨fs, a, h, e, ?_, ?_⟩
  · intro order ho
    simp only [List.mem_cons, List.not_mem_nil, or_false] at ho
    rcases ho with rfl | rfl
    · have hd : oneByOne C exSizes sif [false, true] fs = wt := by
        simp only [oneByOne]
        change (runProgram C (onXml exTall exTall_good) sif sif
          (runProgram C (onXml exWide exWide_good) sif sif fs).1).1 = wt
        rw [w1, wt1]
      rw [hd]
      exact ⟨⟨.sif, some sif, ywt⟩, wt2, by rw [wt3]; decide +kernel, by rw [wt3]; decide +kernel⟩
    · have hd : oneByOne C exSizes sif [true, false] fs = tw := by
        simp only [oneByOne]
        change (runProgram C (onXml exWide exWide_good) sif sif
          (runProgram C (onXml exTall exTall_good) sif sif fs).1).1 = tw
        rw [t1, tw1]
      rw [hd]
      exact ⟨⟨.sif, some sif, ytw⟩, tw2, by rw [tw3]; decide +kernel, by rw [tw3]; decide +kernel⟩
  · obtain ⟨s, s1, s2, rfl⟩ := c154_lost (C := C) (prog := exSizes) (sif := sif) w1 t1
    exact ⟨s, s1, s2, _, t2, by rw [t3]; decide +kernel, by rw [t3]; decide +kernel⟩

end Sang
