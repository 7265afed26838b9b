import Verif.Spec.DiskFull
import Verif.Props.Files

/-!
# C163. Saving to a disk without enough room
-/

namespace Sang

open Spec

variable {D : Type} {C : Codec D}

/-- What `save` comes to: nothing is written, or `new` is written to `p`; and the same for `saveIn`. -/
theorem save_shape (C : Codec D) (a : Anim D) (name : Option Str) :
    (∃ (a' : Anim D) (r : Res Unit), a'.doc = a.doc ∧ r ≠ .ok () ∧
      ∀ fs room, (a.save C fs name).disk = fs ∧ (a.save C fs name).anim = a' ∧ (a.save C fs name).res = r ∧
        a.saveIn C room fs name = (fs, a', .came r)) ∨
    ∃ (p : Str) (new : Bytes) (a' : Anim D) (r : Res Unit), savedTo a name = some p ∧ a'.doc = a.doc ∧
      ∀ fs room, (a.save C fs name).disk = fs.put p new ∧ (a.save C fs name).anim = a' ∧ (a.save C fs name).res = r ∧
        a.saveIn C room fs name =
          if new.length ≤ room then (fs.put p new, a', .came r) else (fs.put p (new.take room), a', .full) := by
  have core : ∀ (a : Anim D) (n : Option Str),
      (∃ (a' : Anim D) (r : Res Unit), a'.doc = a.doc ∧ r ≠ .ok () ∧
        ∀ fs room, (fmtSave C fs a n).disk = fs ∧ (fmtSave C fs a n).anim = a' ∧ (fmtSave C fs a n).res = r ∧
          fmtSaveIn C room fs a n = (fs, a', .came r)) ∨
      ∃ (p : Str) (new : Bytes) (a' : Anim D) (r : Res Unit), n = some p ∧ a'.doc = a.doc ∧
        ∀ fs room, (fmtSave C fs a n).disk = fs.put p new ∧ (fmtSave C fs a n).anim = a' ∧
          (fmtSave C fs a n).res = r ∧ fmtSaveIn C room fs a n =
            if new.length ≤ room then (fs.put p new, a', .came r) else (fs.put p (new.take room), a', .full) := by
    rintro ⟨f, fn, d⟩ n
    have wr : ∀ (p : Str) (wrap : Bytes → Bytes) (empty : Bytes) (f : Fmt),
        (∃ (a' : Anim D) (r : Res Unit), a'.doc = d ∧ r ≠ .ok () ∧
          ∀ fs room, (writeOut C fs ⟨f, fn, d⟩ wrap empty p).disk = fs ∧
            (writeOut C fs ⟨f, fn, d⟩ wrap empty p).anim = a' ∧ (writeOut C fs ⟨f, fn, d⟩ wrap empty p).res = r ∧
            writeIn C room fs ⟨f, fn, d⟩ wrap empty p = (fs, a', .came r)) ∨
        ∃ (new : Bytes) (a' : Anim D) (r : Res Unit), a'.doc = d ∧
          ∀ fs room, (writeOut C fs ⟨f, fn, d⟩ wrap empty p).disk = fs.put p new ∧
            (writeOut C fs ⟨f, fn, d⟩ wrap empty p).anim = a' ∧ (writeOut C fs ⟨f, fn, d⟩ wrap empty p).res = r ∧
            writeIn C room fs ⟨f, fn, d⟩ wrap empty p =
              if new.length ≤ room then (fs.put p new, a', .came r) else (fs.put p (new.take room), a', .full) := by
      intro p wrap empty f
      by_cases ho : C.canOpen p = true
      · right
        cases hr : C.render d with
        | error e =>
          exact ⟨empty, ⟨f, some p, d⟩, .error e, rfl, fun fs room => by simp [writeOut, writeIn, ho, hr]⟩
        | ok b =>
          exact ⟨wrap b, ⟨f, some p, d⟩, .ok (), rfl, fun fs room => by simp [writeOut, writeIn, ho, hr]⟩
      · left
        exact ⟨⟨f, some p, d⟩, .error .notFound, rfl, by simp, fun fs room => by simp [writeOut, writeIn, ho]⟩
    cases f with
    | sfg => exact .inl ⟨_, .error .notImpl, rfl, by simp, fun fs room => by simp [fmtSave, fmtSaveIn]⟩
    | blank => exact .inl ⟨_, .error .value, rfl, by simp, fun fs room => by simp [fmtSave, fmtSaveIn]⟩
    | sif =>
      cases n with
      | none => exact .inl ⟨_, .error .type, rfl, by simp, fun fs room => by simp [fmtSave, fmtSaveIn]⟩
      | some p =>
        rcases wr p id [] .sif with h | ⟨new, a', r, h⟩
        · exact .inl h
        · exact .inr ⟨p, new, a', r, rfl, h⟩
    | sifz =>
      cases n with
      | none => exact .inl ⟨_, .error .type, rfl, by simp, fun fs room => by simp [fmtSave, fmtSaveIn]⟩
      | some p =>
        rcases wr p C.gzip (C.gzip []) .sifz with h | ⟨new, a', r, h⟩
        · exact .inl h
        · exact .inr ⟨p, new, a', r, rfl, h⟩
  cases name with
  | none =>
    rcases core a a.filename with h | ⟨p, new, a', r, h1, h2, h3⟩
    · exact .inl h
    · exact .inr ⟨p, new, a', r, by simp [savedTo, h1], h2, h3⟩
  | some p =>
    cases hf : fmtForSaving p with
    | error e =>
      exact .inl ⟨a, .error e, rfl, by simp, fun fs room => by simp [Anim.save, Anim.saveIn, hf]⟩
    | ok f =>
      simp only [Anim.save, Anim.saveIn, hf]
      rcases core { a with fmt := f, filename := some p } (some p) with h | ⟨p', new, a', r, h1, h2, h3⟩
      · exact .inl h
      · exact .inr ⟨p', new, a', r, by simp [savedTo, h1], h2, h3⟩

/-- C163. If there is room for what is written, a save comes out as if there were any amount of it. -/
theorem c163_enough (fs : Disk) (a : Anim D) (name : Option Str) (room : ℕ)
    (h : ∀ p new, savedTo a name = some p → wouldHold C fs a name p = some new → new.length ≤ room) :
    a.saveIn C room fs name =
      ((a.save C fs name).disk, (a.save C fs name).anim, .came (a.save C fs name).res) := by
  rcases save_shape C a name with ⟨a', r, -, -, h1⟩ | ⟨p, new, a', r, hp, -, h1⟩
  · obtain ⟨h2, h3, h4, h5⟩ := h1 fs room
    rw [h5, h2, h3, h4]
  · obtain ⟨h2, h3, h4, h5⟩ := h1 fs room
    rw [h5, h2, h3, h4, if_pos (h p new hp (by rw [wouldHold, h2, put_self]))]

/-- C163. If there isn't room for it, the save raises, and no sooner: a save that returns has written all of it. The
animation and every other file are as they were, or as they would have been. -/
theorem c163_short (fs : Disk) (a : Anim D) (name : Option Str) (room : ℕ) :
    (a.saveIn C room fs name).2.1 = (a.save C fs name).anim ∧ (a.saveIn C room fs name).2.1.doc = a.doc ∧
    (∀ q, savedTo a name ≠ some q → (a.saveIn C room fs name).1 q = fs q) ∧
    ((a.saveIn C room fs name).2.2 = .came (a.save C fs name).res ∧
        (a.saveIn C room fs name).1 = (a.save C fs name).disk ∨
      (a.saveIn C room fs name).2.2 = .full ∧ ∃ p new, savedTo a name = some p ∧
        wouldHold C fs a name p = some new ∧ room < new.length ∧ (a.saveIn C room fs name).1 p = some (new.take room)) := by
  rcases save_shape C a name with ⟨a', r, hd, -, h1⟩ | ⟨p, new, a', r, hp, hd, h1⟩
  · obtain ⟨h2, h3, h4, h5⟩ := h1 fs room
    rw [h5, h2, h3, h4]
    exact ⟨rfl, hd, fun _ _ => rfl, .inl ⟨rfl, rfl⟩⟩
  · obtain ⟨h2, h3, h4, h5⟩ := h1 fs room
    rw [h5, h3, h4]
    split
    · refine ⟨rfl, hd, fun q hq => ?_, .inl ⟨rfl, h2.symm⟩⟩
      exact put_other _ _ _ _ (fun e => hq (by rw [hp, e]))
    · rename_i hr
      refine ⟨rfl, hd, fun q hq => ?_, .inr ⟨rfl, p, new, hp, by rw [wouldHold, h2, put_self], by omega, put_self _ _ _⟩⟩
      exact put_other _ _ _ _ (fun e => hq (by rw [hp, e]))

/-- The animation that a save leaves is saved, by the same call, as the one before. -/
theorem save_anim_again (fs fs' : Disk) (a : Anim D) (name : Option Str) :
    (a.save C fs name).anim.save C fs' name = a.save C fs' name ∧
      savedTo (a.save C fs name).anim name = savedTo a name := by
  have hd : (a.save C fs name).anim.doc = a.doc := by
    rcases save_shape C a name with ⟨a', r, hd, -, h1⟩ | ⟨p, new, a', r, -, hd, h1⟩ <;> rw [(h1 fs 0).2.1, hd]
  cases name with
  | some p =>
    refine ⟨?_, by simp [savedTo]⟩
    cases hf : fmtForSaving p with
    | error e => simp [Anim.save, hf]
    | ok f =>
      generalize (a.save C fs (some p)).anim = b at hd
      obtain ⟨x, y, z⟩ := b
      obtain ⟨x', y', z'⟩ := a
      simp only at hd
      subst hd
      simp only [Anim.save, hf]
  | none =>
    have : (a.save C fs none).anim = a := by
      obtain ⟨f, n, d⟩ := a
      have wr : ∀ (f : Fmt) (p : Str) wrap empty,
          (writeOut C fs ⟨f, some p, d⟩ wrap empty p).anim = ⟨f, some p, d⟩ := by
        intro f p wrap empty
        unfold writeOut
        simp only
        split
        · cases C.render d <;> rfl
        · rfl
      cases f <;> cases n <;> simp [Anim.save, fmtSave, wr]
    rw [this]
    exact ⟨rfl, rfl⟩

/-- Saving by the same call over what an attempt has left is as saving over what was there before it. -/
theorem save_over_attempt (fs : Disk) (a : Anim D) (name : Option Str) (room : ℕ) :
    (a.save C (a.saveIn C room fs name).1 name).disk = (a.save C fs name).disk ∧
    (a.save C (a.saveIn C room fs name).1 name).anim = (a.save C fs name).anim ∧
    (a.save C (a.saveIn C room fs name).1 name).res = (a.save C fs name).res := by
  rcases save_shape C a name with ⟨a', r, hd, -, h1⟩ | ⟨p, new, a', r, -, hd, h1⟩
  · rw [(h1 fs room).2.2.2]
    exact ⟨rfl, rfl, rfl⟩
  · obtain ⟨h2, h3, h4, h5⟩ := h1 fs room
    rw [h5, h2, h3, h4]
    split
    · obtain ⟨k2, k3, k4, -⟩ := h1 (fs.put p new) room
      exact ⟨by rw [k2]; simp [Disk.put], k3, k4⟩
    · obtain ⟨k2, k3, k4, -⟩ := h1 (fs.put p (new.take room)) room
      exact ⟨by rw [k2]; simp [Disk.put], k3, k4⟩

theorem savesIn_same (name : Option Str) : ∀ (rooms : List ℕ) (fs : Disk) (a : Anim D),
    let s := Anim.savesIn C (rooms.map fun r => (name, r)) fs a
    (s.2.save C s.1 name).disk = (a.save C fs name).disk ∧ (s.2.save C s.1 name).anim = (a.save C fs name).anim ∧
    (s.2.save C s.1 name).res = (a.save C fs name).res ∧ savedTo s.2 name = savedTo a name
  | [], fs, a => ⟨rfl, rfl, rfl, rfl⟩
  | room :: rooms, fs, a => by
    have ih := savesIn_same name rooms (a.saveIn C room fs name).1 (a.saveIn C room fs name).2.1
    rw [(c163_short fs a name room).1] at ih
    obtain ⟨h1, h2⟩ := save_anim_again (C := C) fs (a.saveIn C room fs name).1 a name
    obtain ⟨h3, h4, h5⟩ := save_over_attempt (C := C) fs a name room
    rw [h1, h2, h3, h4, h5] at ih
    simp only [List.map_cons, Anim.savesIn]
    rw [(c163_short fs a name room).1]
    exact ih

/-- C163. If saving is tried again and again, with too little room for it or enough, then once there is enough it comes
out as if it had been the first time. -/
theorem c163_retry (fs : Disk) (a : Anim D) (name : Option Str) (rooms : List ℕ) (room : ℕ)
    (h : ∀ p new, savedTo a name = some p → wouldHold C fs a name p = some new → new.length ≤ room) :
    let s := Anim.savesIn C (rooms.map fun r => (name, r)) fs a
    s.2.saveIn C room s.1 name = ((a.save C fs name).disk, (a.save C fs name).anim, .came (a.save C fs name).res) := by
  intro s
  obtain ⟨h1, h2, h3, h4⟩ := savesIn_same (C := C) name rooms fs a
  rw [c163_enough s.1 s.2 name room (fun p new hp hn => h p new (h4 ▸ hp) (by rw [wouldHold, ← h1]; exact hn)), h1, h2, h3]

theorem save_named (fs : Disk) (a : Anim D) (p : Str) :
    (a.save C fs (some p)).anim.filename = some p ∨ (a.save C fs (some p)).anim = a := by
  cases hf : fmtForSaving p with
  | error e => exact .inr (by simp [Anim.save, hf])
  | ok f =>
    left
    have wr : ∀ (a : Anim D) wrap empty, (writeOut C fs a wrap empty p).anim.filename = some p := by
      intro a wrap empty
      unfold writeOut
      simp only
      split
      · cases C.render a.doc <;> rfl
      · rfl
    cases f <;> simp [Anim.save, hf, fmtSave, wr]

theorem savesIn_frame : ∀ (l : List (Option Str × ℕ)) (fs : Disk) (a : Anim D),
    (Anim.savesIn C l fs a).2.doc = a.doc ∧
    ∀ q, (∀ x ∈ l, x.1 ≠ some q) → a.filename ≠ some q →
      (Anim.savesIn C l fs a).1 q = fs q ∧ (Anim.savesIn C l fs a).2.filename ≠ some q
  | [], fs, a => ⟨rfl, fun q _ hq => ⟨rfl, hq⟩⟩
  | (name, room) :: l, fs, a => by
    obtain ⟨h1, h2, h3, -⟩ := c163_short (C := C) fs a name room
    obtain ⟨i1, i2⟩ := savesIn_frame l (a.saveIn C room fs name).1 (a.saveIn C room fs name).2.1
    refine ⟨i1.trans h2, fun q hl hq => ?_⟩
    have hn : name ≠ some q := hl (name, room) (by simp)
    have hs : savedTo a name ≠ some q := by
      cases name with
      | none => simpa [savedTo] using hq
      | some p => simpa [savedTo] using hn
    have hf : (a.saveIn C room fs name).2.1.filename ≠ some q := by
      have := (save_anim_again (C := C) fs fs a name).2
      rw [h1]
      cases name with
      | none =>
        simp only [savedTo, Option.none_or] at this
        rw [this]
        exact hq
      | some p =>
        rcases save_named (C := C) fs a p with e | e
        · rw [e]
          simpa using hn
        · rw [e]
          exact hq
    obtain ⟨j1, j2⟩ := i2 q (fun x hx => hl x (List.mem_cons_of_mem _ hx)) hf
    exact ⟨j1.trans (h3 q hs), j2⟩


/-- C163. Whatever saves were tried before, to whatever names, and however they came out: the animation is the same, files
that weren't saved to are the same, and the animation can be saved under any name it could have been saved under, and
opened from there. -/
theorem c163_after_any {norm : D → D} (hC : C.Lawful norm) (fs : Disk) (a : Anim D) (l : List (Option Str × ℕ)) :
    let s := Anim.savesIn C l fs a
    s.2.doc = a.doc ∧ (∀ q, (∀ x ∈ l, x.1 ≠ some q) → a.filename ≠ some q → s.1 q = fs q) ∧
    ∀ p new room, (a.save C fs (some p)).res = .ok () → wouldHold C fs a (some p) p = some new → new.length ≤ room →
      (s.2.saveIn C room s.1 (some p)).2.2 = .came (.ok ()) ∧ (s.2.saveIn C room s.1 (some p)).1 p = some new ∧
      ∃ f, Anim.load C (s.2.saveIn C room s.1 (some p)).1 p = .ok ⟨f, some p, norm a.doc⟩ := by
  intro s
  obtain ⟨h1, h2⟩ := savesIn_frame (C := C) l fs a
  refine ⟨h1, fun q hl hq => (h2 q hl hq).1, fun p new room hok hnew hroom => ?_⟩
  have hsame : (s.2.save C s.1 (some p)).res = .ok () ∧ (s.2.save C s.1 (some p)).disk p = some new := by
    have e : s.2.save C s.1 (some p) = a.save C s.1 (some p) := by
      cases hf : fmtForSaving p with
      | error e => simp [Anim.save, hf] at hok
      | ok f =>
        have h1 : s.2.doc = a.doc := h1
        generalize s.2 = b at h1
        obtain ⟨x, y, z⟩ := b
        obtain ⟨x', y', z'⟩ := a
        simp only at h1
        subst h1
        simp only [Anim.save, hf]
    rw [e]
    rcases save_shape C a (some p) with ⟨a', r, hd, hr, k⟩ | ⟨p', new', a', r, hp, hd, k⟩
    · rw [(k fs 0).2.2.1] at hok
      exact absurd hok hr
    · have hp : p = p' := by simpa [savedTo] using hp
      subst hp
      obtain ⟨k1, -, k2, -⟩ := k fs 0
      obtain ⟨k3, -, k4, -⟩ := k s.1 0
      rw [k2] at hok
      rw [wouldHold, k1, put_self] at hnew
      rw [k3, k4, put_self]
      exact ⟨hok, hnew⟩
  have hin := c163_enough (C := C) s.1 s.2 (some p) room (fun q n hq hn => by
    have : p = q := by simpa [savedTo] using hq
    subst this
    rw [wouldHold, hsame.2] at hn
    injection hn with hn
    exact hn ▸ hroom)
  rw [hin]
  obtain ⟨⟨f, h3, -⟩, -⟩ := c15_save_then_open hC s.1 s.2 p hsame.1
  exact ⟨by rw [hsame.1], hsame.2, f, by rw [h3, h1]⟩

/-- C163 fails: if there is room for less than two bytes, then whatever the file held, it can't be opened any more. -/
theorem c163_old_lost {norm : D → D} (hC : C.Lawful norm) (fs : Disk) (a : Anim D) (p : Str) (room : ℕ) (hroom : room < 2)
    (hok : (a.save C fs (some p)).res = .ok ()) :
    (a.saveIn C room fs (some p)).2.2 = .full ∧ Anim.load C (a.saveIn C room fs (some p)).1 p = .error .value := by
  have hnew : ∃ x y r, (a.save C fs (some p)).disk p = some (x :: y :: r) := by
    obtain ⟨q, f, b, hf, hb, -, hname, hdisk, -⟩ := save_ok fs a (some p) hok
    have : q = p := by
      rcases hname with ⟨h, -⟩ | ⟨h, -⟩
      · exact (Option.some.inj h).symm
      · cases h
    subst this
    rw [hdisk, put_self]
    obtain ⟨r1, h1⟩ := hC.xml_magic _ _ hb
    obtain ⟨r2, h2⟩ := hC.gzip_magic b
    split
    · exact ⟨_, _, r1, by rw [h1]⟩
    · exact ⟨_, _, r2, by rw [h2]⟩
  obtain ⟨x, y, r, hnew⟩ := hnew
  have hbad : ∀ {fs' : Disk}, fs' p = some ((x :: y :: r).take room) → Anim.load C fs' p = .error .value := by
    intro fs' h
    have : fmtForLoading fs' p = .error .value := by
      rw [c14_load_by_magic, h]
      obtain rfl | rfl : room = 0 ∨ room = 1 := by omega
      · rfl
      · simp
    simp only [Anim.load, this]
  obtain ⟨-, -, -, h | ⟨h, q, new, hq, hn, -, hd⟩⟩ := c163_short (C := C) fs a (some p) room
  · rcases save_shape C a (some p) with ⟨a', r', -, hr, k⟩ | ⟨q, new, a', r', hq, -, k⟩
    · rw [(k fs 0).2.2.1] at hok
      exact absurd hok hr
    · have hq : p = q := by simpa [savedTo] using hq
      subst hq
      obtain ⟨k1, -, -, k2⟩ := k fs room
      rw [k1, put_self] at hnew
      injection hnew with hnew
      subst hnew
      rw [k2, if_neg (by simp; omega)] at h
      exact absurd h.1 (by simp)
  · have hq : p = q := by simpa [savedTo] using hq
    subst hq
    rw [wouldHold, hnew] at hn
    injection hn with hn
    subst hn
    exact ⟨h, hbad hd⟩

/-- A file is saved with room for 3 bytes, then for 1, and then for plenty; what it held is lost until then. -/
example :
    let fs : Disk := Disk.put (fun _ => none) "a.sif".toList [0x3c, 0x3f, 7]
    let a : Anim Bytes := ⟨.sif, some "a.sif".toList, [5, 6]⟩
    Anim.load exCodec fs "a.sif".toList = .ok ⟨.sif, some "a.sif".toList, [7]⟩ ∧
    (a.saveIn exCodec 3 fs none).2.2 = .full ∧
    (Anim.savesIn exCodec [(none, 3), (none, 1)] fs a).1 "a.sif".toList = some [0x3c] ∧
    (a.save exCodec fs none).disk "a.sif".toList = some [0x3c, 0x3f, 5, 6] ∧
    (a.save exCodec fs (some "a.sif".toList)).res = .ok () := by
  refine ⟨by decide +kernel, by decide +kernel, by decide +kernel, by decide +kernel, by decide +kernel⟩


end Sang
