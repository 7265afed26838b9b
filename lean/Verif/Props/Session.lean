import Verif.Spec.Session
import Verif.Props.XmlText
import Verif.Props.NewAnimation
import Verif.Props.DiskFull
import Verif.Props.AtOnce

/-!
# C165. Files hold what was last saved to them
-/

namespace Sang

open Spec

variable {D : Type} {C : Codec D} {norm : D → D}

/-- Opening a file depends on nothing but what is in it. -/
theorem load_congr {fs fs' : Disk} {p : Str} (h : fs p = fs' p) : Anim.load C fs p = Anim.load C fs' p := by
  unfold Anim.load fmtForLoading
  rw [h]

theorem load_put (hC : C.Lawful norm) (fs : Disk) (p : Str) {f : Fmt} {d : D} {b : Bytes} (hb : C.render d = .ok b)
    {w : Bytes} (hw : f = .sif ∧ w = b ∨ f = .sifz ∧ w = C.gzip b) (q : Str) :
    Anim.load C (fs.put p w) q = if q = p then .ok ⟨f, some p, norm d⟩ else Anim.load C fs q := by
  split
  next h =>
    subst h
    rcases hw with ⟨rfl, rfl⟩ | ⟨rfl, rfl⟩
    · exact load_sif hC _ _ d _ hb (put_self _ _ _)
    · exact load_sifz hC _ _ d _ hb (put_self _ _ _)
  next h => exact load_congr (put_other _ _ _ _ h)

/-- The session and the store are indistinguishable. -/
structure Stored (C : Codec D) (first : Str → Res (Anim D)) (s : Session D) (t : Store D) : Prop where
  anims : s.anims = t.anims
  files : ∀ p, Anim.load C s.disk p = t.load first p

theorem stored_put (hC : C.Lawful norm) (hr : ∀ d, ∃ b, C.render d = .ok b) {first : Str → Res (Anim D)} {fs : Disk}
    {t : Store D} (hf : ∀ p, Anim.load C fs p = t.load first p) (a : Anim D) (n : Option Str) (hn : n = a.filename) :
    (fmtSave C fs a n).res = (t.put C.canOpen norm a).2 ∧ (fmtSave C fs a n).anim = a ∧
    (t.put C.canOpen norm a).1.anims = t.anims ∧
    ∀ p, Anim.load C (fmtSave C fs a n).disk p = (t.put C.canOpen norm a).1.load first p := by
  obtain ⟨f, fn, d⟩ := a
  obtain ⟨b, hb⟩ := hr d
  subst hn
  cases f with
  | sfg => exact ⟨rfl, rfl, rfl, hf⟩
  | blank => exact ⟨rfl, rfl, rfl, hf⟩
  | sif =>
    cases n with
    | none => exact ⟨rfl, rfl, rfl, hf⟩
    | some p =>
      by_cases ho : C.canOpen p = true
      · refine ⟨by simp [fmtSave, writeOut, Store.put, ho, hb], by simp [fmtSave, writeOut, ho, hb],
          by simp [Store.put, ho], fun q => ?_⟩
        simp only [fmtSave, writeOut, Store.put, ho, if_true, hb, id]
        rw [load_put hC fs p hb (.inl ⟨rfl, rfl⟩) q, Store.load]
        by_cases hq : q = p
        · simp [hq]
        · simp only [if_neg hq]
          exact hf q
      · refine ⟨by simp [fmtSave, writeOut, Store.put, ho], by simp [fmtSave, writeOut, ho],
          by simp [Store.put, ho], fun q => ?_⟩
        simp only [fmtSave, writeOut, Store.put, ho]
        exact hf q
  | sifz =>
    cases n with
    | none => exact ⟨rfl, rfl, rfl, hf⟩
    | some p =>
      by_cases ho : C.canOpen p = true
      · refine ⟨by simp [fmtSave, writeOut, Store.put, ho, hb], by simp [fmtSave, writeOut, ho, hb],
          by simp [Store.put, ho], fun q => ?_⟩
        simp only [fmtSave, writeOut, Store.put, ho, if_true, hb]
        rw [load_put hC fs p hb (.inr ⟨rfl, rfl⟩) q, Store.load]
        by_cases hq : q = p
        · simp [hq]
        · simp only [if_neg hq]
          exact hf q
      · refine ⟨by simp [fmtSave, writeOut, Store.put, ho], by simp [fmtSave, writeOut, ho],
          by simp [Store.put, ho], fun q => ?_⟩
        simp only [fmtSave, writeOut, Store.put, ho]
        exact hf q

theorem set_self {α : Type} {l : List α} {i : ℕ} {a : α} (h : l[i]? = some a) : l.set i a = l := by
  refine List.ext_getElem? fun j => ?_
  rw [List.getElem?_set]
  split
  next e =>
    subst e
    rw [h]
    have : i < l.length := (List.getElem?_eq_some_iff.1 h).1
    simp [this]
  · rfl

theorem stored_step (hC : C.Lawful norm) (hr : ∀ d, ∃ b, C.render d = .ok b) (blank : D) {first : Str → Res (Anim D)}
    {s : Session D} {t : Store D} (h : Stored C first s t) (o : SOp D) :
    Stored C first (o.run C blank s).1 (Store.run C.canOpen norm first blank o t).1 ∧
      (o.run C blank s).2 = (Store.run C.canOpen norm first blank o t).2 := by
  obtain ⟨fs, as⟩ := s
  obtain ⟨ff, bs⟩ := t
  obtain ⟨ha, hf⟩ := h
  simp only at ha hf
  subst ha
  cases o with
  | new => exact ⟨⟨rfl, hf⟩, rfl⟩
  | «open» name =>
    simp only [SOp.run, Store.run]
    rw [hf name]
    cases Store.load first ⟨ff, as⟩ name with
    | error e => exact ⟨⟨rfl, hf⟩, rfl⟩
    | ok a => exact ⟨⟨rfl, hf⟩, rfl⟩
  | edit i f =>
    simp only [SOp.run, Store.run]
    cases as[i]? with
    | none => exact ⟨⟨rfl, hf⟩, rfl⟩
    | some a => exact ⟨⟨rfl, hf⟩, rfl⟩
  | save i name =>
    cases name with
    | none =>
      simp only [SOp.run, Store.run]
      cases hi : as[i]? with
      | none => exact ⟨⟨rfl, hf⟩, rfl⟩
      | some a =>
        obtain ⟨h1, h2, h3, h4⟩ := stored_put hC hr hf a a.filename rfl
        simp only [Anim.save, h2, set_self hi]
        exact ⟨⟨h3.symm, h4⟩, h1⟩
    | some p =>
      simp only [SOp.run, Store.run]
      cases hi : as[i]? with
      | none => exact ⟨⟨rfl, hf⟩, rfl⟩
      | some a =>
        cases hp : fmtForSaving p with
        | error e =>
          simp only [Anim.save, hp, set_self hi]
          exact ⟨⟨rfl, hf⟩, trivial⟩
        | ok f =>
          obtain ⟨h1, h2, h3, h4⟩ := stored_put (t := ⟨ff, as.set i ⟨f, some p, a.doc⟩⟩) hC hr hf ⟨f, some p, a.doc⟩ (some p)
            rfl
          simp only [Anim.save, hp, h2]
          exact ⟨⟨h3.symm, h4⟩, h1⟩

theorem stored_run (hC : C.Lawful norm) (hr : ∀ d, ∃ b, C.render d = .ok b) (blank : D) {first : Str → Res (Anim D)} :
    ∀ (os : List (SOp D)) {s : Session D} {t : Store D}, Stored C first s t →
      Stored C first (runOps C blank os s).1 (runStore C.canOpen norm first blank os t).1 ∧
        (runOps C blank os s).2 = (runStore C.canOpen norm first blank os t).2
  | [], s, t, h => ⟨h, rfl⟩
  | o :: os, s, t, h => by
    obtain ⟨h1, h2⟩ := stored_step hC hr blank h o
    obtain ⟨h3, h4⟩ := stored_run hC hr blank os h1
    exact ⟨h3, by simp only [runOps, runStore, h2, h4]⟩

/-- C165. Whatever a program does with any number of animations and files: files behave as a store of documents. Each
statement raises what it would with such a store, each animation is what it would be, and opening any file gives what it
would: the document that was last saved there. -/
theorem c165_store (hC : C.Lawful norm) (hr : ∀ d, ∃ b, C.render d = .ok b) (blank : D) (fs : Disk) (os : List (SOp D)) :
    let c := runOps C blank os ⟨fs, []⟩
    let t := runStore C.canOpen norm (Anim.load C fs) blank os ⟨fun _ => none, []⟩
    c.2 = t.2 ∧ c.1.anims = t.1.anims ∧ ∀ p, Anim.load C c.1.disk p = t.1.load (Anim.load C fs) p := by
  obtain ⟨⟨h1, h2⟩, h3⟩ := stored_run hC hr blank os (first := Anim.load C fs) (s := ⟨fs, []⟩) (t := ⟨fun _ => none, []⟩)
    ⟨rfl, fun _ => rfl⟩
  exact ⟨h3, h1, h2⟩

/-- C165, with the text of the files: for documents that can be written, and any gzip that undoes its own work. What a file
holds, opened, is the document last saved there, as C15 says it reads. -/
theorem c165_store_xml {F : Fl} (short : Node → Bool) {gzip : Bytes → Bytes} {gunzip : Bytes → Res Bytes}
    {canOpen : Str → Bool} (g1 : ∀ b, gunzip (gzip b) = .ok b) (g2 : ∀ b, ∃ r, gzip b = 0x1f :: 0x8b :: r)
    (blank : XmlDoc F) (fs : Disk) (os : List (SOp (XmlDoc F))) :
    let C := xmlCodec F short gzip gunzip canOpen
    let c := runOps C blank os ⟨fs, []⟩
    let t := runStore canOpen XmlDoc.norm (Anim.load C fs) blank os ⟨fun _ => none, []⟩
    (c.2 = t.2 ∧ c.1.anims = t.1.anims ∧ ∀ p, Anim.load C c.1.disk p = t.1.load (Anim.load C fs) p) ∧
      ∀ d : XmlDoc F, ReadBack F d.1 d.norm.1 :=
  ⟨c165_store (xmlCodec_lawful F short canOpen g1 g2) (fun _ => ⟨_, rfl⟩) blank fs os,
    fun d => readBack_reload F d.1 d.2.2⟩

/-! ## The last save -/

theorem runOps_append (blank : D) : ∀ (us vs : List (SOp D)) (s : Session D),
    runOps C blank (us ++ vs) s =
      ((runOps C blank vs (runOps C blank us s).1).1, (runOps C blank us s).2 ++ (runOps C blank vs (runOps C blank us s).1).2)
  | [], vs, s => rfl
  | u :: us, vs, s => by simp only [List.cons_append, runOps, runOps_append blank us vs]

theorem noneSaves_frame (blank : D) {p : Str} : ∀ {os : List (SOp D)} {s : Session D}, NoneSavesTo C blank p os s →
    (runOps C blank os s).1.disk p = s.disk p
  | [], _, _ => rfl
  | o :: os, s, h => by
    refine (noneSaves_frame blank h.2).trans ?_
    cases o with
    | new => rfl
    | «open» name =>
      simp only [SOp.run]
      cases Anim.load C s.disk name <;> rfl
    | edit i f =>
      simp only [SOp.run]
      cases s.anims[i]? <;> rfl
    | save i name =>
      simp only [SOp.run]
      cases hi : s.anims[i]? with
      | none => rfl
      | some a =>
        have := h.1 i name a rfl hi
        rcases save_shape C a name with ⟨_, _, _, _, h1⟩ | ⟨p', _, _, _, hp, _, h1⟩
        · simp only [(h1 s.disk 0).1]
        · simp only [(h1 s.disk 0).1]
          refine put_other _ _ _ _ ?_
          rintro rfl
          exact this hp

/-- C165. When a save has come to its end without an exception, then from there on, until something else is saved to the same
file, opening it gives the document that was saved: whatever has become of that animation, and whatever else the program has
done and failed to do. -/
theorem c165_last (hC : C.Lawful norm) (blank : D) (fs : Disk) (before later : List (SOp D)) (i : ℕ) (name : Option Str)
    (a : Anim D) (p : Str) (ha : (runOps C blank before ⟨fs, []⟩).1.anims[i]? = some a) (hp : savedTo a name = some p)
    (hok : (a.save C (runOps C blank before ⟨fs, []⟩).1.disk name).res = .ok ())
    (hl : NoneSavesTo C blank p later (runOps C blank (before ++ [.save i name]) ⟨fs, []⟩).1) :
    ∃ f, Anim.load C (runOps C blank (before ++ .save i name :: later) ⟨fs, []⟩).1.disk p = .ok ⟨f, some p, norm a.doc⟩ := by
  have e : before ++ SOp.save i name :: later = (before ++ [.save i name]) ++ later := by simp
  rw [e, runOps_append blank (before ++ [SOp.save i name]) later]
  rw [load_congr (noneSaves_frame blank hl), runOps_append blank before]
  simp only [runOps, SOp.run, ha]
  obtain ⟨q, f, b, hf, hb, -, hname, hdisk, -⟩ := save_ok _ a name hok
  have : q = p := by
    rcases hname with ⟨rfl, -⟩ | ⟨rfl, h, -⟩
    · simpa [savedTo] using hp
    · simpa [savedTo, h] using hp
  subst this
  refine ⟨f, ?_⟩
  rw [hdisk]
  rcases hf with rfl | rfl
  · rw [if_pos rfl, load_put hC _ q hb (.inl ⟨rfl, rfl⟩) q, if_pos rfl]
  · rw [if_neg (by decide), load_put hC _ q hb (.inr ⟨rfl, rfl⟩) q, if_pos rfl]

/-- C165. A file to which nothing has been saved is as it was. -/
theorem c165_others (blank : D) (fs : Disk) (os : List (SOp D)) (p : Str) (h : NoneSavesTo C blank p os ⟨fs, []⟩) :
    (runOps C blank os ⟨fs, []⟩).1.disk p = fs p := noneSaves_frame blank h

theorem save_crash_frame (fs : Disk) (a : Anim D) (name : Option Str) (q : Str) (hq : savedTo a name ≠ some q) :
    ∀ s ∈ (a.save C fs name).crash, s q = fs q := by
  cases name with
  | none => exact (fmtSave_frame fs a a.filename q (by simpa [savedTo] using hq)).2
  | some p =>
    simp only [Anim.save]
    cases fmtForSaving p with
    | error e => simp
    | ok f => exact (fmtSave_frame fs _ (some p) q (by simpa [savedTo] using hq)).2

/-- C165. If the program dies while it saves an animation, after whatever it has done before: every file but the one that is
being saved can be opened, and holds what it held according to `c165_store`. (For that one see C17.) -/
theorem c165_crash (hC : C.Lawful norm) (hr : ∀ d, ∃ b, C.render d = .ok b) (blank : D) (fs : Disk) (os : List (SOp D))
    (i : ℕ) (name : Option Str) (a : Anim D) (ha : (runOps C blank os ⟨fs, []⟩).1.anims[i]? = some a) (left : Disk)
    (hleft : left ∈ (a.save C (runOps C blank os ⟨fs, []⟩).1.disk name).crash) (p : Str) (hp : savedTo a name ≠ some p) :
    Anim.load C left p = (runStore C.canOpen norm (Anim.load C fs) blank os ⟨fun _ => none, []⟩).1.load (Anim.load C fs) p ∧
      (runStore C.canOpen norm (Anim.load C fs) blank os ⟨fun _ => none, []⟩).1.anims[i]? = some a := by
  obtain ⟨-, h1, h2⟩ := c165_store hC hr blank fs os
  exact ⟨(load_congr (save_crash_frame _ a name p hp left hleft)).trans (h2 p), h1 ▸ ha⟩

/-! ## A case -/

/-- A new animation is made 100 wide and saved; the file is opened as another one, which is made 200 high. Then the new
animation is saved under another name, made 200 high too, and saved again. -/
def exSession : List (SOp (XmlDoc double)) :=
  [.new, .edit 0 (onXml exWide exWide_good), .save 0 none, .save 0 (some "a.sif".toList), .open "a.sif".toList,
    .edit 1 (onXml exTall exTall_good), .save 0 (some "b.sifz".toList), .edit 0 (onXml exTall exTall_good), .save 0 none]

/-- The first `save` raises. After all that, "a.sif" is 100 wide and no more: the animation opened from it has not been
saved, and the other's changes went to "b.sifz". -/
theorem c165_case :
    let c := runOps exXmlCodec exXmlAnim.doc exSession ⟨fun _ => none, []⟩
    let size (p : Str) := (Anim.load exXmlCodec c.1.disk p).map fun a =>
      (a.doc.1.attrs.get "width", a.doc.1.attrs.get "height")
    c.2 = [.ok (), .ok (), .error .value, .ok (), .ok (), .ok (), .ok (), .ok (), .ok ()] ∧
    size "a.sif".toList = .ok (some (.str "100".toList), none) ∧
    size "b.sifz".toList = .ok (some (.str "100".toList), some (.str "200".toList)) := by
  decide +kernel

/-- The conditions of `c165_last` are met, by what comes after the saving of "a.sif": the animation is saved as "b.sifz",
changed, and saved again. -/
example (a : Bytes) (ha : a = [5]) :
    let s := (runOps exCodec a ([.new] ++ [.save 0 (some "a.sif".toList)]) ⟨fun _ => none, []⟩).1
    ((Anim.blank a).save exCodec (fun _ => none) (some "a.sif".toList)).res = .ok () ∧
    NoneSavesTo exCodec a "a.sif".toList [.save 0 (some "b.sifz".toList), .edit 0 fun b => (6 :: b, .ok ()), .save 0 none] s := by
  subst ha
  refine ⟨by decide, ?_, ?_, ?_, trivial⟩
  all_goals
    intro i name a h ha
    cases h
  · simp [savedTo]
  · injection ha with ha
    subst ha
    decide

end Sang
