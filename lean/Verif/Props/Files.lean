import Verif.Format
import Verif.Props.Registry

/-!
# Properties of files (C14–C18)
-/

namespace Sang

/-- What is assumed of the XML serializer, the XML parser and gzip. `norm d` is what document
`d` looks like after a trip through text. -/
structure Codec.Lawful {D : Type} (C : Codec D) (norm : D → D) : Prop where
  parse_render : ∀ d b, C.render d = .ok b → C.parse b = .ok (norm d)
  xml_magic : ∀ d b, C.render d = .ok b → ∃ r, b = 0x3c :: 0x3f :: r
  gunzip_gzip : ∀ b, C.gunzip (C.gzip b) = .ok b
  gzip_magic : ∀ b, ∃ r, C.gzip b = 0x1f :: 0x8b :: r

/-- A concrete codec to show that the laws can be met: documents are byte strings, rendering
puts an XML header before them and gzip a gzip header. It refuses to render `[0]`, and to open
names starting with `/`. -/
def exCodec : Codec Bytes where
  render d := if d = [0] then .error .value else .ok (0x3c :: 0x3f :: d)
  parse
    | 0x3c :: 0x3f :: d => .ok d
    | _ => .error .value
  gzip b := 0x1f :: 0x8b :: b
  gunzip
    | 0x1f :: 0x8b :: b => .ok b
    | _ => .error .value
  canOpen p := p.head? != some '/'

theorem exCodec_lawful : exCodec.Lawful id where
  parse_render d b h := by
    simp only [exCodec] at h
    split at h
    · cases h
    · injection h with h; subst h; rfl
  xml_magic d b h := by
    simp only [exCodec] at h
    split at h
    · cases h
    · injection h with h; exact ⟨d, h.symm⟩
  gunzip_gzip b := rfl
  gzip_magic b := ⟨b, rfl⟩

/-! ## C14: choosing a format -/

/-- C14. On load the first two bytes decide, and nothing else. -/
theorem c14_load_by_magic (fs : Disk) (p : Str) :
    fmtForLoading fs p = match fs p with
      | none => .error .notFound
      | some b =>
        if b.take 2 = [0x3c, 0x3f] then .ok .sif
        else if b.take 2 = [0x1f, 0x8b] then .ok .sifz
        else if b.take 2 = [0x50, 0x4b] then .ok .sfg
        else .error .value := by
  unfold fmtForLoading
  cases fs p with
  | none => rfl
  | some b =>
    simp only
    generalize b.take 2 = m
    by_cases h1 : m = [0x3c, 0x3f]
    · subst h1; decide
    by_cases h2 : m = [0x1f, 0x8b]
    · subst h2; decide
    by_cases h3 : m = [0x50, 0x4b]
    · subst h3; decide
    rw [if_neg h1, if_neg h2, if_neg h3]
    have e : (handlers.filter fun h => h.magic = some m) = [] := by
      rw [List.filter_eq_nil_iff]
      intro h _
      cases h <;> simp [Fmt.magic, Ne.symm h1, Ne.symm h2, Ne.symm h3]
    rw [e]
    by_cases h0 : m = []
    · rw [if_pos h0]
    · rw [if_neg h0]; rfl

/-- C14. Renaming a file, or changing anything after its second byte, doesn't change how it is
opened. -/
theorem c14_load_ignores_name (fs fs' : Disk) (p p' : Str) (b b' : Bytes) (h : fs p = some b)
    (h' : fs' p' = some b') (hm : b.take 2 = b'.take 2) :
    fmtForLoading fs p = fmtForLoading fs' p' := by
  rw [c14_load_by_magic, c14_load_by_magic, h, h']
  simp only [hm]

/-- `p` is a directory part (possibly empty) and a file name. -/
def IsPath (p dir base : Str) : Prop :=
  p = dir ++ base ∧ (dir = [] ∨ ∃ d, dir = d ++ ['/']) ∧ '/' ∉ base

theorem exists_isPath (p : Str) : ∃ dir base, IsPath p dir base := by
  induction p with
  | nil => exact ⟨[], [], rfl, Or.inl rfl, by simp⟩
  | cons c p ih =>
    obtain ⟨dir, base, hp, hd, hb⟩ := ih
    rcases hd with rfl | ⟨d, rfl⟩
    · by_cases hc : c = '/'
      · subst hc
        exact ⟨['/'], base, by simp [hp], Or.inr ⟨[], rfl⟩, hb⟩
      · exact ⟨[], c :: base, by simp [hp], Or.inl rfl, by
          simp only [List.mem_cons, not_or]; exact ⟨Ne.symm hc, hb⟩⟩
    · exact ⟨c :: (d ++ ['/']), base, by simp [hp], Or.inr ⟨c :: d, rfl⟩, hb⟩

theorem takeWhile_stop {p : Char → Bool} (a : Str) (c : Char) (r : Str) (ha : ∀ x ∈ a, p x = true)
    (hc : p c = false) : (a ++ c :: r).takeWhile p = a ∧ (a ++ c :: r).dropWhile p = c :: r := by
  induction a with
  | nil => simp [hc]
  | cons x a ih =>
    have hx := ha x (by simp)
    have := ih (fun y hy => ha y (by simp [hy]))
    simp [hx, this.1, this.2]

theorem base_of_isPath {p dir base : Str} (h : IsPath p dir base) :
    p.reverse.takeWhile (· != '/') = base.reverse := by
  obtain ⟨rfl, hd, hb⟩ := h
  have hb' : ∀ x ∈ base.reverse, (x != '/') = true := by
    intro x hx
    simp only [List.mem_reverse] at hx
    simp only [bne_iff_ne, ne_eq]
    rintro rfl; exact hb hx
  rcases hd with rfl | ⟨d, rfl⟩
  · simp only [List.nil_append]
    have := List.takeWhile_append_of_pos (l₂ := []) hb'
    simpa using this
  · simp only [List.reverse_append, List.reverse_cons, List.reverse_nil, List.nil_append,
      List.singleton_append]
    exact (takeWhile_stop _ _ _ hb' (by decide)).1

theorem pick_extension (e : Str) :
    pickHandler (handlers.filter fun h => h.extensions.contains e) =
      if e = "sif".toList then .ok .sif
      else if e = "sifz".toList then .ok .sifz
      else if e = "sfg".toList then .ok .sfg
      else .error .value := by
  by_cases h1 : e = "sif".toList
  · subst h1; decide
  by_cases h2 : e = "sifz".toList
  · subst h2; decide
  by_cases h3 : e = "sfg".toList
  · subst h3; decide
  rw [if_neg h1, if_neg h2, if_neg h3]
  have : (handlers.filter fun h => h.extensions.contains e) = [] := by
    rw [List.filter_eq_nil_iff]
    intro h _
    cases h <;> simp only [Fmt.extensions, List.contains_cons, List.contains_nil, Bool.or_false,
      beq_iff_eq] <;> first | exact h1 | exact h2 | exact h3 | simp
  rw [this]; rfl

/-- C14. On save the extension decides, whatever its case. -/
theorem c14_save_by_extension (p dir stem ext : Str) (h : IsPath p dir (stem ++ '.' :: ext))
    (hstem : ∃ c ∈ stem, c ≠ '.') (hext : '.' ∉ ext) :
    fmtForSaving p =
      if ext.map Char.toLower = "sif".toList then .ok .sif
      else if ext.map Char.toLower = "sifz".toList then .ok .sifz
      else if ext.map Char.toLower = "sfg".toList then .ok .sfg
      else .error .value := by
  have hx : ∀ x ∈ ext.reverse, (x != '.') = true := by
    intro x hx
    simp only [List.mem_reverse] at hx
    simp only [bne_iff_ne, ne_eq]
    rintro rfl; exact hext hx
  have hs : splitext p = '.' :: ext := by
    unfold splitext
    rw [base_of_isPath h]
    simp only [List.reverse_append, List.reverse_cons, List.append_assoc, List.singleton_append]
    obtain ⟨h1, h2⟩ := takeWhile_stop (p := (· != '.')) ext.reverse '.' stem.reverse hx (by decide)
    rw [h1, h2]
    have : stem.reverse.any (· != '.') = true := by
      obtain ⟨c, hc, hne⟩ := hstem
      rw [List.any_eq_true]
      exact ⟨c, by simpa using hc, by simpa using hne⟩
    simp [this]
  have hl : lower ('.' :: ext) = '.' :: ext.map Char.toLower := by
    rw [lower_eq]; rfl
  simp only [fmtForSaving, hs, hl]
  exact pick_extension _

/-- C14. A name with no extension (no dot in its last component, or only leading dots) can't be
saved to. -/
theorem c14_save_needs_extension (p dir base : Str) (h : IsPath p dir base)
    (hno : ∀ stem ext, base = stem ++ '.' :: ext → ∀ c ∈ stem, c = '.') :
    fmtForSaving p = .error .value := by
  have hs : splitext p = [] := by
    unfold splitext
    rw [base_of_isPath h]
    simp only
    cases hd : base.reverse.dropWhile (· != '.') with
    | nil => rfl
    | cons x st =>
      simp only
      have hx : x = '.' := by
        have := List.head?_dropWhile_not (· != '.') base.reverse
        rw [hd] at this
        simpa using this
      subst hx
      have heq : base = st.reverse ++ '.' :: (base.reverse.takeWhile (· != '.')).reverse := by
        have := List.takeWhile_append_dropWhile (p := (· != '.')) (l := base.reverse)
        rw [hd] at this
        have := congrArg List.reverse this
        simp only [List.reverse_append, List.reverse_cons, List.reverse_reverse] at this
        simpa using this.symm
      have := hno _ _ heq
      rw [if_neg]
      rw [List.any_eq_true]
      rintro ⟨c, hc, hne⟩
      exact absurd (this c (by simpa using hc)) (by simpa using hne)
  simp only [fmtForSaving, hs]
  rfl

/-- C14. Every name falls under one of the last two theorems, and no name gets two handlers. -/
theorem c14_save_total (p : Str) :
    fmtForSaving p ∈ [.ok .sif, .ok .sifz, .ok .sfg, .error .value] := by
  unfold fmtForSaving
  simp only [pick_extension]
  generalize dropDot (lower (splitext p)) = e
  by_cases h1 : e = "sif".toList
  · rw [if_pos h1]; simp
  by_cases h2 : e = "sifz".toList
  · rw [if_neg h1, if_pos h2]; simp
  by_cases h3 : e = "sfg".toList
  · rw [if_neg h1, if_neg h2, if_pos h3]; simp
  · rw [if_neg h1, if_neg h2, if_neg h3]; simp

example : fmtForSaving "dir.d/My.File.SifZ".toList = .ok .sifz ∧
    IsPath "dir.d/My.File.SifZ".toList "dir.d/".toList ("My.File".toList ++ '.' :: "SifZ".toList) ∧
    fmtForSaving "a.sif/.sif".toList = .error .value := by
  refine ⟨by decide, ⟨by decide, Or.inr ⟨"dir.d".toList, by decide⟩, by decide⟩, by decide⟩

/-! ## C15, C16: what a save does -/

theorem put_self (fs : Disk) (p : Str) (b : Bytes) : fs.put p b p = some b := by
  simp [Disk.put]

theorem put_other (fs : Disk) (p q : Str) (b : Bytes) (h : q ≠ p) : fs.put p b q = fs q := by
  simp [Disk.put, h]

theorem load_sif {D : Type} {C : Codec D} {norm : D → D} (hC : C.Lawful norm) (fs : Disk) (p : Str)
    (d : D) (b : Bytes) (hb : C.render d = .ok b) (hp : fs p = some b) :
    Anim.load C fs p = .ok ⟨.sif, some p, norm d⟩ := by
  obtain ⟨r, hr⟩ := hC.xml_magic d b hb
  have hf : fmtForLoading fs p = .ok .sif := by
    rw [c14_load_by_magic, hp, hr]; rfl
  simp only [Anim.load, hf, hp, hC.parse_render d b hb]

theorem load_sifz {D : Type} {C : Codec D} {norm : D → D} (hC : C.Lawful norm) (fs : Disk) (p : Str)
    (d : D) (b : Bytes) (hb : C.render d = .ok b) (hp : fs p = some (C.gzip b)) :
    Anim.load C fs p = .ok ⟨.sifz, some p, norm d⟩ := by
  obtain ⟨r, hr⟩ := hC.gzip_magic b
  have hf : fmtForLoading fs p = .ok .sifz := by
    rw [c14_load_by_magic, hp, hr]; rfl
  simp only [Anim.load, hf, hp, hC.gunzip_gzip, hC.parse_render d b hb]

/-- The file an unnamed save goes to. -/
def target {D : Type} (a : Anim D) : Fmt × Option Str := (a.fmt, a.filename)

/-- What a successful save amounts to. -/
theorem save_ok {D : Type} {C : Codec D} (fs : Disk) (a : Anim D) (name : Option Str)
    (h : (a.save C fs name).res = .ok ()) :
    ∃ p f b, (f = .sif ∨ f = .sifz) ∧ C.render a.doc = .ok b ∧ C.canOpen p = true ∧
      (name = some p ∧ fmtForSaving p = .ok f ∨
        name = none ∧ a.filename = some p ∧ a.fmt = f) ∧
      (a.save C fs name).disk = fs.put p (if f = .sif then b else C.gzip b) ∧
      (a.save C fs name).anim = ⟨f, some p, a.doc⟩ := by
  have core : ∀ (a : Anim D) (p : Str), (fmtSave C fs a (some p)).res = .ok () →
      ∃ b, (a.fmt = .sif ∨ a.fmt = .sifz) ∧ C.render a.doc = .ok b ∧ C.canOpen p = true ∧
        (fmtSave C fs a (some p)).disk = fs.put p (if a.fmt = .sif then b else C.gzip b) ∧
        (fmtSave C fs a (some p)).anim = ⟨a.fmt, some p, a.doc⟩ := by
    intro a p h
    obtain ⟨f, fn, d⟩ := a
    cases f <;> simp only [fmtSave, writeOut] at h ⊢
    · split at h
      · rename_i hopen
        cases hr : C.render d with
        | error e => rw [hr] at h; cases h
        | ok b => exact ⟨b, by simp, rfl, hopen, by simp [hopen], by simp [hopen]⟩
      · cases h
    · split at h
      · rename_i hopen
        cases hr : C.render d with
        | error e => rw [hr] at h; cases h
        | ok b => exact ⟨b, by simp, rfl, hopen, by simp [hopen], by simp [hopen]⟩
      · cases h
    · cases h
    · cases h
  cases name with
  | none =>
    simp only [Anim.save] at h ⊢
    cases hfn : a.filename with
    | none =>
      exfalso
      rw [hfn] at h
      obtain ⟨f, fn, d⟩ := a
      cases f <;> simp [fmtSave] at h
    | some p =>
      rw [hfn] at h
      obtain ⟨b, h1, h2, h3, h4, h5⟩ := core a p h
      exact ⟨p, a.fmt, b, h1, h2, h3, Or.inr ⟨by simp, by simp, by simp⟩, h4, h5⟩
  | some p =>
    simp only [Anim.save] at h ⊢
    cases hf : fmtForSaving p with
    | error e => rw [hf] at h; cases h
    | ok f =>
      rw [hf] at h
      obtain ⟨b, h1, h2, h3, h4, h5⟩ := core _ p h
      exact ⟨p, f, b, h1, h2, h3, Or.inl ⟨rfl, hf⟩, h4, h5⟩

/-- C15. If `save(name)` succeeds, opening `name` gives the saved document, and so does opening
the file of any later successful `save()`, which goes to the same name. -/
theorem c15_save_then_open {D : Type} {C : Codec D} {norm : D → D} (hC : C.Lawful norm) (fs : Disk)
    (a : Anim D) (p : Str) (h : (a.save C fs (some p)).res = .ok ()) :
    (∃ f, Anim.load C (a.save C fs (some p)).disk p = .ok ⟨f, some p, norm a.doc⟩ ∧
      fmtForSaving p = .ok f) ∧
    (a.save C fs (some p)).anim.doc = a.doc ∧
    ∀ (fs' : Disk) (d' : D),
      let again := ({ (a.save C fs (some p)).anim with doc := d' } : Anim D).save C fs' none
      again.res = .ok () →
        (∃ f, Anim.load C again.disk p = .ok ⟨f, some p, norm d'⟩) ∧
        ∀ q, q ≠ p → again.disk q = fs' q := by
  obtain ⟨q, f, b, hf, hb, _, hname, hdisk, hanim⟩ := save_ok fs a (some p) h
  obtain ⟨rfl, hff⟩ : p = q ∧ fmtForSaving p = .ok f := by
    rcases hname with ⟨h1, h2⟩ | hname
    · injection h1 with h1; subst h1; exact ⟨rfl, h2⟩
    · cases hname.1
  refine ⟨⟨f, ?_, hff⟩, by rw [hanim], ?_⟩
  · rw [hdisk]
    rcases hf with rfl | rfl
    · exact load_sif hC _ p a.doc b hb (by rw [put_self]; rfl)
    · exact load_sifz hC _ p a.doc b hb (by rw [put_self]; rfl)
  · intro fs' d' again hagain
    obtain ⟨q', f', b', hf', hb', _, hname', hdisk', hanim'⟩ := save_ok fs' _ none hagain
    have hq : q' = p := by
      rcases hname' with ⟨h', _⟩ | ⟨_, h', _⟩
      · cases h'
      · rw [hanim] at h'; simp only at h'; injection h' with h'; exact h'.symm
    subst hq
    have hdd : again.disk = fs'.put q' (if f' = .sif then b' else C.gzip b') := hdisk'
    refine ⟨⟨f', ?_⟩, ?_⟩
    · rw [hdd]
      rcases hf' with rfl | rfl
      · exact load_sif hC _ q' d' b' hb' (by rw [put_self]; rfl)
      · exact load_sifz hC _ q' d' b' hb' (by rw [put_self]; rfl)
    · intro q hq
      rw [hdd, put_other _ _ _ _ hq]

/-- C15 is met: a document saved as `x.SIFZ` and opened again. -/
example : ((Anim.blank [5, 6]).save exCodec (fun _ => none) (some "x.SIFZ".toList)).res = .ok () ∧
    Anim.load exCodec ((Anim.blank [5, 6]).save exCodec (fun _ => none) (some "x.SIFZ".toList)).disk
      "x.SIFZ".toList = .ok ⟨.sifz, some "x.SIFZ".toList, [5, 6]⟩ := by
  constructor <;> decide

theorem fmtSave_frame {D : Type} {C : Codec D} (fs : Disk) (a : Anim D) (name : Option Str) (q : Str)
    (hq : name ≠ some q) :
    (fmtSave C fs a name).disk q = fs q ∧ ∀ s ∈ (fmtSave C fs a name).crash, s q = fs q := by
  have wr : ∀ wrap empty p, q ≠ p → (writeOut C fs a wrap empty p).disk q = fs q ∧
      ∀ s ∈ (writeOut C fs a wrap empty p).crash, s q = fs q := by
    intro wrap empty p hp
    have rs : ∀ b, ∀ s ∈ rewriteStates fs p b, s q = fs q := by
      intro b s hs
      simp only [rewriteStates, List.mem_cons, List.mem_map] at hs
      rcases hs with rfl | ⟨i, _, rfl⟩
      · rfl
      · exact put_other _ _ _ _ hp
    unfold writeOut
    simp only
    split
    · cases C.render a.doc with
      | error e => exact ⟨put_other _ _ _ _ hp, rs _⟩
      | ok b => exact ⟨put_other _ _ _ _ hp, rs _⟩
    · exact ⟨rfl, by simp⟩
  obtain ⟨f, fn, d⟩ := a
  cases name with
  | none => cases f <;> simp [fmtSave]
  | some p =>
    have hp : q ≠ p := by rintro rfl; exact hq rfl
    cases f
    · exact wr _ _ _ hp
    · exact wr _ _ _ hp
    · simp [fmtSave]
    · simp [fmtSave]

/-- C16. No save, successful or not, finished or killed half way, changes any file other than
the one it saves to. -/
theorem c16_other_files_untouched {D : Type} (C : Codec D) (fs : Disk) (a : Anim D)
    (name : Option Str) (q : Str) (hname : name ≠ some q) (hself : name = none → a.filename ≠ some q) :
    (a.save C fs name).disk q = fs q ∧ ∀ s ∈ (a.save C fs name).crash, s q = fs q := by
  cases name with
  | none => exact fmtSave_frame fs a a.filename q (hself rfl)
  | some p =>
    simp only [Anim.save]
    cases fmtForSaving p with
    | error e => exact ⟨rfl, by simp⟩
    | ok f => exact fmtSave_frame fs _ (some p) q hname

example : let fs : Disk := fun p => if p = "b.sif".toList then some [7] else none
    ((Anim.blank [5, 6]).save exCodec fs (some "a.sif".toList)).disk "b.sif".toList = some [7] := by
  decide

/-! ## C17: crashes -/

/-- C17, the part that holds: at every crash point the file being saved to is absent or
complete as it was before, or holds a prefix of what is being written; and if the save returns,
it holds all of it. -/
theorem c17_crash_partial {D : Type} (C : Codec D) (fs : Disk) (a : Anim D) (p : Str)
    (h : (a.save C fs (some p)).res = .ok ()) :
    ∃ new, (a.save C fs (some p)).disk p = some new ∧
      ∀ s ∈ (a.save C fs (some p)).crash, s p = fs p ∨ ∃ i, s p = some (new.take i) := by
  have wr : ∀ (a : Anim D) wrap empty, (writeOut C fs a wrap empty p).res = .ok () →
      ∃ new, (writeOut C fs a wrap empty p).disk p = some new ∧
        ∀ s ∈ (writeOut C fs a wrap empty p).crash, s p = fs p ∨ ∃ i, s p = some (new.take i) := by
    intro a wrap empty h
    unfold writeOut at h ⊢
    simp only at h ⊢
    split at h
    · rename_i ho
      simp only [ho, if_true]
      cases hr : C.render a.doc with
      | error e => rw [hr] at h; cases h
      | ok b =>
        refine ⟨wrap b, put_self _ _ _, ?_⟩
        intro s hs
        simp only [rewriteStates, List.mem_cons, List.mem_map] at hs
        rcases hs with rfl | ⟨i, _, rfl⟩
        · exact Or.inl rfl
        · exact Or.inr ⟨i, put_self _ _ _⟩
    · cases h
  simp only [Anim.save] at h ⊢
  cases hf : fmtForSaving p with
  | error e => rw [hf] at h; cases h
  | ok f =>
    rw [hf] at h
    cases f
    · exact wr _ _ _ h
    · exact wr _ _ _ h
    · cases h
    · cases h

/-- C17 fails: whatever the file held, and whatever is saved, there is a crash point at which
both the old and the new contents are gone. -/
theorem c17_crash_safety_fails {D : Type} {C : Codec D} {norm : D → D} (hC : C.Lawful norm)
    (fs : Disk) (a : Anim D) (p : Str) (old : Bytes) (hold : fs p = some old) (hne : old ≠ [])
    (h : (a.save C fs (some p)).res = .ok ()) :
    ∃ s ∈ (a.save C fs (some p)).crash, s p ≠ fs p ∧ s p ≠ (a.save C fs (some p)).disk p ∧
      ∃ e, Anim.load C s p = .error e := by
  have wr : ∀ (a : Anim D) wrap empty, (∀ b, C.render a.doc = .ok b → wrap b ≠ []) →
      (writeOut C fs a wrap empty p).res = .ok () →
      ∃ s ∈ (writeOut C fs a wrap empty p).crash, s p ≠ fs p ∧
        s p ≠ (writeOut C fs a wrap empty p).disk p ∧ ∃ e, Anim.load C s p = .error e := by
    intro a wrap empty hw h
    unfold writeOut at h ⊢
    simp only at h ⊢
    split at h
    · rename_i ho
      simp only [ho, if_true]
      cases hr : C.render a.doc with
      | error e => rw [hr] at h; cases h
      | ok b =>
        have hp : (fs.put p []) p = some [] := put_self _ _ _
        refine ⟨fs.put p [], ?_, ?_, ?_, ?_⟩
        · simp only [rewriteStates, List.mem_cons, List.mem_map]
          exact Or.inr ⟨0, by simp, by simp⟩
        · rw [hp, hold]; simpa using Ne.symm hne
        · simp only [hp, put_self]; simpa using Ne.symm (hw b hr)
        · refine ⟨.value, ?_⟩
          have : fmtForLoading (fs.put p []) p = .error .value := by
            rw [c14_load_by_magic, hp]; rfl
          simp [Anim.load, this]
    · cases h
  simp only [Anim.save] at h ⊢
  cases hf : fmtForSaving p with
  | error e => rw [hf] at h; cases h
  | ok f =>
    rw [hf] at h
    cases f
    · refine wr _ _ _ ?_ h
      intro b hb
      obtain ⟨r, hr⟩ := hC.xml_magic _ _ hb
      simp [hr]
    · refine wr _ _ _ ?_ h
      intro b hb
      obtain ⟨r, hr⟩ := hC.gzip_magic b
      simp [hr]
    · cases h
    · cases h

/-- The hypotheses of the refutation are met. -/
example : let fs : Disk := fun p => if p = "a.sif".toList then some [0x3c, 0x3f, 9] else none
    ((Anim.blank [5, 6]).save exCodec fs (some "a.sif".toList)).res = .ok () := by decide

/-! ## C18: refused saves -/

/-- C18. A name whose extension isn't known is refused before anything changes: the disk, the
document and the target of the next `save()` are as before. -/
theorem c18_unknown_extension_partial {D : Type} (C : Codec D) (fs : Disk) (a : Anim D) (p : Str)
    (h : ∀ f, fmtForSaving p ≠ .ok f) :
    (a.save C fs (some p)).res = .error .value ∧ (a.save C fs (some p)).anim = a ∧
      (a.save C fs (some p)).disk = fs := by
  have ht := c14_save_total p
  simp only [List.mem_cons, List.not_mem_nil, or_false] at ht
  have he : fmtForSaving p = .error .value := by
    rcases ht with ht | ht | ht | ht
    · exact absurd ht (h _)
    · exact absurd ht (h _)
    · exact absurd ht (h _)
    · exact ht
  simp [Anim.save, he]

/-- C18 fails for every other refused save: if the extension is known and the save raises (an
`.sfg`, a name that can't be opened, a document that can't be rendered), the next `save()`
goes to the refused name. -/
theorem c18_refused_save_moves_target {D : Type} (C : Codec D) (fs : Disk) (a : Anim D) (p : Str)
    (f : Fmt) (h : fmtForSaving p = .ok f) (e : Err) (_he : (a.save C fs (some p)).res = .error e) :
    target (a.save C fs (some p)).anim = (f, some p) ∧ (a.save C fs (some p)).anim.doc = a.doc := by
  simp only [Anim.save, h]
  have wr : ∀ (a : Anim D) wrap empty, (writeOut C fs a wrap empty p).anim = { a with filename := some p } := by
    intro a wrap empty
    unfold writeOut
    simp only
    split
    · cases C.render a.doc <;> rfl
    · rfl
  cases f
  · simp only [fmtSave, wr, target]; simp
  · simp only [fmtSave, wr, target]; simp
  · simp [fmtSave, target]
  · simp [fmtSave, target]

/-- C18. In particular saving as `.sfg` always raises, changes no file, and leaves the animation
unable to save without a name: it raises again. -/
theorem c18_sfg_breaks_later_save {D : Type} (C : Codec D) (fs : Disk) (a : Anim D) (p : Str)
    (h : fmtForSaving p = .ok .sfg) :
    (a.save C fs (some p)).res = .error .notImpl ∧ (a.save C fs (some p)).disk = fs ∧
      (((a.save C fs (some p)).anim).save C fs none).res = .error .notImpl := by
  simp [Anim.save, h, fmtSave]

/-- C18. A render error destroys the file being saved to, too. -/
theorem c18_render_error_destroys_target {D : Type} (C : Codec D) (fs : Disk) (a : Anim D) (p : Str)
    (h : fmtForSaving p = .ok .sif) (ho : C.canOpen p = true) (e : Err)
    (hr : C.render a.doc = .error e) :
    (a.save C fs (some p)).res = .error e ∧ (a.save C fs (some p)).disk p = some [] := by
  simp [Anim.save, h, fmtSave, writeOut, ho, hr, put_self]

/-- The three kinds of refused save all happen. -/
example : fmtForSaving "x.sfg".toList = .ok .sfg ∧
    ((Anim.blank [5]).save exCodec (fun _ => none) (some "/x.sif".toList)).res = .error .notFound ∧
    ((Anim.blank [0]).save exCodec (fun _ => none) (some "x.sif".toList)).res = .error .value ∧
    ((Anim.blank [5]).save exCodec (fun _ => none) (some "x.png".toList)).res = .error .value := by
  decide

end Sang
