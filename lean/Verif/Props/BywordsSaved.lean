import Verif.Spec.BywordsSaved
import Verif.Lemmas.Steady

/-!
# C151: running the bywords program on a file it has saved
-/

namespace Sang

open Spec

/-- What is read from a file is as files hold it. -/
theorem load_tidy {F : Fl} {short : Node → Bool} {gzip : Bytes → Bytes} {gunzip : Bytes → Res Bytes}
    {canOpen : Str → Bool} {fs : Disk} {p : Str} {a : Anim (XmlDoc F)}
    (h : Anim.load (xmlCodec F short gzip gunzip canOpen) fs p = .ok a) (hdir : Direct a.doc.1) :
    a.doc.1.Tidy ∧ a.doc.1.isTag = true := by
  have key : ∀ {b : Bytes} {y : XmlDoc F}, (xmlCodec F short gzip gunzip canOpen).parse b = .ok y →
      Direct y.1 → y.1.Tidy ∧ y.1.isTag = true := by
    intro b y h hdir
    simp only [xmlCodec] at h
    split at h
    · cases h
    split at h
    · cases h
    next z hz =>
    injection h with h
    subst h
    exact parse_tidy hz hdir
  rw [Anim.load] at h
  split at h
  · cases h
  · cases h
  · split at h
    · cases h
    next d hd =>
    injection h with h
    subst h
    exact key hd hdir
  · split at h
    · cases h
    split at h
    · cases h
    next d hd =>
    injection h with h
    subst h
    exact key hd hdir
  · cases h
  · cases h

/-- A run of a program, when neither the program nor the saving can fail. -/
theorem run_saved {F : Fl} (short : Node → Bool) {gzip : Bytes → Bytes} {gunzip : Bytes → Res Bytes}
    {canOpen : Str → Bool} (h1 : ∀ b, gunzip (gzip b) = .ok b) (h2 : ∀ b, ∃ r, gzip b = 0x1f :: 0x8b :: r)
    {P : Node → Node × Res Unit} (hP : ∀ n, Good F n → Good F (P n).1) {sif : Str} {fs : Disk} {f : Fmt}
    (hf : fmtForSaving sif = .ok f) (hf' : f = .sif ∨ f = .sifz) (ho : canOpen sif = true) {a : Anim (XmlDoc F)}
    (ha : Anim.load (xmlCodec F short gzip gunzip canOpen) fs sif = .ok a) (hok : (P a.doc.1).2 = .ok ()) :
    ∃ fs' y, runProgram (xmlCodec F short gzip gunzip canOpen) (onXml P hP) sif sif fs = (fs', .ok ()) ∧
      Anim.load (xmlCodec F short gzip gunzip canOpen) fs' sif = .ok ⟨f, some sif, y⟩ ∧
      y.1 = (P a.doc.1).1.opened F := by
  have hx : onXml P hP a.doc = ((onXml P hP a.doc).1, .ok ()) := Prod.ext rfl hok
  have hrun : (runProgram (xmlCodec F short gzip gunzip canOpen) (onXml P hP) sif sif fs).2 = .ok () := by
    simp only [runProgram, ha]
    rw [hx]
    simp only [Anim.save, hf]
    rcases hf' with rfl | rfl <;> simp [fmtSave, writeOut, xmlCodec, ho]
  have hr := hrun
  simp only [runProgram, ha] at hr
  rw [hx] at hr
  obtain ⟨⟨f', hl, hf''⟩, -⟩ := c15_save_then_open (xmlCodec_lawful F short canOpen h1 h2) fs
    { a with doc := (onXml P hP a.doc).1 } sif hr
  rw [hf] at hf''
  injection hf'' with hf''
  subst hf''
  refine ⟨_, (onXml P hP a.doc).1.norm, Prod.ext rfl hrun, ?_, rfl⟩
  have : runProgram (xmlCodec F short gzip gunzip canOpen) (onXml P hP) sif sif fs =
      ((Anim.save (xmlCodec F short gzip gunzip canOpen) fs { a with doc := (onXml P hP a.doc).1 } (some sif)).disk,
        (Anim.save (xmlCodec F short gzip gunzip canOpen) fs { a with doc := (onXml P hP a.doc).1 } (some sif)).res) := by
    simp only [runProgram, ha]
    rw [hx]
  rw [this]
  exact hl

theorem useAll_good {F : Fl} (d : Defaults) : ∀ (us : List BywordsUse) (n : Node), Good F n → Good F (useAll F d us n).1
  | [], _, h => h
  | u :: us, n, h => by
    have h' := adjust_good (F := F) d u.perm u.letters u.lines n h
    rw [useAll]
    split
    · next e => rw [e] at h'; exact h'
    · next e => rw [e] at h'; exact useAll_good d us _ h'

/-- What an animation read from a file is to begin with. -/
theorem steady_start {F : Fl} {d : Defaults} {gs : List BGroup} {k : ℕ} {n : Node} (hfit : Fit F d gs k n)
    (h1 : TextLayersApart n) (h3 : ∀ p x, nodeAt p n = some x → ¬ IsParam "type_" x) (ht : n.Tidy)
    (htag : n.isTag = true) : ∃ tbl, Apart' tbl ∧ Steady F d gs tbl k n := by
  obtain ⟨tbl, hp⟩ := places_exist hfit.groups
  refine ⟨tbl, places_apart hp hfit.texts hfit.apart, hfit.groups, hp, (calm_of h3 h1).1, ht.xmlOk F, htag, ht.clean,
    hfit.rate, ?_⟩
  rintro ⟨i, j⟩ p hpl
  obtain ⟨ys, gp, gn, zs, r, x, -, -, hat, hB, -, -, hr, hx, hxl⟩ := placeOf_info hp hpl
  have hgp : gp ≠ [] := by
    rintro rfl
    injection hat with hat
    subst hat
    have hr := hfit.rate
    have : animRoot n = none := by
      rw [animRoot, canvasRoot]
      simp only
      rw [if_neg (by rw [hB.1.1]; decide)]
    rw [this] at hr
    simp [readFps] at hr
  have hr0 : r ≠ [] := by
    rintro rfl
    injection hx with hx
    subst hx
    have e1 := hB.1.2
    rw [hxl.2] at e1
    injection e1 with e1
    injection e1 with e1
    exact absurd e1 (by decide)
  obtain ⟨c, v, hv, hr1, hr2⟩ := hfit.strings gp r gn x hgp hat hB hr0 hx hxl
  have hv' : itemText tbl n (i, j) = some v :=
    itemText_some.2 ⟨p, x, c, hpl, by rw [hr, nodeAt_append, hat]; exact hx, hv⟩
  exact ⟨v, hv', ⟨hr1, hr2⟩, .inl (itemText_tidy ht hv')⟩

theorem runEach_steady {F : Fl} (hF : F.Lawful) (short : Node → Bool) {gzip : Bytes → Bytes} {gunzip : Bytes → Res Bytes}
    {canOpen : Str → Bool} (g1 : ∀ b, gunzip (gzip b) = .ok b) (g2 : ∀ b, ∃ r, gzip b = 0x1f :: 0x8b :: r)
    {d : Defaults} {gs : List BGroup} {tbl : List (List Place)} {k : ℕ} (hk : 1 ≤ k) (hk6 : k < 10 ^ 6) (hap : Apart' tbl)
    {sif : Str} {f : Fmt} (hf : fmtForSaving sif = .ok f) (hf' : f = .sif ∨ f = .sifz) (ho : canOpen sif = true) :
    ∀ {us : List BywordsUse}, (∀ u ∈ us, ∃ words, Schedules F gs u words ∧ WellTimed F k words) →
    ∀ {fs : Disk} {a : Anim (XmlDoc F)}, Anim.load (xmlCodec F short gzip gunzip canOpen) fs sif = .ok a →
    Steady F d gs tbl k a.doc.1 →
    ∃ fs', runEach (xmlCodec F short gzip gunzip canOpen)
        (fun u => onXml (adjust F d u.perm u.letters u.lines) (adjust_good d u.perm u.letters u.lines)) sif us fs =
        (fs', .ok ()) ∧
      (us ≠ [] → ∃ y, Anim.load (xmlCodec F short gzip gunzip canOpen) fs' sif = .ok ⟨f, some sif, y⟩ ∧
        y.1 = (useAll F d us a.doc.1).1.opened F)
  | [], _, fs, _, _, _ => ⟨fs, rfl, fun h => absurd rfl h⟩
  | u :: us, hus, fs, a, ha, hs => by
    obtain ⟨words, hsc, hw⟩ := hus u (by simp)
    have hus' : ∀ u ∈ us, ∃ words, Schedules F gs u words ∧ WellTimed F k words := fun u' hu' => hus u' (by simp [hu'])
    obtain ⟨r, s, -⟩ := hs.adjust hF hk hk6 hap hsc hw
    obtain ⟨fs1, y, e1, e2, e3⟩ := run_saved short g1 g2 (adjust_good d u.perm u.letters u.lines) hf hf' ho ha r
    obtain ⟨fs2, i1, i2⟩ := runEach_steady hF short g1 g2 hk hk6 hap hf hf' ho hus' e2
      (by rw [e3]; exact s.opened hF hk hk6)
    have hu : useAll F d (u :: us) a.doc.1 = useAll F d us (adjust F d u.perm u.letters u.lines a.doc.1).1 := by
      have : adjust F d u.perm u.letters u.lines a.doc.1 = ((adjust F d u.perm u.letters u.lines a.doc.1).1, .ok ()) :=
        Prod.ext rfl r
      rw [useAll, this]
    refine ⟨fs2, by rw [runEach, e1]; exact i1, fun _ => ?_⟩
    by_cases h0 : us = []
    · subst h0
      rw [runEach] at i1
      injection i1 with i1 _
      subst i1
      exact ⟨y, e2, by rw [hu]; exact e3⟩
    · obtain ⟨z, z1, z2⟩ := i2 h0
      refine ⟨z, z1, ?_⟩
      rw [z2, hu]
      simp only [e3]
      exact (s.opened hF hk hk6).useAll_opened hF hk hk6 hap hus' s (opened_twice s.xml)

/-- C151. The bywords program is run on a file again and again, each time with some subtitles. No run fails, and in the
end the file holds the animation it would hold had it been opened only once, bywords used each of these times on
that animation, and the result saved. What that is, is in C146.

This is for files with what bywords can be used on (see C146), no layer in a text layer, no parameter called "type_", and
a frame rate which is a whole number. And it is for schedules whose words begin on a whole second, or at least a
ten-thousandth of a frame after one (`WellTimed`). -/
theorem c151_runs_partial {F : Fl} (hF : F.Lawful) (short : Node → Bool) {gzip : Bytes → Bytes}
    {gunzip : Bytes → Res Bytes} {canOpen : Str → Bool} (g1 : ∀ b, gunzip (gzip b) = .ok b)
    (g2 : ∀ b, ∃ r, gzip b = 0x1f :: 0x8b :: r) (d : Defaults) {gs : List BGroup} {k : ℕ} (hk : 1 ≤ k) (hk6 : k < 10 ^ 6)
    {sif : Str} {f : Fmt} (hf : fmtForSaving sif = .ok f) (hf' : f = .sif ∨ f = .sifz) (ho : canOpen sif = true)
    {us : List BywordsUse} (hne : us ≠ []) (hus : ∀ u ∈ us, ∃ words, Schedules F gs u words ∧ WellTimed F k words)
    {fs : Disk} {a : Anim (XmlDoc F)} (ha : Anim.load (xmlCodec F short gzip gunzip canOpen) fs sif = .ok a)
    (hdir : Direct a.doc.1) (hfit : Fit F d gs k a.doc.1) (h1 : TextLayersApart a.doc.1)
    (h3 : ∀ p x, nodeAt p a.doc.1 = some x → ¬ IsParam "type_" x) :
    let C := xmlCodec F short gzip gunzip canOpen
    let each := runEach C (fun u => onXml (adjust F d u.perm u.letters u.lines) (adjust_good d u.perm u.letters u.lines))
      sif us fs
    let once := runProgram C (onXml (useAll F d us) (useAll_good d us)) sif sif fs
    each.2 = .ok () ∧ once.2 = .ok () ∧ Anim.load C each.1 sif = Anim.load C once.1 sif ∧
      ∃ y, Anim.load C each.1 sif = .ok ⟨f, some sif, y⟩ ∧ ReadBack F (useAll F d us a.doc.1).1 y.1 := by
  obtain ⟨htidy, htag⟩ := load_tidy ha hdir
  obtain ⟨tbl, hap, hs⟩ := steady_start hfit h1 h3 htidy htag
  obtain ⟨fs1, e1, e2⟩ := runEach_steady hF short g1 g2 hk hk6 hap hf hf' ho hus ha hs
  obtain ⟨y, y1, y2⟩ := e2 hne
  obtain ⟨r, s⟩ := hs.useAll hF hk hk6 hap hus
  obtain ⟨fs2, z, z1, z2, z3⟩ := run_saved short g1 g2 (useAll_good d us) hf hf' ho ha r
  intro C each once
  have he : each = (fs1, .ok ()) := e1
  have hon : once = (fs2, .ok ()) := z1
  rw [he, hon]
  refine ⟨rfl, rfl, ?_, y, y1, ?_⟩
  · have : y = z := Subtype.ext (y2.trans z3.symm)
    rw [this] at y1
    exact y1.trans z2.symm
  · rw [y2]
    exact readBack_reload F _ s.tag

theorem runEach_cons {D : Type} {C : Codec D} {prog : BywordsUse → D → D × Res Unit} {sif : Str} {u : BywordsUse}
    {us : List BywordsUse} {fs fs1 : Disk} {r : Disk × Res Unit} (h : runProgram C (prog u) sif sif fs = (fs1, .ok ()))
    (h' : runEach C prog sif (u :: us) fs = r) : runEach C prog sif us fs1 = r := by
  rw [runEach, h] at h'
  exact h'

theorem runEach_one {D : Type} {C : Codec D} {prog : BywordsUse → D → D × Res Unit} {sif : Str} {u : BywordsUse}
    {fs : Disk} {r : Disk × Res Unit} : runEach C prog sif [u] fs = r ↔ runProgram C (prog u) sif sif fs = r := by
  rw [runEach]
  split
  · next e => rw [e]
  · next e => rw [e, runEach]

/-- C151. Running the program twice with the same subtitles leaves the file holding what it held after the first time. -/
theorem c151_twice_partial {F : Fl} (hF : F.Lawful) (short : Node → Bool) {gzip : Bytes → Bytes}
    {gunzip : Bytes → Res Bytes} {canOpen : Str → Bool} (g1 : ∀ b, gunzip (gzip b) = .ok b)
    (g2 : ∀ b, ∃ r, gzip b = 0x1f :: 0x8b :: r) (d : Defaults) {gs : List BGroup} {k : ℕ} (hk : 1 ≤ k) (hk6 : k < 10 ^ 6)
    {sif : Str} {f : Fmt} (hf : fmtForSaving sif = .ok f) (hf' : f = .sif ∨ f = .sifz) (ho : canOpen sif = true)
    {u : BywordsUse} {words : List WordTiming} (hsc : Schedules F gs u words) (hw : WellTimed F k words)
    {fs : Disk} {a : Anim (XmlDoc F)} (ha : Anim.load (xmlCodec F short gzip gunzip canOpen) fs sif = .ok a)
    (hdir : Direct a.doc.1) (hfit : Fit F d gs k a.doc.1) (h1 : TextLayersApart a.doc.1)
    (h3 : ∀ p x, nodeAt p a.doc.1 = some x → ¬ IsParam "type_" x) :
    let C := xmlCodec F short gzip gunzip canOpen
    let prog := onXml (adjust F d u.perm u.letters u.lines) (adjust_good d u.perm u.letters u.lines)
    let first := runProgram C prog sif sif fs
    let second := runProgram C prog sif sif first.1
    first.2 = .ok () ∧ second.2 = .ok () ∧ Anim.load C second.1 sif = Anim.load C first.1 sif ∧
      ∃ b, Anim.load C first.1 sif = .ok b := by
  have hus : ∀ v ∈ [u, u], ∃ words, Schedules F gs v words ∧ WellTimed F k words := by
    intro v hv
    simp only [List.mem_cons, List.not_mem_nil, or_false, or_self] at hv
    subst hv
    exact ⟨words, hsc, hw⟩
  obtain ⟨htidy, htag⟩ := load_tidy ha hdir
  obtain ⟨tbl, hap, hs⟩ := steady_start hfit h1 h3 htidy htag
  obtain ⟨fs1, e1, e2⟩ := runEach_steady hF short g1 g2 hk hk6 hap hf hf' ho (us := [u]) (fun v hv => hus v (by simp at hv ⊢; exact hv)) ha hs
  obtain ⟨y, y1, y2⟩ := e2 (by simp)
  obtain ⟨fs2, i1, i2⟩ := runEach_steady hF short g1 g2 hk hk6 hap hf hf' ho hus ha hs
  obtain ⟨z, z1, z2⟩ := i2 (by simp)
  have htwice : (useAll F d [u, u] a.doc.1).1 = (useAll F d [u] a.doc.1).1 := by
    obtain ⟨⟨no, hb⟩, htime⟩ := hsc
    have h2 := c139_twice_partial hF d d u.perm_perm u.perm_perm u.letters u.lines hfit.groups hb hfit.rate htime h1
      hfit.apart h3 (hfit.matched _)
    obtain ⟨r, -⟩ := hs.adjust hF hk hk6 hap ⟨⟨no, hb⟩, htime⟩ hw
    have e : adjust F d u.perm u.letters u.lines a.doc.1 = ((adjust F d u.perm u.letters u.lines a.doc.1).1, .ok ()) :=
      Prod.ext rfl r
    simp only [useAll]
    rw [e]
    simp only [h2]
  have hyz : z = y := Subtype.ext (by rw [z2, y2, htwice])
  intro C prog first second
  have hfirst : first = (fs1, .ok ()) := runEach_one.1 e1
  have hsecond : second = (fs2, .ok ()) := by
    have := runEach_cons hfirst i1
    show runProgram C prog sif sif first.1 = _
    rw [hfirst]
    exact runEach_one.1 this
  rw [hfirst, hsecond]
  refine ⟨rfl, rfl, ?_, _, y1⟩
  rw [hyz] at z1
  exact z1.trans y1.symm

/-! ## A case -/

/-- There is a file which holds a given animation. -/
theorem file_of {F : Fl} (short : Node → Bool) {gzip : Bytes → Bytes} {gunzip : Bytes → Res Bytes}
    {canOpen : Str → Bool} (g1 : ∀ b, gunzip (gzip b) = .ok b) (g2 : ∀ b, ∃ r, gzip b = 0x1f :: 0x8b :: r)
    {sif : Str} {f : Fmt} (hf : fmtForSaving sif = .ok f) (hf' : f = .sif ∨ f = .sifz) (ho : canOpen sif = true)
    {n : Node} (hn : Good F n) :
    ∃ fs a, Anim.load (xmlCodec F short gzip gunzip canOpen) fs sif = .ok a ∧ a.doc.1 = n.opened F := by
  have hok : (Anim.save (xmlCodec F short gzip gunzip canOpen) (fun _ => none) ⟨.blank, none, ⟨n, hn⟩⟩ (some sif)).res =
      .ok () := by
    simp only [Anim.save, hf]
    rcases hf' with rfl | rfl <;> simp [fmtSave, writeOut, xmlCodec, ho]
  obtain ⟨⟨f', h, -⟩, -⟩ := c15_save_then_open (xmlCodec_lawful F short canOpen g1 g2) (fun _ => none)
    ⟨.blank, none, ⟨n, hn⟩⟩ sif hok
  exact ⟨_, _, h, rfl⟩

/-- The animation of C126's example, as a file holds it. -/
def exSheet : Node :=
  .tag "canvas"
    [("begin-time", .str "0f".toList), ("end-time", .str "5s".toList), ("fps", .str "24.000".toList)]
    [.tag "layer" [("desc", .str "Bywords 1".toList), ("type", .str "group".toList)]
      [.tag "param" [("name", .str "canvas".toList)] [.tag "canvas" [] [
        .tag "layer" [("desc", .str "Hello, World".toList), ("type", .str "text".toList)]
          [.tag "param" [("name", .str "text".toList)] [.tag "string" [] [.text "Text".toList]]]]]]]

theorem exSheet_apart : TextLayersApart exSheet ∧ ∀ p x, nodeAt p exSheet = some x → ¬ IsParam "type_" x := by
  have htag : ∀ x : Node, x.name ≠ "" → x.isTag = true := by
    intro x h
    cases x with
    | text s => exact absurd rfl h
    | tag a b ks => rfl
  constructor
  · intro p q x y hp hx hq hy hname
    have h : ∀ a ∈ placesOf [] exSheet, IsLayer "text" a.2 → ∀ b ∈ placesOf [] a.2, b.1 ≠ [] → b.2.name ≠ "layer" := by
      decide +kernel
    exact h (p, x) (mem_placesOf.2 ⟨p, rfl, hp, htag x (by rw [hx.1]; decide)⟩) hx (q, y)
      (mem_placesOf.2 ⟨q, rfl, hy, htag y (by rw [hname]; decide)⟩) hq hname
  · intro p x hp hx
    have h : ∀ a ∈ placesOf [] exSheet, ¬ IsParam "type_" a.2 := by decide +kernel
    exact h (p, x) (mem_placesOf.2 ⟨p, rfl, hp, htag x (by rw [hx.1]; decide)⟩) hx

theorem exSheet_fit : Fit double .initial exGroups (24:ℕ) exSheet := by
  have htag : ∀ ty x, IsLayer ty x → x.isTag = true := by
    intro ty x h
    cases x with
    | text s => simp [IsLayer, Node.name] at h
    | tag a b ks => rfl
  refine ⟨by decide +kernel, by decide +kernel, exSheet_apart.1.none, ?_, ?_⟩
  · intro p q x y hp hq hx hy hne
    have : NoneInAnother (IsLayer "group") exSheet := noneInAnother_of (htag _) (by decide +kernel)
    exact this p q x y hp hq hx.1 hy.1 hne
  · intro q r g x h0 hg hB hr0 hx hxl
    have hin : ∀ a ∈ placesOf [] exSheet, IsLayer "group" a.2 → ∀ b ∈ placesOf [] a.2, b.1 ≠ [] →
        IsLayer "text" b.2 → b.2 = .tag "layer" [("desc", .str "Hello, World".toList), ("type", .str "text".toList)]
          [.tag "param" [("name", .str "text".toList)] [.tag "string" [] [.text "Text".toList]]] := by decide +kernel
    have hx := hin (q, g) (mem_placesOf.2 ⟨q, rfl, hg, htag _ _ hB.1⟩) hB.1 (r, x)
      (mem_placesOf.2 ⟨r, rfl, hx, htag _ _ hxl⟩) hr0 hxl
    simp only at hx
    subst hx
    exact ⟨.string, .tag "string" [] [.text "Text".toList], by decide +kernel, by decide +kernel, by decide +kernel,
      by decide +kernel, by decide +kernel, .string, by decide +kernel⟩

instance (q : ℚ) (k : ℕ) : Decidable (Written q k) := inferInstanceAs (Decidable (_ ∧ _ ∧ _))

/-- Both uses of C146's example are well timed: the words begin at frames 24, 40, 96 and 104. -/
theorem exUses_timed : ∀ u ∈ exUses, ∃ words, Schedules double exGroups u words ∧ WellTimed double 24 words := by
  intro u hu
  obtain ⟨words, hs, -⟩ := exUses_ok.2.2.1 u hu
  refine ⟨words, hs, ?_⟩
  obtain ⟨⟨no, hb⟩, -⟩ := hs
  have key : ∀ u ∈ exUses, ∀ w ∈ (match bywords double u.letters exGroups u.lines with
      | .ok (l, _) => l
      | .error _ => []), Written (double.rnd (w.time * (24:ℕ))) 24 := by decide +kernel
  have := key u hu
  rw [hb] at this
  exact this

theorem exSheet_good : Good double exSheet ∧ exSheet.opened double = exSheet :=
  ⟨⟨xmlOkB_ok (by decide +kernel), rfl⟩, by decide +kernel⟩

/-- The conditions of `c151_runs_partial` are met by a file with this animation, whatever gzip does as long as it is
gzip. -/
example (short : Node → Bool) {gzip : Bytes → Bytes} {gunzip : Bytes → Res Bytes}
    (g1 : ∀ b, gunzip (gzip b) = .ok b) (g2 : ∀ b, ∃ r, gzip b = 0x1f :: 0x8b :: r) :
    ∃ fs a, Anim.load (xmlCodec double short gzip gunzip fun _ => true) fs "a.sif".toList = .ok a ∧
      fmtForSaving "a.sif".toList = .ok .sif ∧ Fit double .initial exGroups (24:ℕ) a.doc.1 ∧
      TextLayersApart a.doc.1 ∧ (∀ p x, nodeAt p a.doc.1 = some x → ¬ IsParam "type_" x) ∧
      (∀ u ∈ exUses, ∃ words, Schedules double exGroups u words ∧ WellTimed double 24 words) ∧ exUses.length = 2 := by
  have hf : fmtForSaving "a.sif".toList = .ok .sif := by decide +kernel
  obtain ⟨fs, a, h, e⟩ := file_of (F := double) (canOpen := fun _ => true) short g1 g2 hf (.inl rfl) rfl exSheet_good.1
  rw [exSheet_good.2] at e
  refine ⟨fs, a, h, hf, ?_, ?_, ?_, exUses_timed, rfl⟩
  · rw [e]; exact exSheet_fit
  · rw [e]; exact exSheet_apart.1
  · rw [e]; exact exSheet_apart.2

/-! ## Where it fails -/

/-- An animation with a word of six letters. -/
def exPlanet : Node :=
  .tag "canvas"
    [("begin-time", .str "0f".toList), ("end-time", .str "5s".toList), ("fps", .str "24.000".toList)]
    [.tag "layer" [("desc", .str "Bywords 1".toList), ("type", .str "group".toList)]
      [.tag "param" [("name", .str "canvas".toList)] [.tag "canvas" [] [
        .tag "layer" [("desc", .str "Planet".toList), ("type", .str "text".toList)]
          [.tag "param" [("name", .str "text".toList)] [.tag "string" [] [.text "Text".toList]]]]]]]

/-- It is shown letter by letter, in 1.4 seconds. -/
def exPlanetUse : BywordsUse := ⟨true, [⟨0, 1400, "planet".toList⟩], id, fun _ => .rfl⟩

/-- C151. When a letter or word begins a very little after a whole second, a second run fails. Here the sixth letter
begins 1.0000000000000002 seconds into the animation, which is 24.000000000000007 frames; the file says "1s 7.10543e-15f",
and the second run raises ValueError when it reads that. Using bywords twice without saving between works. -/
theorem c151_second_run_fails (short : Node → Bool) {gzip : Bytes → Bytes} {gunzip : Bytes → Res Bytes}
    {canOpen : Str → Bool} (g1 : ∀ b, gunzip (gzip b) = .ok b) (g2 : ∀ b, ∃ r, gzip b = 0x1f :: 0x8b :: r)
    {sif : Str} {f : Fmt} (hf : fmtForSaving sif = .ok f) (hf' : f = .sif ∨ f = .sifz) (ho : canOpen sif = true)
    {fs : Disk} {a : Anim (XmlDoc double)} (ha : Anim.load (xmlCodec double short gzip gunzip canOpen) fs sif = .ok a)
    (hp : a.doc.1 = exPlanet) :
    let C := xmlCodec double short gzip gunzip canOpen
    (runProgram C (onXml (useAll double .initial [exPlanetUse, exPlanetUse]) (useAll_good _ _)) sif sif fs).2 = .ok () ∧
    (runEach C (fun u => onXml (adjust double .initial u.perm u.letters u.lines) (adjust_good _ u.perm u.letters u.lines))
      sif [exPlanetUse] fs).2 = .ok () ∧
    (runEach C (fun u => onXml (adjust double .initial u.perm u.letters u.lines) (adjust_good _ u.perm u.letters u.lines))
      sif [exPlanetUse, exPlanetUse] fs).2 = .error .value := by
  have c1 : (useAll double .initial [exPlanetUse, exPlanetUse] exPlanet).2 = .ok () := by decide +kernel
  have c2 : (adjust double .initial exPlanetUse.perm exPlanetUse.letters exPlanetUse.lines exPlanet).2 = .ok () := by
    decide +kernel
  have c3 : (adjust double .initial exPlanetUse.perm exPlanetUse.letters exPlanetUse.lines
      ((adjust double .initial exPlanetUse.perm exPlanetUse.letters exPlanetUse.lines exPlanet).1.opened double)).2 =
      .error .value := by decide +kernel
  intro C
  obtain ⟨fs1, y1, e1, -⟩ := run_saved short g1 g2 (useAll_good .initial [exPlanetUse, exPlanetUse]) hf hf' ho ha
    (by rw [hp]; exact c1)
  obtain ⟨fs2, y2, e2, l2, d2⟩ := run_saved short g1 g2
    (adjust_good .initial exPlanetUse.perm exPlanetUse.letters exPlanetUse.lines) hf hf' ho ha (by rw [hp]; exact c2)
  rw [hp] at d2
  obtain ⟨-, -, c⟩ := c126_file (canOpen := canOpen) short g1 g2 .initial exPlanetUse.perm exPlanetUse.letters
    exPlanetUse.lines sif fs2
  have e3 := c _ .value l2 (by rw [d2]; exact c3)
  refine ⟨by rw [e1], ?_, ?_⟩
  · have := runEach_one (C := C) (sif := sif) (u := exPlanetUse) (fs := fs) (prog := fun u =>
      onXml (adjust double .initial u.perm u.letters u.lines) (adjust_good _ u.perm u.letters u.lines)).2 e2
    rw [this]
  · rw [runEach]
    have e2' : runProgram C ((fun u : BywordsUse =>
      onXml (adjust double .initial u.perm u.letters u.lines) (adjust_good _ u.perm u.letters u.lines)) exPlanetUse)
        sif sif fs = (fs2, .ok ()) := e2
    rw [e2']
    have := runEach_one (C := C) (sif := sif) (u := exPlanetUse) (fs := fs2) (prog := fun u =>
      onXml (adjust double .initial u.perm u.letters u.lines) (adjust_good _ u.perm u.letters u.lines)).2 e3
    simp only [this]

/-- There are such files. -/
example (short : Node → Bool) {gzip : Bytes → Bytes} {gunzip : Bytes → Res Bytes}
    (g1 : ∀ b, gunzip (gzip b) = .ok b) (g2 : ∀ b, ∃ r, gzip b = 0x1f :: 0x8b :: r) :
    ∃ fs a, Anim.load (xmlCodec double short gzip gunzip fun _ => true) fs "a.sif".toList = .ok a ∧ a.doc.1 = exPlanet := by
  obtain ⟨fs, a, h, e⟩ := file_of (F := double) (canOpen := fun _ => true) (f := .sif) (sif := "a.sif".toList) short g1 g2
    (by decide +kernel) (.inl rfl) rfl (n := exPlanet) ⟨xmlOkB_ok (by decide +kernel), rfl⟩
  exact ⟨fs, a, h, e.trans (by decide +kernel)⟩

end Sang
