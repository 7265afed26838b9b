import Verif.Lemmas.Scan
import Verif.Props.Replacer

/-!
# C132, C133: the scripts in `etc/`
-/

namespace Sang
open Spec

/-! ## C132: the blend methods -/

/-- C132. The blend methods found are those of the header, in order of their numbers; there is an outcome
only if their numbers have no gap. -/
theorem c132_names (text : Str) (ls : List Str) (hfile : IsFile ls) (htext : newlines text = ls.flatten)
    (names : List Str) : scanHeader text = .ok names ↔ AreBlends ls names := by
  obtain ⟨hd, hm⟩ := scan_spec ls
  rw [scanHeader, htext, fileLines_flatten _ hfile]
  set d := ls.foldl scanLine []
  have said : ∀ i, (∃ l ∈ ls, ∃ n, SaysBlend l n i) → ∃ n, BlendIs ls i n := by
    clear hm hd htext hfile
    intro i
    induction ls using List.reverseRecOn with
    | nil => rintro ⟨l, hl, -⟩; simp at hl
    | append_singleton ls l ih =>
      rintro ⟨m, hml, n, hn⟩
      by_cases hl : ∃ n', SaysBlend l n' i
      · obtain ⟨n', hn'⟩ := hl
        exact ⟨n', (blendIs_append ..).2 (Or.inl hn')⟩
      · push Not at hl
        rcases List.mem_append.1 hml with hml | hml
        · obtain ⟨n', hn'⟩ := ih ⟨m, hml, n, hn⟩
          exact ⟨n', (blendIs_append ..).2 (Or.inr ⟨hn', hl⟩)⟩
        · rw [List.mem_singleton] at hml; subst hml; exact absurd hn (hl n)
  constructor
  · intro h
    split at h
    · next hc =>
      simp only [List.all_eq_true, List.mem_range, List.contains_iff_mem] at hc
      simp only [Except.ok.injEq] at h
      have hg := fun i n => mem_of_sorted hc i n
      rw [h] at hg
      refine ⟨fun i n hn => (hm i n).1 ((hg i n).1 hn), ?_⟩
      intro i hi l hl n hn
      obtain ⟨n', hn'⟩ := said i ⟨l, hl, n, hn⟩
      have := (hg i n').2 ((hm i n').2 hn')
      rw [List.getElem?_eq_none hi] at this
      cases this
    · cases h
  · rintro ⟨h1, h2⟩
    have hk : ∀ i, i ∈ d.map Prod.fst ↔ i < names.length := by
      intro i
      constructor
      · intro hi
        by_contra hlt
        obtain ⟨⟨j, n⟩, hp, rfl⟩ := List.mem_map.1 hi
        obtain ⟨pre, l, post, rfl, hl, -⟩ := (hm j n).1 hp
        exact h2 j (by omega) l (by simp) n hl
      · intro hi
        have := (hm i names[i]).2 (h1 i names[i] (List.getElem?_eq_getElem hi))
        exact List.mem_map_of_mem this
    have hlen : d.length = names.length := by
      have : (d.map Prod.fst).Perm (List.range names.length) :=
        (List.perm_ext_iff_of_nodup hd List.nodup_range).2 fun i => by rw [hk, List.mem_range]
      simpa using this.length_eq
    have hc : ∀ i < d.length, i ∈ d.map Prod.fst := fun i hi => (hk i).2 (by omega)
    rw [if_pos (by simpa only [List.all_eq_true, List.mem_range, List.contains_iff_mem] using hc)]
    congr 1
    apply List.ext_getElem?
    intro i
    by_cases hi : i < names.length
    · have := (mem_of_sorted hc i names[i]).2 ((hm i _).2 (h1 i names[i] (List.getElem?_eq_getElem hi)))
      rw [this, List.getElem?_eq_getElem hi]
    · rw [List.getElem?_eq_none, List.getElem?_eq_none (by omega : names.length ≤ i)]
      rw [List.length_map, List.length_insertionSort]; omega

/-- C132. Otherwise an assertion fails. -/
theorem c132_gap (text : Str) (ls : List Str) (hfile : IsFile ls) (htext : newlines text = ls.flatten) :
    (∀ e, scanHeader text = .error e → e = .assertion) ∧
    (scanHeader text = .error .assertion ↔ ¬ ∃ names, AreBlends ls names) := by
  have h1 : ∀ e, scanHeader text = .error e → e = .assertion := by
    intro e h
    rw [scanHeader] at h
    split at h
    · cases h
    · cases h; rfl
  refine ⟨h1, ?_⟩
  simp only [← c132_names text ls hfile htext]
  cases h : scanHeader text with
  | ok names => simp
  | error e => rw [h1 e h]; simp

theorem join_cons (sep s : Str) (l : List Str) (h : l ≠ []) : join sep (s :: l) = s ++ sep ++ join sep l := by
  cases l with
  | nil => exact absurd rfl h
  | cons t r => rfl

/-- C132. What goes into the class: an empty line and `NAME = number` for each blend method. -/
theorem c132_lines (names : List Str) (hn : ∀ n ∈ names, '\n' ∉ n) :
    ∃ v, (blendFields names).lookup "BlendMethod".toList = some v ∧ IsLines v (blendBody names) := by
  have nl : ∀ i, '\n' ∉ natStr i := by
    intro i h
    have := natStr_digits i _ h
    revert this; decide
  have key : ∀ (l : List Str) (k : ℕ), blendLines k l =
      join ['\n'] ((List.range l.length).map (fun i => l.getD i [] ++ " = ".toList ++ natStr (k + i)) ++ [[]]) := by
    intro l
    induction l with
    | nil => intro k; rfl
    | cons v l ih =>
      intro k
      rw [blendLines, ih (k + 1), List.length_cons, List.range_succ_eq_map, List.map_cons, List.cons_append,
        join_cons _ _ _ (by simp), List.map_map]
      simp [Function.comp_def, Nat.add_comm, Nat.add_left_comm]
  refine ⟨_, by rw [blendFields, List.lookup_cons_self], by simp [blendBody], ?_, ?_⟩
  · intro w hw
    simp only [blendBody, List.cons_append, List.mem_cons, List.mem_append, List.mem_map, List.mem_range,
      List.not_mem_nil, or_false] at hw
    rcases hw with rfl | ⟨i, hi, rfl⟩ | rfl
    · simp
    · simp only [List.mem_append, not_or]
      refine ⟨⟨?_, by decide⟩, nl i⟩
      rw [List.getD_eq_getElem?_getD, List.getElem?_eq_getElem hi]
      exact hn _ (List.getElem_mem hi)
    · simp
  · rw [key names 0, blendBody, List.cons_append, join_cons _ _ _ (by simp)]
    simp

theorem areBlends_plain {ls names : List Str} (h : AreBlends ls names) :
    ∀ n ∈ names, ∀ c ∈ n, c ∈ "ABCDEFGHIJKLMNOPQRSTUVWXYZ_".toList := by
  intro n hn c hc
  obtain ⟨i, hi, rfl⟩ := List.mem_iff_getElem.1 hn
  obtain ⟨pre, l, post, -, ⟨⟨k, ⟨b, ds, a, -, -, -, hu, -⟩, -⟩, -⟩, -⟩ := h.1 i _ (List.getElem?_eq_getElem hi)
  exact hu c hc

theorem tempName_inj {p q : Str} (h : tempName p = tempName q) : p = q := List.append_cancel_right h

theorem writeTo_apply (d : TextDisk) (p s q : Str) :
    writeTo d p s q = if q = p then some s else if q = tempName p then none else d q := by
  have : tempName p ≠ p := by
    intro h
    have := congrArg List.length h
    simp [tempName] at this
  simp only [writeTo, TextDisk.move, TextDisk.put]
  split
  · simp
  · split
    · rfl
    · rfl

/-- Rewriting several files: each is done as if alone. -/
theorem handleFiles_each {fields : RFields} (hf : fields ≠ []) {new : Str → Option Str} (files : List Str)
    (hnd : files.Nodup) (htemp : ∀ p ∈ files, tempName p ∉ files) :
    ∀ (d : TextDisk) (seen : List Str),
      (∀ p ∈ files, ∃ text, d p = some text ∧ ∀ seen, (handleText fields seen text).2 = .ok (new p)) →
      ∃ seen' d', handleFiles fields seen d files = (seen', d', .ok ()) ∧ ∀ q, d' q =
        if q ∈ files ∧ (new q).isSome then new q
        else if ∃ p ∈ files, q = tempName p ∧ (new p).isSome then none
        else d q := by
  induction files with
  | nil => intro d seen _; exact ⟨seen, d, rfl, fun q => by simp⟩
  | cons p r ih =>
    intro d seen h
    obtain ⟨text, hd, ht⟩ := h p (by simp)
    simp only [List.nodup_cons] at hnd
    have hrt : ∀ q ∈ r, tempName q ∉ r := fun q hq hm => htemp q (by simp [hq]) (by simp [hm])
    have hpt : ∀ q ∈ r, q ≠ tempName p := fun q hq he => htemp p (by simp) (by rw [← he]; simp [hq])
    have hpt' : ∀ q ∈ r, p ≠ tempName q := fun q hq he => htemp q (by simp [hq]) (by rw [← he]; simp)
    have hpp : p ≠ tempName p := fun he => htemp p (by simp) (by rw [← he]; simp)
    -- the first file
    have step : ∃ seen1 d1, handleFile fields seen d p = (seen1, d1, .ok ()) ∧ ∀ q, d1 q =
        if q = p ∧ (new p).isSome then new p
        else if q = tempName p ∧ (new p).isSome then none else d q := by
      have ht' := ht seen
      rw [handleFile, if_neg hf]
      simp only [hd]
      generalize handleText fields seen text = x at ht'
      obtain ⟨s1, y⟩ := x
      dsimp only at ht'
      subst ht'
      cases hn : new p with
      | none => exact ⟨s1, d, rfl, fun q => by simp⟩
      | some s =>
        refine ⟨s1, _, rfl, fun q => ?_⟩
        rw [writeTo_apply]
        simp
    obtain ⟨seen1, d1, e1, h1⟩ := step
    obtain ⟨seen', d', e2, h2⟩ := ih hnd.2 hrt d1 seen1 (by
      intro q hq
      obtain ⟨t, hq1, hq2⟩ := h q (by simp [hq])
      refine ⟨t, ?_, hq2⟩
      have hne : q ≠ p := fun he => hnd.1 (he ▸ hq)
      rw [h1, if_neg (fun hh => hne hh.1), if_neg (fun hh => hpt q hq hh.1), hq1])
    refine ⟨seen', d', by rw [handleFiles, e1]; exact e2, fun q => ?_⟩
    rw [h2, h1]
    by_cases hqr : q ∈ r
    · have hne : q ≠ p := fun he => hnd.1 (he ▸ hqr)
      have hq1 : ¬ ∃ x ∈ r, q = tempName x ∧ (new x).isSome = true := by
        rintro ⟨x, hx, rfl, -⟩; exact hrt x hx hqr
      have hq2 : ¬ ∃ x ∈ p :: r, q = tempName x ∧ (new x).isSome = true := by
        rintro ⟨x, hx, rfl, -⟩; exact htemp x hx (by simp [hqr])
      rw [if_neg hq1, if_neg hq2]
      simp [hqr, hne, hpt q hqr]
    · rw [if_neg (fun hh => hqr hh.1)]
      by_cases hqp : q = p
      · subst hqp
        have hq1 : ¬ ∃ x ∈ r, q = tempName x ∧ (new x).isSome = true := by
          rintro ⟨x, hx, hh, -⟩; exact hpt' x hx hh
        have hq2 : ¬ ∃ x ∈ q :: r, q = tempName x ∧ (new x).isSome = true := by
          rintro ⟨x, hx, hh, -⟩
          exact htemp x hx (by rw [← hh]; simp)
        rw [if_neg hq1, if_neg hq2]
        simp [hpp]
      · have e3 : (∃ x ∈ p :: r, q = tempName x ∧ (new x).isSome = true) ↔
            (q = tempName p ∧ (new p).isSome = true) ∨ ∃ x ∈ r, q = tempName x ∧ (new x).isSome = true := by
          simp
        simp only [hqp, hqr, List.mem_cons, or_self, false_and, if_false]
        by_cases ha : ∃ x ∈ r, q = tempName x ∧ (new x).isSome = true
        · rw [if_pos ha, if_pos (by simpa using Or.inr ha)]
        · rw [if_neg ha]
          by_cases hb : q = tempName p ∧ (new p).isSome = true
          · rw [if_pos hb, if_pos (by simpa using Or.inl hb)]
          · rw [if_neg hb, if_neg (by
              intro hc
              rcases (by simpa using hc : _ ∨ _) with hc | hc
              · exact hb hc
              · exact ha (by simpa using hc))]

/-- C132. The program leaves alone all files when the header is missing or has a gap. -/
theorem c132_stops (d : TextDisk) (header : Str) (files : List Str) :
    (d header = none → scanMain d header files = (d, .error .notFound)) ∧
    ∀ text e, d header = some text → scanHeader text = .error e → scanMain d header files = (d, .error e) := by
  refine ⟨fun h => by rw [scanMain, h], fun text e h he => by simp only [scanMain, h, he]⟩

/-- What is to become of one file: `new` is its text afterwards. -/
def Rewritten (fields : RFields) (d : TextDisk) (p new : Str) : Prop :=
  ∃ text segs out b ns, d p = some text ∧ (∀ s ∈ segs, s.Ok) ∧ IsFile (segLines segs) ∧
    newlines text = segText segs ∧ Outcome fields none segs out b ns ∧ new = if b then segText out else text

/-- C132. If the header has no gap and the files' markers are well placed, then in each file the block called
`BlendMethod`, wherever there is one, gets those lines, everything else in it stays, and so do all other
files. -/
theorem c132_program (d : TextDisk) (header text : Str) (files names : List Str) (new : Str → Str)
    (hh : d header = some text) (hs : scanHeader text = .ok names) (hnd : files.Nodup)
    (htemp : ∀ p ∈ files, tempName p ∉ files)
    (hfiles : ∀ p ∈ files, Rewritten (blendFields names) d p (new p)) :
    ∃ d', scanMain d header files = (d', .ok ()) ∧ (∀ p ∈ files, d' p = some (new p)) ∧
      ∀ q, q ∉ files → (∀ p ∈ files, q ≠ tempName p) → d' q = d q := by
  have hf : blendFields names ≠ [] := by simp [blendFields]
  have hex : ∀ p ∈ files, ∃ n : Option Str, ∃ text, d p = some text ∧
      (∀ seen, (handleText (blendFields names) seen text).2 = .ok n) ∧ new p = n.getD text := by
    intro p hp
    obtain ⟨t, segs, out, b, ns, h1, h2, h3, h4, h5, h6⟩ := hfiles p hp
    refine ⟨if b then some (segText out) else none, t, h1, fun seen => ?_, ?_⟩
    · rw [c63_only_named_blocks_change (blendFields names) hf seen t segs out b ns h2 h3 h4 h5]
    · rw [h6]; cases b <;> rfl
  classical
  let g : Str → Option Str := fun p => if h : p ∈ files then (hex p h).choose else none
  have hg : ∀ p ∈ files, ∃ text, d p = some text ∧
      (∀ seen, (handleText (blendFields names) seen text).2 = .ok (g p)) ∧ new p = (g p).getD text := by
    intro p hp
    have := (hex p hp).choose_spec
    simpa only [g, hp, dif_pos] using this
  obtain ⟨seen', d', e, hd'⟩ := handleFiles_each hf (new := g) files hnd htemp d []
    fun p hp => by obtain ⟨t, h1, h2, -⟩ := hg p hp; exact ⟨t, h1, h2⟩
  refine ⟨d', by simp only [scanMain, hh, hs, e], ?_, ?_⟩
  · intro p hp
    obtain ⟨t, h1, h2, h3⟩ := hg p hp
    rw [hd', h3]
    by_cases hgp : (g p).isSome
    · rw [if_pos ⟨hp, hgp⟩]
      obtain ⟨s, hs⟩ := Option.isSome_iff_exists.1 hgp
      rw [hs]; rfl
    · rw [if_neg (fun hh => hgp hh.2), if_neg, h1]
      · have : g p = none := by simpa using hgp
        rw [this]; rfl
      · rintro ⟨x, hx, rfl, -⟩; exact htemp x hx hp
  · intro q hq hqt
    rw [hd', if_neg (fun hh => hq hh.1), if_neg]
    rintro ⟨x, hx, he, -⟩; exact hqt x hx he

/-- The same but for the names seen. -/
def SameButSeen (a b : RState) : Prop := { a with seen := [] } = { b with seen := [] }

theorem replaceLine_seen (fields : RFields) {a b : RState} (h : SameButSeen a b) (l : Str) :
    SameButSeen (replaceLine fields a l).1 (replaceLine fields b l).1 ∧
      (replaceLine fields a l).2 = (replaceLine fields b l).2 := by
  obtain ⟨a1, a2, a3, a4, a5, a6, a7⟩ := a
  obtain ⟨b1, b2, b3, b4, b5, b6, b7⟩ := b
  simp only [SameButSeen, RState.mk.injEq, and_true] at h
  obtain ⟨rfl, rfl, rfl, rfl, rfl, rfl⟩ := h
  have enter : ∀ (line : Str) (i : ℕ) (n : Str) (la : Option Str), SameButSeen
      (enterBlock fields line i n la ⟨a1, a2, a3, a4, a5, a6, a7⟩)
      (enterBlock fields line i n la ⟨a1, a2, a3, a4, a5, a6, b7⟩) := by
    intro line i n la
    rw [enterBlock, enterBlock]
    cases fields.lookup n <;> rfl
  rw [replaceLine, replaceLine]
  dsimp only
  cases hm : startMark l with
  | some p =>
    obtain ⟨i, n⟩ := p
    cases n with
    | nil =>
      cases className l with
      | some c => exact ⟨enter _ _ _ _, rfl⟩
      | none =>
        cases a2 with
        | none => exact ⟨rfl, rfl⟩
        | some c => exact ⟨enter _ _ _ _, rfl⟩
    | cons c n => exact ⟨enter _ _ _ _, rfl⟩
  | none =>
    dsimp only
    split
    · cases a3 <;> exact ⟨rfl, rfl⟩
    · split <;> exact ⟨rfl, rfl⟩

theorem replaceLines_seen (fields : RFields) (ls : List Str) : ∀ {a b : RState}, SameButSeen a b →
    SameButSeen (replaceLines fields a ls).1 (replaceLines fields b ls).1 ∧
      (replaceLines fields a ls).2 = (replaceLines fields b ls).2 := by
  induction ls with
  | nil => exact fun h => ⟨h, rfl⟩
  | cons l ls ih =>
    intro a b h
    obtain ⟨h1, h2⟩ := replaceLine_seen fields h l
    rw [replaceLines, replaceLines]
    generalize replaceLine fields a l = x at h1 h2
    generalize replaceLine fields b l = y at h1 h2
    obtain ⟨x1, x2⟩ := x
    obtain ⟨y1, y2⟩ := y
    dsimp only at h1 h2
    subst h2
    cases x2 with
    | error e => exact ⟨h1, rfl⟩
    | ok u => exact ih h1

/-- What is done to a text doesn't depend on what has been seen before. -/
theorem handleText_seen (fields : RFields) (seen seen' : List Str) (text : Str) :
    (handleText fields seen text).2 = (handleText fields seen' text).2 := by
  rw [handleText, handleText]
  split
  · rfl
  · obtain ⟨h1, h2⟩ := replaceLines_seen fields (fileLines [] (newlines text))
      (a := RState.start seen) (b := RState.start seen') rfl
    generalize replaceLines fields (RState.start seen) (fileLines [] (newlines text)) = x at h1 h2
    generalize replaceLines fields (RState.start seen') (fileLines [] (newlines text)) = y at h1 h2
    obtain ⟨⟨a1, a2, a3, a4, a5, a6, a7⟩, x2⟩ := x
    obtain ⟨⟨b1, b2, b3, b4, b5, b6, b7⟩, y2⟩ := y
    simp only [SameButSeen, RState.mk.injEq, and_true] at h1
    obtain ⟨rfl, rfl, rfl, rfl, rfl, rfl⟩ := h1
    dsimp only at h2
    subst h2
    cases x2 with
    | error e => rfl
    | ok u =>
      dsimp only
      split <;> rfl

theorem blendFields_markerless {names : List Str}
    (hn : ∀ n ∈ names, ∀ c ∈ n, c ∈ "ABCDEFGHIJKLMNOPQRSTUVWXYZ_".toList) :
    ∀ n v, (blendFields names).lookup n = some v → Markerless v := by
  intro n v hv
  have hv' : v = '\n' :: blendLines 0 names := by
    simp only [blendFields, List.lookup] at hv
    split at hv
    · simpa using hv.symm
    · cases hv
  have chars : ∀ (l : List Str) (k : ℕ), (∀ n ∈ l, ∀ c ∈ n, c ∈ "ABCDEFGHIJKLMNOPQRSTUVWXYZ_".toList) →
      ∀ c ∈ blendLines k l, c ∈ "ABCDEFGHIJKLMNOPQRSTUVWXYZ_ =\n0123456789".toList := by
    intro l
    induction l with
    | nil => intro k _ c hc; simp [blendLines] at hc
    | cons w l ih =>
      intro k hl c hc
      simp only [blendLines, List.mem_append, List.mem_cons] at hc
      rcases hc with hc | hc | hc | rfl | hc
      · have := hl w (by simp) c hc
        have sub : ∀ c ∈ "ABCDEFGHIJKLMNOPQRSTUVWXYZ_".toList,
            c ∈ "ABCDEFGHIJKLMNOPQRSTUVWXYZ_ =\n0123456789".toList := by decide +kernel
        exact sub c this
      · have sub : ∀ c ∈ " = ".toList, c ∈ "ABCDEFGHIJKLMNOPQRSTUVWXYZ_ =\n0123456789".toList := by
          decide +kernel
        exact sub c hc
      · have := isDig_mem (natStr_digits k c hc)
        have sub : ∀ c ∈ "0123456789".toList,
            c ∈ "ABCDEFGHIJKLMNOPQRSTUVWXYZ_ =\n0123456789".toList := by decide +kernel
        exact sub c this
      · decide +kernel
      · exact ih (k + 1) (fun x hx => hl x (by simp [hx])) c hc
  have hall : ∀ c ∈ v, c ∈ "ABCDEFGHIJKLMNOPQRSTUVWXYZ_ =\n0123456789".toList := by
    intro c hc
    rw [hv'] at hc
    rcases List.mem_cons.1 hc with rfl | hc
    · decide +kernel
    · exact chars names 0 hn c hc
  refine ⟨fun h => absurd (hall _ h) (by decide +kernel), ?_⟩
  rintro ws ⟨-, -, hj⟩ w hw
  have inJoin : ∀ (l : List Str), w ∈ l → ∀ c ∈ w, c ∈ join ['\n'] l := by
    intro l
    induction l with
    | nil => intro h; simp at h
    | cons x l ih =>
      intro h c hc
      cases l with
      | nil =>
        rw [List.mem_singleton] at h
        subst h
        exact hc
      | cons y r =>
        rw [join_cons _ _ _ (by simp)]
        simp only [List.mem_append]
        rcases List.mem_cons.1 h with rfl | h
        · exact Or.inl (Or.inl hc)
        · exact Or.inr (ih h c hc)
  have hwc : ∀ c ∈ w, c ∈ "ABCDEFGHIJKLMNOPQRSTUVWXYZ_ =\n0123456789".toList := fun c hc =>
    hall c (hj ▸ inJoin ws hw c hc)
  have hash : '#' ∉ w := fun h => absurd (hwc _ h) (by decide +kernel)
  have cee : 'c' ∉ w := fun h => absurd (hwc _ h) (by decide +kernel)
  refine ⟨⟨?_, ?_⟩, ?_⟩
  · rintro ⟨k, name, gap, rest, rfl, -⟩
    exact hash (by simp)
  · rintro ⟨rest, k, rfl⟩
    exact hash (by simp)
  · rintro c ⟨rest, rfl, -⟩
    exact cee (by simp)

/-- C132. Running it again changes nothing, if the header isn't one of the files. -/
theorem c132_twice (d : TextDisk) (header text : Str) (ls files names : List Str)
    (hh : d header = some text) (hfile : IsFile ls) (htext : newlines text = ls.flatten)
    (hs : AreBlends ls names) (hnd : files.Nodup) (htemp : ∀ p ∈ files, tempName p ∉ files)
    (hhead : header ∉ files) (hhead' : ∀ p ∈ files, header ≠ tempName p)
    (hfiles : ∀ p ∈ files, ∃ text segs out b ns, d p = some text ∧ (∀ s ∈ segs, s.Ok) ∧
      IsFile (segLines segs) ∧ newlines text = segText segs ∧
      Outcome (blendFields names) none segs out b ns ∧
      ∀ a body z, Seg.block a body z ∈ segs → ∀ l ∈ body, ∀ c, ¬ NamesClass l c) :
    ∃ d', scanMain d header files = (d', .ok ()) ∧ scanMain d' header files = (d', .ok ()) := by
  have hf : blendFields names ≠ [] := by simp [blendFields]
  have hok := (c132_names text ls hfile htext names).2 hs
  have hml := blendFields_markerless (areBlends_plain hs)
  -- what happens to each file, the first time and the second
  have hex : ∀ p ∈ files, ∃ n n' : Option Str, ∃ t, d p = some t ∧
      (∀ seen, (handleText (blendFields names) seen t).2 = .ok n) ∧
      (∀ seen, (handleText (blendFields names) seen (n.getD t)).2 = .ok n') ∧
      ∀ s, n' = some s → n = some s := by
    intro p hp
    obtain ⟨t, segs, out, b, ns, h1, h2, h3, h4, h5, h6⟩ := hfiles p hp
    have e : ∀ seen, (handleText (blendFields names) seen t).2 = .ok (if b then some (segText out) else none) :=
      fun seen => by
        rw [c63_only_named_blocks_change (blendFields names) hf seen t segs out b ns h2 h3 h4 h5]
    cases b with
    | false => exact ⟨none, none, t, h1, e, e, by simp⟩
    | true =>
      have hfin := (c64_final (blendFields names) hf [] d p t h1).1 (segText out) (e [])
      have h62 := c62_idempotent_partial (blendFields names) hml [] [] d p t h1 segs h2 h3 h4 h6 hfin.1
      have hfile1 : handleFile (blendFields names) [] d p =
          ((handleText (blendFields names) [] t).1, writeTo d p (segText out), .ok ()) := by
        have := e []
        rw [handleFile, if_neg hf]
        simp only [h1]
        generalize handleText (blendFields names) [] t = x at this
        obtain ⟨x1, x2⟩ := x
        dsimp only at this
        subst this
        rfl
      rw [hfile1] at h62
      dsimp only at h62
      have hw : writeTo d p (segText out) p = some (segText out) := by rw [writeTo_apply]; simp
      rw [handleFile, if_neg hf] at h62
      simp only [hw] at h62
      cases hx : handleText (blendFields names) [] (segText out) with
      | mk x1 x2 =>
        simp only [hx] at h62
        cases x2 with
        | error er => simp at h62
        | ok o =>
          refine ⟨some (segText out), o, t, h1, e, fun seen => ?_, ?_⟩
          · rw [handleText_seen _ seen []]
            change (handleText (blendFields names) [] (segText out)).2 = _
            rw [hx]
          · intro s hs
            subst hs
            simp only [Prod.mk.injEq, and_true] at h62
            have := congrFun h62 p
            rw [writeTo_apply, writeTo_apply] at this
            simpa using this.symm
  classical
  let g : Str → Option Str := fun p => if h : p ∈ files then (hex p h).choose else none
  let g' : Str → Option Str := fun p => if h : p ∈ files then (hex p h).choose_spec.choose else none
  have hg : ∀ p ∈ files, ∃ t, d p = some t ∧
      (∀ seen, (handleText (blendFields names) seen t).2 = .ok (g p)) ∧
      (∀ seen, (handleText (blendFields names) seen ((g p).getD t)).2 = .ok (g' p)) ∧
      ∀ s, g' p = some s → g p = some s := by
    intro p hp
    have := (hex p hp).choose_spec.choose_spec
    simpa only [g, g', hp, dif_pos] using this
  obtain ⟨seen', d', e, hd'⟩ := handleFiles_each hf (new := g) files hnd htemp d []
    fun p hp => by obtain ⟨t, h1, h2, -⟩ := hg p hp; exact ⟨t, h1, h2⟩
  have hat : ∀ p ∈ files, ∀ t, d p = some t → d' p = some ((g p).getD t) := by
    intro p hp t ht
    rw [hd']
    by_cases hgp : (g p).isSome
    · rw [if_pos ⟨hp, hgp⟩]
      obtain ⟨s, hs⟩ := Option.isSome_iff_exists.1 hgp
      rw [hs]; rfl
    · rw [if_neg (fun hh => hgp hh.2), if_neg, ht]
      · have : g p = none := by simpa using hgp
        rw [this]; rfl
      · rintro ⟨x, hx, rfl, -⟩; exact htemp x hx hp
  obtain ⟨seen2, d2, e2, hd2⟩ := handleFiles_each hf (new := g') files hnd htemp d' []
    fun p hp => by obtain ⟨t, h1, -, h3, -⟩ := hg p hp; exact ⟨_, hat p hp t h1, h3⟩
  have hsame : d2 = d' := by
    funext q
    rw [hd2]
    split
    · next hq =>
      obtain ⟨t, h1, h2, h3, h4⟩ := hg q hq.1
      obtain ⟨s, hs⟩ := Option.isSome_iff_exists.1 hq.2
      rw [hat q hq.1 t h1, h4 s hs, hs]; rfl
    · split
      · next hq =>
        obtain ⟨p, hp, rfl, hsm⟩ := hq
        obtain ⟨t, h1, h2, h3, h4⟩ := hg p hp
        obtain ⟨s, hs⟩ := Option.isSome_iff_exists.1 hsm
        rw [hd', if_neg (fun hh => htemp p hp hh.1), if_pos ⟨p, hp, rfl, by rw [h4 s hs]; rfl⟩]
      · rfl
  have hh' : d' header = some text := by
    rw [hd', if_neg (fun hq => hhead hq.1), if_neg, hh]
    rintro ⟨x, hx, he, -⟩; exact hhead' x hx he
  refine ⟨d', by simp only [scanMain, hh, hok, e], ?_⟩
  simp only [scanMain, hh', hok, e2, hsame]

/-! ### The example for C132 -/

/-- A header for the examples. -/
def exHeader : List Str :=
  ["enum BlendMethod {\n".toList, "\tBLEND_ONTO=1,\n".toList, "\tBLEND_COMPOSITE=0, // BLEND_X=7\n".toList,
   "\tBLEND_BY_LAYER=3,\n".toList, "\tBLEND_END=2\n".toList, "}".toList]

theorem exHeader_file : IsFile exHeader := by
  have e : fileLines [] exHeader.flatten = exHeader := by decide +kernel
  rw [← e]
  exact (isFile_fileLines [] exHeader.flatten (by simp)).1

theorem exHeader_blends : AreBlends exHeader ["COMPOSITE".toList, "ONTO".toList] :=
  (c132_names exHeader.flatten exHeader exHeader_file (newlines_id (by decide +kernel)) _).1 (by decide +kernel)

/-- A file with the class, for the examples. -/
def exEnum : List Seg :=
  [.line "class BlendMethod(Enum):\n".toList,
   .block "    ### {{{\n".toList ["    OLD = 0\n".toList] "    ### }}}\n".toList]

/-- What it should become. -/
def exEnumOut : List Seg :=
  [.line "class BlendMethod(Enum):\n".toList,
   .block "    ### {{{\n".toList ["\n".toList, "    COMPOSITE = 0\n".toList, "    ONTO = 1\n".toList, "\n".toList]
     "    ### }}}\n".toList]

theorem exEnum_ok : ∀ s ∈ exEnum, s.Ok := by
  intro s hs
  simp only [exEnum, List.mem_cons, List.not_mem_nil, or_false] at hs
  rcases hs with rfl | rfl
  · exact ordinary_of (by decide +kernel) (by decide +kernel)
  · refine ⟨⟨4, [], (startMark_iff _ _ _).1 (by decide +kernel)⟩, ?_, (endMark_iff _).1 (by decide +kernel)⟩
    intro l hl
    rw [List.mem_singleton] at hl
    subst hl
    exact ordinary_of (by decide +kernel) (by decide +kernel)

theorem exEnum_file : IsFile (segLines exEnum) := by
  have e : fileLines [] (segText exEnum) = segLines exEnum := by decide +kernel
  rw [← e]
  exact (isFile_fileLines [] (segText exEnum) (by simp)).1

theorem exEnum_outcome : Outcome (blendFields ["COMPOSITE".toList, "ONTO".toList]) none exEnum exEnumOut true
    ["BlendMethod".toList] := by
  have hl : ∀ cls l, className l = none → LastClass cls [l] cls := by
    intro cls l h
    rw [latestAfter_iff, latestAfter, List.foldl_cons, h]
    rfl
  refine .line (cls' := some "BlendMethod".toList) ?_ (.replaced (k := 4) (written := []) (cls1 := none)
    (cls2 := none) (rest := "\n".toList) (v := "\nCOMPOSITE = 0\nONTO = 1\n".toList)
    (ws := [[], "COMPOSITE = 0".toList, "ONTO = 1".toList, []]) ?_ (Or.inl ⟨rfl, rfl, rfl⟩) (by decide +kernel)
    ?_ ⟨4, by decide +kernel⟩ (hl _ _ (by decide +kernel)) .nil)
  · rw [latestAfter_iff]; decide +kernel
  · exact (startMark_iff _ _ _).1 (by decide +kernel)
  · exact ⟨by decide, by decide +kernel, by decide +kernel⟩

/-- C132 applies to the example: the class gets the blend methods of the header, and running the program again
changes nothing. -/
example : let d : TextDisk := fun q => if q = "color.h".toList then some exHeader.flatten
      else if q = "blend.py".toList then some (segText exEnum) else none
    (∃ d', scanMain d "color.h".toList ["blend.py".toList] = (d', .ok ()) ∧
      d' "blend.py".toList = some (segText exEnumOut)) ∧
    ∃ d', scanMain d "color.h".toList ["blend.py".toList] = (d', .ok ()) ∧
      scanMain d' "color.h".toList ["blend.py".toList] = (d', .ok ()) := by
  intro d
  have h1 : d "color.h".toList = some exHeader.flatten := if_pos rfl
  have h2 : d "blend.py".toList = some (segText exEnum) := (if_neg (by decide)).trans (if_pos rfl)
  clear_value d
  constructor
  · obtain ⟨d', e, h, -⟩ := c132_program d "color.h".toList exHeader.flatten ["blend.py".toList]
      ["COMPOSITE".toList, "ONTO".toList] (fun _ => segText exEnumOut) h1 (by decide +kernel) (by simp)
      (by decide) (by
        intro p hp
        rw [List.mem_singleton] at hp
        subst hp
        exact ⟨_, exEnum, exEnumOut, true, _, h2, exEnum_ok, exEnum_file, newlines_id (by decide +kernel),
          exEnum_outcome, rfl⟩)
    exact ⟨d', e, h _ (by simp)⟩
  · refine c132_twice d "color.h".toList exHeader.flatten exHeader ["blend.py".toList]
      ["COMPOSITE".toList, "ONTO".toList] h1 exHeader_file (newlines_id (by decide +kernel)) exHeader_blends
      (by simp) (by decide) (by decide) (by decide) ?_
    intro p hp
    rw [List.mem_singleton] at hp
    subst hp
    refine ⟨_, exEnum, exEnumOut, true, _, h2, exEnum_ok, exEnum_file, newlines_id (by decide +kernel),
      exEnum_outcome, ?_⟩
    intro a body z h l hl
    simp only [exEnum, List.mem_cons, List.not_mem_nil, or_false, reduceCtorEq, false_or,
      Seg.block.injEq] at h
    obtain ⟨-, rfl, -⟩ := h
    rw [List.mem_singleton] at hl
    subst hl
    exact noClass_of (by decide +kernel)

/-- C132: a header with a gap. -/
example : scanHeader "BLEND_COMPOSITE=0\nBLEND_ONTO=2\n".toList = .error .assertion := by decide +kernel

/-! ## C133: the symbols of layers -/

theorem symLines_append (a b : List Str) : ∀ st, symLines st (a ++ b) =
    match symLines st a with
    | .error e => .error e
    | .ok st => symLines st b := by
  induction a with
  | nil => intro st; rfl
  | cons l a ih =>
    intro st
    rw [List.cons_append, symLines, symLines]
    cases symLine st l with
    | error e => rfl
    | ok s => exact ih s

theorem definesLayer_iff (l n : Str) : DefinesLayer l n ↔ classIn l = some (n, "Layer".toList) :=
  definesClass_iff l n _

theorem definesLayer_unique {l n m : Str} (h : DefinesLayer l n) (h' : DefinesLayer l m) : n = m := by
  rw [definesLayer_iff] at h h'
  rw [h] at h'
  simpa using h'

/-- The line that begins a class. -/
theorem symLine_layer {l n : Str} (h : DefinesLayer l n) (st : SymState) : symLine st l =
    if n ∈ st.results.map Prod.fst then .error .assertion
    else .ok (takeSymbol ⟨st.results ++ [(n, none)], some n⟩ l) := by
  rw [definesLayer_iff] at h
  rw [symLine, h]
  simp only [ne_eq, not_true_eq_false, if_false, List.contains_iff_mem]

/-- Any other line. -/
theorem symLine_other {l : Str} (h : ∀ n, ¬ DefinesLayer l n) (st : SymState) : symLine st l = .ok
    (match st.current with
    | none => st
    | some n => match (if (classIn l).isSome then none else symbolIn l) with
      | none => st
      | some s => { st with results := putSymbol n s st.results }) := by
  rw [symLine]
  cases hc : classIn l with
  | none =>
    simp only [Option.isSome_none, Bool.false_eq_true, if_false, takeSymbol]
    cases st.current with
    | none => rfl
    | some n => cases symbolIn l <;> rfl
  | some p =>
    obtain ⟨m, super⟩ := p
    have : super ≠ "Layer".toList := by
      rintro rfl
      exact h m ((definesLayer_iff l m).2 hc)
    simp only [Option.isSome_some, if_true]
    rw [if_pos this]
    cases st.current <;> rfl

theorem setsSymbol_other {l s : Str} (h : ∀ n, ¬ DefinesLayer l n) : SetsSymbol l s ↔
    (if (classIn l).isSome then none else symbolIn l) = some s := by
  rw [setsSymbol_iff]
  cases hc : classIn l with
  | none => simp
  | some p =>
    obtain ⟨m, super⟩ := p
    have : super ≠ "Layer".toList := by
      rintro rfl
      exact h m ((definesLayer_iff l m).2 hc)
    simp only [Option.isSome_some, if_true, Option.some.injEq, Prod.mk.injEq, reduceCtorEq, iff_false, not_and]
    exact fun _ hh => this (hh m super ⟨rfl, rfl⟩)

theorem setsSymbol_layer {l n s : Str} (h : DefinesLayer l n) : SetsSymbol l s ↔ symbolIn l = some s := by
  rw [setsSymbol_iff]
  rw [definesLayer_iff] at h
  simp [h]

/-- The entry of a class changed to the symbol, if there is any. -/
def withSymbol (n : Str) (s : Option Str) (l : List (Str × Option Str)) : List (Str × Option Str) :=
  match s with
  | none => l
  | some t => putSymbol n t l

theorem withSymbol_keys (n : Str) (s : Option Str) (l : List (Str × Option Str)) :
    (withSymbol n s l).map Prod.fst = l.map Prod.fst := by
  cases s with
  | none => rfl
  | some t =>
    rw [withSymbol, putSymbol, List.map_map]
    refine List.map_congr_left fun p _ => ?_
    simp only [Function.comp_apply]
    split
    · next h => exact h.symm
    · rfl

theorem withSymbol_other {n m : Str} (s : Option Str) {x : Option Str} {l : List (Str × Option Str)}
    (h : m ≠ n) (hm : (m, x) ∈ l) : (m, x) ∈ withSymbol n s l := by
  cases s with
  | none => exact hm
  | some t => exact List.mem_map.2 ⟨_, hm, by simp [h]⟩

theorem withSymbol_twice (n : Str) (s t : Str) (l : List (Str × Option Str)) :
    putSymbol n s (putSymbol n t l) = putSymbol n s l := by
  rw [putSymbol, putSymbol, List.map_map]
  refine List.map_congr_left fun p _ => ?_
  simp only [Function.comp_apply]
  split <;> simp_all

theorem lastSymbol_snoc {ls : List Str} {l : Str} {s : Option Str} (h : LastSymbol ls s) :
    (∀ t, SetsSymbol l t → LastSymbol (ls ++ [l]) (some t)) ∧
      ((∀ t, ¬ SetsSymbol l t) → LastSymbol (ls ++ [l]) s) := by
  constructor
  · intro t ht
    exact Or.inl ⟨ls, l, [], t, rfl, ht, by simp, rfl⟩
  · intro hl
    rcases h with ⟨pre, m, post, t, rfl, h1, h2, h3⟩ | ⟨h1, h2⟩
    · refine Or.inl ⟨pre, m, post ++ [l], t, by simp, h1, ?_, h3⟩
      intro x hx
      rcases List.mem_append.1 hx with hx | hx
      · exact h2 x hx
      · rw [List.mem_singleton] at hx
        subst hx
        exact hl
    · refine Or.inr ⟨?_, h2⟩
      intro x hx
      rcases List.mem_append.1 hx with hx | hx
      · exact h1 x hx
      · rw [List.mem_singleton] at hx
        subst hx
        exact hl

theorem lastSymbol_unique {ls : List Str} {s t : Option Str} (hs : LastSymbol ls s) (ht : LastSymbol ls t) :
    s = t := by
  induction ls using List.reverseRecOn generalizing s t with
  | nil =>
    rcases hs with ⟨pre, l, post, x, h, -⟩ | ⟨-, rfl⟩
    · simp at h
    · rcases ht with ⟨pre, l, post, x, h, -⟩ | ⟨-, rfl⟩
      · simp at h
      · rfl
  | append_singleton ls l ih =>
    have split : ∀ {s}, LastSymbol (ls ++ [l]) s →
        (∃ t, SetsSymbol l t ∧ s = some t) ∨ (∀ t, ¬ SetsSymbol l t) ∧ LastSymbol ls s := by
      intro s h
      rcases h with ⟨pre, m, post, t, he, h1, h2, h3⟩ | ⟨h1, h2⟩
      · rcases List.eq_nil_or_concat post with rfl | ⟨post', y, rfl⟩
        · obtain ⟨-, he2⟩ := List.append_inj' he rfl
          simp only [List.cons.injEq, and_true] at he2
          subst he2
          exact Or.inl ⟨t, h1, h3⟩
        · have : ls ++ [l] = (pre ++ m :: post') ++ [y] := by rw [he]; simp
          obtain ⟨he1, he2⟩ := List.append_inj' this rfl
          simp only [List.cons.injEq, and_true] at he2
          subst he2
          exact Or.inr ⟨h2 l (by simp), Or.inl ⟨pre, m, post', t, he1, h1,
            fun x hx => h2 x (by simp [hx]), h3⟩⟩
      · exact Or.inr ⟨h1 l (by simp), Or.inr ⟨fun x hx => h1 x (by simp [hx]), h2⟩⟩
    rcases split hs with ⟨x, hx, rfl⟩ | ⟨hx, hs⟩
    · rcases split ht with ⟨y, hy, rfl⟩ | ⟨hy, ht⟩
      · rw [setsSymbol_iff] at hx hy
        rw [← hx.1, ← hy.1]
      · exact absurd hx (hy x)
    · rcases split ht with ⟨y, hy, rfl⟩ | ⟨hy, ht⟩
      · exact absurd hy (hx y)
      · exact ih hs ht

/-- Lines that begin no class of layer. -/
theorem symLines_body (st0 : SymState) (n : Str) (b0 : List Str) (s0 : Option Str) (hb0 : LastSymbol b0 s0)
    (ls : List Str) (h : ∀ l ∈ ls, ∀ n, ¬ DefinesLayer l n) :
    ∃ s, LastSymbol (b0 ++ ls) s ∧ ∀ R, st0 = ⟨withSymbol n s0 R, some n⟩ →
      symLines st0 ls = .ok ⟨withSymbol n s R, some n⟩ := by
  induction ls using List.reverseRecOn with
  | nil => exact ⟨s0, by simpa using hb0, fun R hR => by rw [hR]; rfl⟩
  | append_singleton ls l ih =>
    obtain ⟨s, h1, h2⟩ := ih fun m hm => h m (by simp [hm])
    have hl := h l (by simp)
    rw [← List.append_assoc]
    cases hx : (if (classIn l).isSome then none else symbolIn l) with
    | none =>
      refine ⟨s, (lastSymbol_snoc h1).2 fun t ht => ?_, fun R hR => ?_⟩
      · rw [setsSymbol_other hl, hx] at ht; cases ht
      · rw [symLines_append, h2 R hR]
        simp only [symLines, symLine_other hl, hx]
    | some t =>
      refine ⟨some t, (lastSymbol_snoc h1).1 t ((setsSymbol_other hl).2 hx), fun R hR => ?_⟩
      rw [symLines_append, h2 R hR]
      simp only [symLines, symLine_other hl, hx]
      cases s with
      | none => rfl
      | some u => simp only [withSymbol, withSymbol_twice]

/-- A class and the lines up to the next. -/
theorem symLines_class {l n : Str} (hl : DefinesLayer l n) (mid : List Str)
    (hmid : ∀ m ∈ mid, ∀ k, ¬ DefinesLayer m k) (st : SymState) (hn : n ∉ st.results.map Prod.fst) :
    ∃ s, LastSymbol (l :: mid) s ∧ symLines st (l :: mid) = .ok ⟨st.results ++ [(n, s)], some n⟩ := by
  have fresh : ∀ s, withSymbol n s (st.results ++ [(n, none)]) = st.results ++ [(n, s)] := by
    intro s
    cases s with
    | none => rfl
    | some t =>
      rw [withSymbol, putSymbol, List.map_append]
      congr 1
      · conv_rhs => rw [← List.map_id st.results]
        refine List.map_congr_left fun p hp => ?_
        rw [if_neg (fun he => hn (List.mem_map.2 ⟨p, hp, he⟩))]
        rfl
      · simp
  obtain ⟨s0, h0, e0⟩ : ∃ s0, LastSymbol [l] s0 ∧ takeSymbol ⟨st.results ++ [(n, none)], some n⟩ l =
      ⟨withSymbol n s0 (st.results ++ [(n, none)]), some n⟩ := by
    rw [takeSymbol]
    cases hs : symbolIn l with
    | none =>
      refine ⟨none, Or.inr ⟨?_, rfl⟩, rfl⟩
      intro m hm u hu
      rw [List.mem_singleton] at hm
      subst hm
      rw [setsSymbol_layer hl, hs] at hu
      cases hu
    | some t => exact ⟨some t, Or.inl ⟨[], l, [], t, rfl, (setsSymbol_layer hl).2 hs, by simp, rfl⟩, rfl⟩
  obtain ⟨s, h1, h2⟩ := symLines_body _ n [l] s0 h0 mid hmid
  refine ⟨s, h1, ?_⟩
  rw [symLines, symLine_layer hl, if_neg hn]
  dsimp only
  rw [h2 _ e0, fresh]

/-- Once another class is current, an entry stays. -/
theorem symLines_keep {n : Str} {s : Option Str} (ls : List Str) : ∀ {st st' : SymState},
    (n, s) ∈ st.results → st.current ≠ some n → symLines st ls = .ok st' → (n, s) ∈ st'.results := by
  induction ls with
  | nil => intro st st' h _ e; cases e; exact h
  | cons l ls ih =>
    intro st st' h hc e
    rw [symLines] at e
    by_cases hl : ∃ m, DefinesLayer l m
    · obtain ⟨m, hm⟩ := hl
      rw [symLine_layer hm] at e
      split at e
      · cases e
      · next hx =>
        split at hx
        · cases hx
        · next hnm =>
          cases hx
          have hne : n ≠ m := fun he => hnm (List.mem_map.2 ⟨_, h, he⟩)
          refine ih ?_ ?_ e
          · rw [takeSymbol]
            cases symbolIn l with
            | none => simp [h]
            | some t => exact withSymbol_other (some t) hne (by simp [h])
          · rw [takeSymbol]
            cases symbolIn l <;> simpa using fun he => hne he.symm
    · push Not at hl
      rw [symLine_other hl] at e
      dsimp only at e
      refine ih ?_ ?_ e
      · split
        · exact h
        · next m hm =>
          split
          · exact h
          · next t _ =>
            exact withSymbol_other (some t) (fun he => hc (by rw [hm, he])) h
      · split
        · exact hc
        · split
          · exact hc
          · exact hc

/-- The classes found so far, and when a class is found twice. -/
theorem symLines_names (ls : List Str) : ∀ st : SymState, (st.results.map Prod.fst).Nodup →
    (∀ e, symLines st ls = .error e → e = .assertion ∧
      ∃ pre m post n, ls = pre ++ m :: post ∧ DefinesLayer m n ∧
        (n ∈ st.results.map Prod.fst ∨ ∃ l ∈ pre, DefinesLayer l n)) ∧
    ∀ st', symLines st ls = .ok st' → (st'.results.map Prod.fst).Nodup ∧
      (∀ n, n ∈ st'.results.map Prod.fst ↔ n ∈ st.results.map Prod.fst ∨ ∃ l ∈ ls, DefinesLayer l n) ∧
      ∀ pre m post n, ls = pre ++ m :: post → DefinesLayer m n →
        n ∉ st.results.map Prod.fst ∧ ∀ l ∈ pre, ¬ DefinesLayer l n := by
  induction ls with
  | nil =>
    intro st hst
    refine ⟨fun e h => (by cases h), fun st' h => ?_⟩
    rw [symLines] at h
    injection h with h
    subst h
    exact ⟨hst, by simp, by simp⟩
  | cons l ls ih =>
    intro st hst
    by_cases hl : ∃ m, DefinesLayer l m
    · obtain ⟨m, hm⟩ := hl
      by_cases hin : m ∈ st.results.map Prod.fst
      · have e : symLines st (l :: ls) = .error .assertion := by
          rw [symLines, symLine_layer hm, if_pos hin]
        rw [e]
        refine ⟨fun e h => ?_, fun st' h => by cases h⟩
        cases h
        exact ⟨rfl, [], l, ls, m, rfl, hm, Or.inl hin⟩
      · have e : symLines st (l :: ls) = symLines (takeSymbol ⟨st.results ++ [(m, none)], some m⟩ l) ls := by
          rw [symLines, symLine_layer hm, if_neg hin]
        have hk : (takeSymbol ⟨st.results ++ [(m, none)], some m⟩ l).results.map Prod.fst =
            st.results.map Prod.fst ++ [m] := by
          rw [takeSymbol]
          cases symbolIn l with
          | none => simp
          | some t =>
            have := withSymbol_keys m (some t) (st.results ++ [(m, none)])
            simpa [withSymbol] using this
        obtain ⟨h1, h2⟩ := ih (takeSymbol ⟨st.results ++ [(m, none)], some m⟩ l) (by
          rw [hk, List.nodup_append]
          exact ⟨hst, by simp, by
            intro a ha b hb
            rw [List.mem_singleton] at hb
            subst hb
            exact fun he => hin (he ▸ ha)⟩)
        rw [e]
        constructor
        · intro er he
          obtain ⟨h3, pre, x, post, n, rfl, hx, hn⟩ := h1 er he
          refine ⟨h3, l :: pre, x, post, n, rfl, hx, ?_⟩
          rw [hk] at hn
          rw [List.mem_append, List.mem_singleton] at hn
          rcases hn with (hn | rfl) | ⟨y, hy, hyn⟩
          · exact Or.inl hn
          · exact Or.inr ⟨l, by simp, hm⟩
          · exact Or.inr ⟨y, by simp [hy], hyn⟩
        · intro st' he
          obtain ⟨h3, h4, h5⟩ := h2 st' he
          refine ⟨h3, fun n => ?_, ?_⟩
          · rw [h4, hk]
            rw [List.mem_append, List.mem_singleton]
            simp only [List.mem_cons]
            constructor
            · rintro ((hn | rfl) | ⟨y, hy, hyn⟩)
              · exact Or.inl hn
              · exact Or.inr ⟨l, Or.inl rfl, hm⟩
              · exact Or.inr ⟨y, Or.inr hy, hyn⟩
            · rintro (hn | ⟨y, rfl | hy, hyn⟩)
              · exact Or.inl (Or.inl hn)
              · exact Or.inl (Or.inr (definesLayer_unique hyn hm))
              · exact Or.inr ⟨y, hy, hyn⟩
          · intro pre x post n he2 hx
            cases pre with
            | nil =>
              simp only [List.nil_append, List.cons.injEq] at he2
              obtain ⟨rfl, rfl⟩ := he2
              obtain rfl := definesLayer_unique hx hm
              exact ⟨hin, by simp⟩
            | cons y pre =>
              simp only [List.cons_append, List.cons.injEq] at he2
              obtain ⟨rfl, rfl⟩ := he2
              obtain ⟨h6, h7⟩ := h5 pre x post n rfl hx
              rw [hk] at h6
              simp only [List.mem_append, List.mem_singleton, not_or] at h6
              refine ⟨h6.1, fun z hz => ?_⟩
              rcases List.mem_cons.1 hz with rfl | hz
              · exact fun hzn => h6.2 (definesLayer_unique hzn hm)
              · exact h7 z hz
    · push Not at hl
      have e : ∃ st1, symLines st (l :: ls) = symLines st1 ls ∧
          st1.results.map Prod.fst = st.results.map Prod.fst := by
        rw [symLines, symLine_other hl]
        refine ⟨_, rfl, ?_⟩
        split
        · rfl
        · split
          · rfl
          · next t _ => exact withSymbol_keys _ (some t) st.results
      obtain ⟨st1, e, hk⟩ := e
      obtain ⟨h1, h2⟩ := ih st1 (by rw [hk]; exact hst)
      rw [e]
      constructor
      · intro er he
        obtain ⟨h3, pre, x, post, n, rfl, hx, hn⟩ := h1 er he
        refine ⟨h3, l :: pre, x, post, n, rfl, hx, ?_⟩
        rw [hk] at hn
        rcases hn with hn | ⟨y, hy, hyn⟩
        · exact Or.inl hn
        · exact Or.inr ⟨y, by simp [hy], hyn⟩
      · intro st' he
        obtain ⟨h3, h4, h5⟩ := h2 st' he
        refine ⟨h3, fun n => ?_, ?_⟩
        · rw [h4, hk]
          simp [hl]
        · intro pre x post n he2 hx
          cases pre with
          | nil =>
            simp only [List.nil_append, List.cons.injEq] at he2
            obtain ⟨rfl, rfl⟩ := he2
            exact absurd hx (hl n)
          | cons y pre =>
            simp only [List.cons_append, List.cons.injEq] at he2
            obtain ⟨rfl, rfl⟩ := he2
            obtain ⟨h6, h7⟩ := h5 pre x post n rfl hx
            rw [hk] at h6
            refine ⟨h6, fun z hz => ?_⟩
            rcases List.mem_cons.1 hz with rfl | hz
            · exact hl n
            · exact h7 z hz

/-- `files` are the lines of these texts. -/
abbrev AreFiles (texts : List Str) (files : List (List Str)) : Prop :=
  List.Forall₂ (fun t ls => IsFile ls ∧ newlines t = ls.flatten) texts files

theorem areFiles_lines {texts : List Str} {files : List (List Str)} (h : AreFiles texts files) :
    (texts.flatMap fun t => fileLines [] (newlines t)) = files.flatten := by
  induction h with
  | nil => rfl
  | @cons t ls ts fs h1 _ ih =>
    rw [List.flatMap_cons, List.flatten_cons, ih, h1.2, fileLines_flatten _ h1.1]

/-- C133. The classes listed are exactly the ones derived directly from `Layer`, each once. -/
theorem c133_names (texts : List Str) (files : List (List Str)) (hf : AreFiles texts files)
    (r : List (Str × Option Str)) (h : getSymbols texts = .ok r) :
    (r.map Prod.fst).Nodup ∧ ∀ n, n ∈ r.map Prod.fst ↔ ∃ ls ∈ files, ∃ l ∈ ls, DefinesLayer l n := by
  rw [getSymbols, areFiles_lines hf] at h
  have := symLines_names files.flatten ⟨[], none⟩ (by simp)
  cases hs : symLines ⟨[], none⟩ files.flatten with
  | error e => simp [hs] at h
  | ok st =>
    simp only [hs, Except.ok.injEq] at h
    subst h
    obtain ⟨h1, h2, -⟩ := this.2 st hs
    refine ⟨h1, fun n => ?_⟩
    rw [h2]
    simp only [List.map_nil, List.not_mem_nil, false_or, List.mem_flatten]
    constructor
    · rintro ⟨l, ⟨ls, h3, h4⟩, h5⟩; exact ⟨ls, h3, l, h4, h5⟩
    · rintro ⟨ls, h3, l, h4, h5⟩; exact ⟨l, ⟨ls, h3, h4⟩, h5⟩

/-- C133. It fails only if two of these classes have the same name, and then it fails with an assertion. -/
theorem c133_fails_iff (texts : List Str) (files : List (List Str)) (hf : AreFiles texts files) :
    (∀ e, getSymbols texts = .error e → e = .assertion) ∧
    (getSymbols texts = .error .assertion ↔ ∃ pre l mid m post n,
      files.flatten = pre ++ l :: mid ++ m :: post ∧ DefinesLayer l n ∧ DefinesLayer m n) := by
  rw [getSymbols, areFiles_lines hf]
  have := symLines_names files.flatten ⟨[], none⟩ (by simp)
  cases hs : symLines ⟨[], none⟩ files.flatten with
  | error e =>
    obtain ⟨rfl, pre, m, post, n, h1, h2, h3⟩ := this.1 e hs
    refine ⟨fun e h => by simpa using h.symm, fun _ => ?_, fun _ => rfl⟩
    simp only [List.map_nil, List.not_mem_nil, false_or] at h3
    obtain ⟨l, hl, hln⟩ := h3
    obtain ⟨a, b, rfl⟩ := List.append_of_mem hl
    exact ⟨a, l, b, m, post, n, by rw [h1], hln, h2⟩
  | ok st =>
    refine ⟨fun e h => by simp at h, fun h => by simp at h, ?_⟩
    rintro ⟨pre, l, mid, m, post, n, h1, h2, h3⟩
    exact absurd h2 ((this.2 st hs).2.2 _ m post n h1 h3 |>.2 l (by simp))

/-- What the entry of a class is: the symbol set last before the next class of layer, in whichever file. -/
theorem c133_entry (texts : List Str) (files : List (List Str)) (hf : AreFiles texts files)
    (r : List (Str × Option Str)) (h : getSymbols texts = .ok r) (pre mid post : List Str) (l n : Str)
    (hlines : files.flatten = pre ++ (l :: mid) ++ post) (hl : DefinesLayer l n)
    (hmid : ∀ m ∈ mid, ∀ k, ¬ DefinesLayer m k) (hpost : ∀ m ∈ post.head?, ∃ k, DefinesLayer m k) (s : Option Str) :
    (n, s) ∈ r ↔ LastSymbol (l :: mid) s := by
  have hnd := (c133_names texts files hf r h).1
  rw [getSymbols, areFiles_lines hf, hlines] at h
  cases hs : symLines ⟨[], none⟩ (pre ++ (l :: mid) ++ post) with
  | error e => rw [hs] at h; cases h
  | ok st =>
    simp only [hs, Except.ok.injEq] at h
    subst h
    rw [symLines_append, symLines_append] at hs
    cases h1 : symLines ⟨[], none⟩ pre with
    | error e => simp [h1] at hs
    | ok st1 =>
      simp only [h1] at hs
      by_cases hn : n ∈ st1.results.map Prod.fst
      · rw [symLines, symLine_layer hl, if_pos hn] at hs
        cases hs
      · obtain ⟨t, h2, h3⟩ := symLines_class hl mid hmid st1 hn
        simp only [h3] at hs
        have hin : (n, t) ∈ st.results := by
          cases post with
          | nil => cases hs; simp
          | cons m post =>
            obtain ⟨k, hk⟩ := hpost m (by simp)
            rw [symLines, symLine_layer hk] at hs
            split at hs
            · cases hs
            · next hx =>
              split at hx
              · cases hx
              · next hnm =>
                cases hx
                have hne : n ≠ k := fun he => hnm (by simp [he])
                refine symLines_keep post ?_ ?_ hs
                · rw [takeSymbol]
                  cases symbolIn m with
                  | none => simp
                  | some t => exact withSymbol_other (some t) hne (by simp)
                · rw [takeSymbol]
                  cases symbolIn m <;> simpa using fun he => hne he.symm
        constructor
        · intro hs'
          have : s = t := by
            simpa using List.inj_on_of_nodup_map hnd hs' hin rfl
          rw [this]; exact h2
        · intro hs'
          rw [lastSymbol_unique hs' h2]; exact hin

theorem lastSymbol_append_none {a b : List Str} {s : Option Str} (hb : ∀ m ∈ b, ∀ u, ¬ SetsSymbol m u)
    (h : LastSymbol a s) : LastSymbol (a ++ b) s := by
  induction b using List.reverseRecOn with
  | nil => simpa using h
  | append_singleton b l ih =>
    rw [← List.append_assoc]
    exact (lastSymbol_snoc (ih fun m hm => hb m (by simp [hm]))).2 (hb l (by simp))

/-- C133 (in part). The entry of a class is the last symbol set in its body, `mid`, or nothing if none is; as long
as the lines `rest` from there to the next class of layer set no symbol. Missing: without that it fails, see
`c133_leaks`. -/
theorem c133_symbol_partial (texts : List Str) (files : List (List Str)) (hf : AreFiles texts files)
    (r : List (Str × Option Str)) (h : getSymbols texts = .ok r) (pre mid rest post : List Str) (l n : Str)
    (hlines : files.flatten = pre ++ (l :: mid) ++ rest ++ post) (hl : DefinesLayer l n)
    (hmid : ∀ m ∈ mid ++ rest, ∀ k, ¬ DefinesLayer m k) (hpost : ∀ m ∈ post.head?, ∃ k, DefinesLayer m k)
    (hrest : ∀ m ∈ rest, ∀ u, ¬ SetsSymbol m u) (s : Option Str) :
    (n, s) ∈ r ↔ LastSymbol (l :: mid) s := by
  rw [c133_entry texts files hf r h pre (mid ++ rest) post l n (by simpa using hlines) hl hmid hpost s,
    ← List.cons_append]
  constructor
  · intro hs
    have : ∃ t, LastSymbol (l :: mid) t := by
      by_cases ht : ∃ m ∈ l :: mid, ∃ u, SetsSymbol m u
      · have key : ∀ ls : List Str, ∃ t, LastSymbol ls t := by
          intro ls
          induction ls using List.reverseRecOn with
          | nil => exact ⟨none, Or.inr ⟨by simp, rfl⟩⟩
          | append_singleton ls x ih =>
            obtain ⟨t, ht⟩ := ih
            by_cases hx : ∃ u, SetsSymbol x u
            · obtain ⟨u, hu⟩ := hx
              exact ⟨some u, (lastSymbol_snoc ht).1 u hu⟩
            · push Not at hx
              exact ⟨t, (lastSymbol_snoc ht).2 hx⟩
        exact key _
      · push Not at ht
        exact ⟨none, Or.inr ⟨ht, rfl⟩⟩
    obtain ⟨t, ht⟩ := this
    rw [lastSymbol_unique hs (lastSymbol_append_none hrest ht)]
    exact ht
  · exact lastSymbol_append_none hrest

/-- C133 fails: a symbol set after the end of a class, be it in another class or in another file, replaces its
own, if no class of layer begins in between. -/
theorem c133_leaks (texts : List Str) (files : List (List Str)) (hf : AreFiles texts files)
    (r : List (Str × Option Str)) (h : getSymbols texts = .ok r) (pre mid rest post : List Str) (l n : Str)
    (hlines : files.flatten = pre ++ (l :: mid) ++ rest ++ post) (hl : DefinesLayer l n)
    (hmid : ∀ m ∈ mid ++ rest, ∀ k, ¬ DefinesLayer m k) (hpost : ∀ m ∈ post.head?, ∃ k, DefinesLayer m k)
    (u : Str) (hrest : LastSymbol rest (some u)) :
    (n, some u) ∈ r := by
  rw [c133_entry texts files hf r h pre (mid ++ rest) post l n (by simpa using hlines) hl hmid hpost]
  rcases hrest with ⟨a, m, b, t, rfl, h1, h2, h3⟩ | ⟨-, h3⟩
  · exact Or.inl ⟨l :: mid ++ a, m, b, t, by simp, h1, h2, h3⟩
  · cases h3

/-- C133 fails for the project's own files: `layer.py` is read after `transform.py`, `class Layer:` is no class
of layer, and so its fallback becomes the symbol of `Rotate`. -/
theorem c133_rotate :
    getSymbols ["class Rotate(Layer):\n    SYMBOL = '🗘'\n".toList,
      "class Layer:\n    SYMBOL = '?' # fallback\n".toList] =
    .ok [("Rotate".toList, some "?".toList)] := by decide +kernel

/-- C133: two files, three classes, one of them without a symbol. -/
example : getSymbols ["class A(Layer): SYMBOL = 'a'\n    SYMBOL='b'\nclass B(Layer):\n    pass\n".toList,
      "class C(Layer):\n  SYMBOL = \"c\"\n".toList] =
    .ok [("A".toList, some "b".toList), ("B".toList, none), ("C".toList, some "c".toList)] := by decide +kernel

/-- C133: the same class twice. -/
example : getSymbols ["class A(Layer):\n".toList, "class A(Layer):\n".toList] = .error .assertion := by
  decide +kernel

/-- C133 applies to an example: the second class of the first of two files. -/
example (r : List (Str × Option Str))
    (h : getSymbols ["class A(Layer):\nclass B(Layer):\n  SYMBOL='b'\n".toList, "class C(Layer):\n".toList] = .ok r)
    (s : Option Str) : ("B".toList, s) ∈ r ↔ s = some "b".toList := by
  have hf : AreFiles ["class A(Layer):\nclass B(Layer):\n  SYMBOL='b'\n".toList, "class C(Layer):\n".toList]
      [["class A(Layer):\n".toList, "class B(Layer):\n".toList, "  SYMBOL='b'\n".toList],
       ["class C(Layer):\n".toList]] := by
    refine .cons ⟨?_, newlines_id (by decide +kernel)⟩ (.cons ⟨?_, newlines_id (by decide +kernel)⟩ .nil)
    · have e : fileLines [] "class A(Layer):\nclass B(Layer):\n  SYMBOL='b'\n".toList =
        ["class A(Layer):\n".toList, "class B(Layer):\n".toList, "  SYMBOL='b'\n".toList] := by decide +kernel
      rw [← e]
      exact (isFile_fileLines [] _ (by simp)).1
    · have e : fileLines [] "class C(Layer):\n".toList = ["class C(Layer):\n".toList] := by decide +kernel
      rw [← e]
      exact (isFile_fileLines [] _ (by simp)).1
  have hs : SetsSymbol "  SYMBOL='b'\n".toList "b".toList := by
    rw [setsSymbol_iff]
    have : classIn "  SYMBOL='b'\n".toList = none := by decide +kernel
    exact ⟨by decide +kernel, fun n s hn => by rw [this] at hn; cases hn⟩
  have hlast : LastSymbol ["class B(Layer):\n".toList, "  SYMBOL='b'\n".toList] (some "b".toList) :=
    Or.inl ⟨["class B(Layer):\n".toList], _, [], _, rfl, hs, by simp, rfl⟩
  rw [c133_symbol_partial _ _ hf r h ["class A(Layer):\n".toList] ["  SYMBOL='b'\n".toList] []
    ["class C(Layer):\n".toList] "class B(Layer):\n".toList "B".toList rfl
    ((definesLayer_iff _ _).2 (by decide +kernel)) ?_ ?_ (by simp) s]
  · exact ⟨fun h => lastSymbol_unique h hlast, fun h => h ▸ hlast⟩
  · intro m hm k hk
    simp only [List.append_nil, List.mem_singleton] at hm
    subst hm
    rw [definesLayer_iff] at hk
    have : classIn "  SYMBOL='b'\n".toList = none := by decide +kernel
    rw [this] at hk
    cases hk
  · intro m hm
    simp only [List.head?_cons, Option.mem_def, Option.some.injEq] at hm
    subst hm
    exact ⟨"C".toList, (definesLayer_iff _ _).2 (by decide +kernel)⟩

end Sang
