import Verif.Props.Waypoints
import Verif.Lemmas.Layer

/-! # What a waypoint may hold, and assigning timelines: properties C40–C42, C76–C78 -/

namespace Sang

open Spec

/-! ## C40: interpolations -/

/-- `s` names the interpolation whose stored name is `t`: it is that name, or what the user
interface calls it. -/
def Names (s t : Str) : Prop :=
  ∃ p ∈ interpolations, t = p.1.toList ∧ (s = p.1.toList ∨ s = p.2.toList)

theorem names_legal {s t : Str} (h : Names s t) : LegalInterp t := by
  obtain ⟨p, hp, rfl, _⟩ := h
  exact List.mem_map.2 ⟨p, hp, rfl⟩

/-- Checking a name is what the table says. -/
theorem checkInterp_iff {s t : Str} : checkInterp s = .ok t ↔ Names s t := by
  constructor
  · intro h
    simp only [checkInterp] at h
    split at h
    · simp at h
    · next hu =>
      split at h
      · next hc =>
        injection h with h; subst h
        rw [List.contains_iff_mem] at hc
        simp only [interpolationTypes, List.map_cons, List.map_nil, List.mem_cons, List.not_mem_nil,
          or_false] at hc
        rcases hc with rfl | rfl | rfl | rfl | rfl | rfl
        · exact ⟨("tcb", "auto"), by simp [interpolations], rfl, Or.inl rfl⟩
        · exact ⟨("clamped", "clamped"), by simp [interpolations], rfl, Or.inl rfl⟩
        · exact ⟨("constant", "constant"), by simp [interpolations], rfl, Or.inl rfl⟩
        · exact ⟨("linear", "linear"), by simp [interpolations], rfl, Or.inl rfl⟩
        · exact ⟨("ease", "halt"), by simp [interpolations], rfl, Or.inl rfl⟩
        · exact absurd rfl hu
      · split at h
        · next u hu' =>
          injection h with h; subst h
          obtain ⟨l1, l2, hl, _⟩ := List.lookup_eq_some_iff.1 hu'
          have hm : (s, u) ∈ interpolationSynonyms.map fun p => (p.1.toList, p.2.toList) := by
            rw [hl]; simp
          obtain ⟨p, hp, hpe⟩ := List.mem_map.1 hm
          have key : ∀ p ∈ interpolationSynonyms, (p.2, p.1) ∈ interpolations := by decide +kernel
          injection hpe with h1 h2
          exact ⟨_, key p hp, h2.symm, Or.inr h1.symm⟩
        · simp at h
  · rintro ⟨p, hp, rfl, rfl | rfl⟩
    · have key : ∀ p ∈ interpolations, checkInterp p.1.toList = .ok p.1.toList := by decide +kernel
      exact key p hp
    · have key : ∀ p ∈ interpolations, checkInterp p.2.toList = .ok p.1.toList := by decide +kernel
      exact key p hp

theorem checkInterp_error {s : Str} (h : ¬ ∃ t, Names s t) : checkInterp s = .error .value := by
  cases hc : checkInterp s with
  | ok t => exact absurd ⟨t, checkInterp_iff.1 hc⟩ h
  | error e =>
    simp only [checkInterp] at hc
    split at hc
    · injection hc with hc; rw [hc]
    · split at hc
      · simp at hc
      · split at hc
        · simp at hc
        · injection hc with hc; rw [hc]

/-- C40. A waypoint made by the constructor has the interpolations named by its arguments; they are
legal ones. -/
theorem c40_constructor {F : Fl} {root : Option Attrs} {time : TimeArg} {value : PV} {b a : Str}
    {w : Waypoint} (h : Waypoint.new F root time value b a = .ok w) :
    Names b w.before ∧ Names a w.after ∧ LegalInterp w.before ∧ LegalInterp w.after := by
  suffices Names b w.before ∧ Names a w.after from
    ⟨this.1, this.2, names_legal this.1, names_legal this.2⟩
  simp only [Waypoint.new] at h
  split at h
  · split at h
    · simp at h
    · split at h
      · simp at h
      · split at h
        · simp at h
        · next hb =>
          split at h
          · simp at h
          · next ha =>
            injection h with h; subst h
            exact ⟨checkInterp_iff.1 hb, checkInterp_iff.1 ha⟩
  · simp at h

/-- C40. The constructor succeeds for exactly the names in the table, and otherwise raises
`ValueError`; the value isn't animated and the time is a `T`, so nothing else can be wrong. -/
theorem c40_constructor_decides {F : Fl} {root root' : Option Attrs} {c : VCls} {v : Node} {t : T}
    (hv : v.name ≠ "animated") (b a : Str) :
    ((∃ b', Names b b') ∧ (∃ a', Names a a') →
      ∃ w, Waypoint.new F root (.t t) (.val c root' v) b a = .ok w) ∧
    (¬ ((∃ b', Names b b') ∧ ∃ a', Names a a') →
      Waypoint.new F root (.t t) (.val c root' v) b a = .error .value) := by
  simp only [Waypoint.new, if_neg hv]
  constructor
  · rintro ⟨⟨b', hb⟩, a', ha⟩
    rw [checkInterp_iff.2 hb, checkInterp_iff.2 ha]
    exact ⟨_, rfl⟩
  · intro h
    by_cases hb : ∃ b', Names b b'
    · obtain ⟨b', hb'⟩ := hb
      rw [checkInterp_iff.2 hb', checkInterp_error fun ha => h ⟨⟨b', hb'⟩, ha⟩]
    · rw [checkInterp_error hb]

/-- An assignment to an attribute of a waypoint. -/
inductive WpOp where
  | before (s : Str)
  | after (s : Str)

/-- The model of it. -/
def WpOp.run (w : Waypoint) : WpOp → Waypoint × Res Unit
  | .before s => w.setBefore s
  | .after s => w.setAfter s

/-- C40. The setters: a name in the table is translated and stored, changing nothing else; any
other raises `ValueError` and changes nothing. -/
theorem c40_setters (w : Waypoint) (s : Str) :
    (∀ t, Names s t → w.setBefore s = ({w with before := t}, .ok ()) ∧
      w.setAfter s = ({w with after := t}, .ok ())) ∧
    ((¬ ∃ t, Names s t) → w.setBefore s = (w, .error .value) ∧ w.setAfter s = (w, .error .value)) := by
  constructor
  · intro t ht
    simp only [Waypoint.setBefore, Waypoint.setAfter, checkInterp_iff.2 ht, and_self]
  · intro h
    simp only [Waypoint.setBefore, Waypoint.setAfter, checkInterp_error h, and_self]

/-- C40. After any history of assignments to `before` and `after`, whether or not they raise, a
waypoint's interpolations are legal. -/
theorem c40_always_legal {w : Waypoint} (h : LegalInterp w.before ∧ LegalInterp w.after)
    (ops : List WpOp) :
    LegalInterp (ops.foldl (fun w o => (o.run w).1) w).before ∧
    LegalInterp (ops.foldl (fun w o => (o.run w).1) w).after := by
  induction ops generalizing w with
  | nil => exact h
  | cons o r ih =>
    apply ih
    cases o with
    | before s =>
      by_cases hs : ∃ t, Names s t
      · obtain ⟨t, ht⟩ := hs
        simp only [WpOp.run]; rw [((c40_setters w s).1 t ht).1]; exact ⟨names_legal ht, h.2⟩
      · simp only [WpOp.run]; rw [((c40_setters w s).2 hs).1]; exact h
    | after s =>
      by_cases hs : ∃ t, Names s t
      · obtain ⟨t, ht⟩ := hs
        simp only [WpOp.run]; rw [((c40_setters w s).1 t ht).2]; exact ⟨h.1, names_legal ht⟩
      · simp only [WpOp.run]; rw [((c40_setters w s).2 hs).2]; exact h

/-- C40. So are those of a waypoint read from a document, whatever the document. -/
theorem c40_read_legal {F : Fl} {ctx : Ctx} {f : Option ℚ} {ty : Str} {n : Node} {ws : List Waypoint}
    (hf : readFps F ctx.root = .ok f) (hty : ourType n = .ok ty) (h : waypoints F ctx n = .ok ws) :
    ∀ w ∈ ws, LegalInterp w.before ∧ LegalInterp w.after := by
  intro w hw
  obtain ⟨h1, h2, _⟩ := (waypoints_inv hf hty h).2.2 w hw
  exact ⟨legalInterp_iff.2 h1, legalInterp_iff.2 h2⟩

/-- C40's names: `auto` means `tcb`; nothing is meant by `undefined` or the empty text. -/
example : Names "auto".toList "tcb".toList ∧ (¬ ∃ t, Names "undefined".toList t) ∧ ¬ ∃ t, Names [] t := by
  refine ⟨checkInterp_iff.1 (by decide +kernel), ?_, ?_⟩
  · rintro ⟨t, h⟩
    have := checkInterp_iff.2 h
    rw [show checkInterp "undefined".toList = .error .value by decide +kernel] at this
    simp at this
  · rintro ⟨t, h⟩
    have := checkInterp_iff.2 h
    rw [show checkInterp [] = .error .value by decide +kernel] at this
    simp at this

/-! ## C41: what a waypoint holds -/

/-- C41. The constructor refuses an animated value with `ValueError`, and what isn't a value with
`TypeError`. So no waypoint it makes holds an animated value. -/
theorem c41_constructor (F : Fl) (root : Option Attrs) (time : TimeArg) (b a : Str) :
    (∀ c root' v, v.name = "animated" →
      Waypoint.new F root time (.val c root' v) b a = .error .value) ∧
    (∀ p, (∀ c root' v, p ≠ .val c root' v) → Waypoint.new F root time p b a = .error .type) ∧
    (∀ p w, Waypoint.new F root time p b a = .ok w → w.val.name ≠ "animated" ∧
      ∃ c root', p = .val c root' w.val) := by
  refine ⟨?_, ?_, ?_⟩
  · intro c root' v hv
    simp only [Waypoint.new, if_pos hv]
  · intro p hp
    cases p with
    | val c r n => exact absurd rfl (hp c r n)
    | _ => rfl
  · intro p w h
    simp only [Waypoint.new] at h
    split at h
    · next c r n =>
      split at h
      · simp at h
      · next hna =>
        split at h
        · simp at h
        · split at h
          · simp at h
          · split at h
            · simp at h
            · injection h with h; subst h
              exact ⟨hna, c, r, rfl⟩
    · simp at h

/-- C41. Whatever a document says, every waypoint read from it holds a value of the type of the
timeline, not animated. -/
theorem c41_read {F : Fl} {ctx : Ctx} {f : Option ℚ} {ty : Str} {n : Node} {ws : List Waypoint}
    (hf : readFps F ctx.root = .ok f) (hty : ourType n = .ok ty) (h : waypoints F ctx n = .ok ws) :
    ∀ w ∈ ws, w.val.name.toList = ty ∧ w.val.name ≠ "animated" := by
  intro w hw
  obtain ⟨_, _, h3⟩ := (waypoints_inv hf hty h).2.2 w hw
  exact ⟨h3.2.2.1, h3.2.1⟩

/-- C41. A waypoint element holding an animated value, or one of another type, is refused with
`ValueError`. -/
theorem c41_read_refuses {F : Fl} {root : Option Attrs} {ty : Str} {n v : Node} {a : AttrV} {t : T}
    (hn : n.name = "waypoint") (ht : n.attrs.get "time" = some a) (ht' : T.new F root a.toTArg = .ok t)
    (hk : n.tagKids = [v]) (hv : v.name = "animated" ∨ v.name.toList ≠ ty) :
    Waypoint.fromTag F root ty n = .error .value := by
  simp only [Waypoint.fromTag, hn, ne_eq, not_true_eq_false, if_false, ht, ht', hk]
  split
  · rfl
  · next h =>
    rw [if_pos (by rcases hv with h' | h'; exacts [absurd h' h, h'])]

theorem assigning_animated_refused {F : Fl} {ctx : Ctx} {c : VCls} {n v : Node} {t : TimeArg} {τ : T}
    (ht : ensureFps F ctx t = .ok τ) (hv : v.name = "animated") (root : Option Attrs) :
    setItem F ctx c t (.py (.val c root v)) n = (n, .error .value) := by
  simp only [setItem, ht, makeWp, if_true]
  rw [(c41_constructor F ctx.root (.t τ) "clamped".toList "clamped".toList).1 c root v hv]

/-- C41. Assigning an animated value object of the timeline's class to a subscript always raises, and changes
nothing; if the subscript is a time in the animation, it raises `ValueError`. -/
theorem c41_assigning_animated_refused {F : Fl} {ctx : Ctx} {c : VCls} {n v : Node}
    (hv : v.name = "animated") (root : Option Attrs) (t : TimeArg) :
    ∃ e, setItem F ctx c t (.py (.val c root v)) n = (n, .error e) ∧
      ∀ f q, readFps F ctx.root = .ok f → Denotes F ctx t q → e = .value := by
  cases ht : ensureFps F ctx t with
  | ok τ => exact ⟨_, assigning_animated_refused ht hv root, fun _ _ _ _ => rfl⟩
  | error e =>
    refine ⟨e, by simp only [setItem, ht], fun f q hf hd => ?_⟩
    have := (denotes_spec hf hd).1
    rw [ht] at this
    cases this

theorem mapRes_one_bad {α β : Type} {f : α → Res β} {l : List α} {e : Err}
    (h : ∀ x ∈ l, (∃ y, f x = .ok y) ∨ f x = .error e) (hex : ∃ x ∈ l, f x = .error e) :
    mapRes f l = .error e := by
  induction l with
  | nil => simp at hex
  | cons x r ih =>
    simp only [mapRes]
    rcases h x (by simp) with ⟨y, hy⟩ | hx
    · obtain ⟨z, hz, hze⟩ := hex
      rcases List.mem_cons.1 hz with rfl | hz
      · rw [hy] at hze; simp at hze
      · rw [hy, ih (fun x hx => h x (by simp [hx])) ⟨z, hz, hze⟩]
    · rw [hx]

/-- C41 is violated on the way in: a waypoint object holding a value of another type is accepted
by a subscript, and then the timeline can't be read at all. -/
theorem c41_wrong_type_breaks_timeline {F : Fl} {ctx : Ctx} {c : VCls} {f : Option ℚ} {ty : Str}
    {n : Node} {m : TMap} (hf : readFps F ctx.root = .ok f) (hn : TimelineIs F ctx ty n m)
    {t : TimeArg} {q : ℚ} (ht : Denotes F ctx t q) {w : Waypoint} (hw : w.val.isTag = true)
    (hty : w.val.name.toList ≠ ty) :
    (setItem F ctx c t (.wp w) n).2 = .ok () ∧
    waypoints F ctx (setItem F ctx c t (.wp w) n).1 = .error .value := by
  obtain ⟨htag, htype, ws, hread, hnn, hlist⟩ := hn
  obtain ⟨h1, h2⟩ := denotes_spec hf ht
  simp only [setItem, h1, makeWp]
  set n1 := if n.name = "animated" then n else startAnimation (n.setKids []) with hn1
  have g : n1.isTag = true ∧ ourType n1 = .ok ty ∧ waypoints F ctx n1 = .ok ws := by
    rw [hn1]
    split
    · exact ⟨htag, htype, hread⟩
    · next hna =>
      have htag' : (n.setKids []).isTag = true := by rw [setKids_tag]; exact htag
      have hty' : ourType (n.setKids []) = .ok ty := by rw [setKids_ourType]; exact htype
      refine ⟨startAnimation_tag htag', ?_, ?_⟩
      · rw [ourType_animated (startAnimation_name htag')]
        exact startAnimation_type htag' hty'
      · rw [waypoints_static F ctx hna] at hread
        rw [← hread]
        apply waypoints_empty
        rw [startAnimation_kids, setKids_kids htag]
  obtain ⟨g1, g2, g3⟩ := g
  obtain ⟨i1, i2, i3⟩ := waypoints_inv hf g2 g3
  have hτ : (⟨q, f⟩ : T).fps = f := rfl
  simp only [g3, zeroClash_same hτ i1, Bool.false_eq_true, if_false]
  set w' : Waypoint := {w with time := ⟨q, f⟩} with hw'
  have hall := allFps_putWp (w := w') rfl i1
  have hne := putWp_ne_nil w' ws
  have hname := startAnimation_name g1
  have htg := startAnimation_tag g1
  have htp := startAnimation_type g1 g2
  simp only [setWaypoints, if_neg hne, rateClash_same hall, Bool.false_eq_true, if_false]
  refine ⟨trivial, ?_⟩
  have hk : waypointTags ((startAnimation n1).setKids
      (withNewlines ((sortWps (putWp w' ws)).map Waypoint.tag))) =
      (sortWps (putWp w' ws)).map Waypoint.tag := by
    rw [waypointTags, setKids_name, if_neg (by simp [hname]), Node.tagKids, setKids_kids htg,
      filter_withNewlines]
    intro x hx
    obtain ⟨w, _, rfl⟩ := List.mem_map.1 hx
    rfl
  simp only [waypoints, hk, setKids_strAttr, htp]
  rw [if_neg (by simpa using sortWps_ne_nil hne)]
  have hbad : Waypoint.fromTag F ctx.root ty w'.tag = .error .value := by
    refine c41_read_refuses (a := .t ⟨q, f⟩) (t := ⟨q, f⟩) (v := w.val) rfl rfl
      (new_t_nonneg hf rfl h2) ?_ (Or.inr hty)
    simp [Waypoint.tag, tagKids_tag, hw', hw]
  rw [mapRes_one_bad (e := .value)]
  · intro x hx
    obtain ⟨y, hy, rfl⟩ := List.mem_map.1 hx
    rcases (mem_putWp (w := w') rfl i1 i2).1 (mem_sortWps.1 hy) with rfl | ⟨hy, _⟩
    · exact Or.inr hbad
    · exact Or.inl ⟨y, fromTag_tag ⟨new_t_nonneg hf (i1 y hy) (hnn y hy), i3 y hy⟩⟩
  · exact ⟨_, List.mem_map.2 ⟨w', mem_sortWps.2 ((mem_putWp (w := w') rfl i1 i2).2 (Or.inl rfl)), rfl⟩, hbad⟩

/-- C41: the example timeline of reals, given a waypoint holding a colour. -/
example :
    let F := double
    let ctx : Ctx := ⟨some exRoot, true⟩
    let w : Waypoint := ⟨⟨5, none⟩, "tcb".toList, "tcb".toList, colorNode 1 0 0 1⟩
    (setItem F ctx .real (.num 5) (.wp w) exTimeline).2 = .ok () ∧
    waypoints F ctx (setItem F ctx .real (.num 5) (.wp w) exTimeline).1 = .error .value ∧
    setItem F ctx .real (.num 5) (.py (.val .real none exTimeline)) exTimeline =
      (exTimeline, .error .value) := by
  decide +kernel

/-! ## C42: assigning a whole timeline -/

/-- Reading a waypoint's element where the rate is `f`. -/
theorem fromTag_retime {F : Fl} {root : Option Attrs} {f : Option ℚ} {ty : Str}
    (hf : readFps F root = .ok f) {w : Waypoint} (h0 : 0 ≤ w.time.frames)
    (hb : checkInterp w.before = .ok w.before) (ha : checkInterp w.after = .ok w.after)
    (hl : Legal ty w.val) :
    Waypoint.fromTag F root ty w.tag = .ok {w with time := ⟨w.time.frames, f⟩} := by
  have hr : Readable F root ty {w with time := ⟨w.time.frames, f⟩} :=
    ⟨new_t_nonneg hf rfl h0, hb, ha, hl⟩
  have ht : T.new F root (.t w.time) = .ok ⟨w.time.frames, f⟩ := by
    simp only [T.new, hf, framesOfNumber, if_neg (not_lt.2 h0)]
  obtain ⟨h4, h5, h6, c, h7⟩ := hl
  have hk : w.tag.tagKids = [w.val] := by simp [Waypoint.tag, tagKids_tag, h4]
  have hb' : strAttr w.tag "before" = .ok w.before := rfl
  have ha' : strAttr w.tag "after" = .ok w.after := rfl
  have ht' : w.tag.attrs.get "time" = some (.t w.time) := rfl
  have hn : w.tag.name = "waypoint" := rfl
  simp only [Waypoint.fromTag, hn, ne_eq, not_true_eq_false, if_false, ht', AttrV.toTArg, ht, hk, h5, h6,
    h7, hb', ha', ha, hb]

theorem mapRes_map_ok' {α β γ : Type} {f : α → Res β} {g : γ → α} {h : γ → β} {l : List γ}
    (hl : ∀ y ∈ l, f (g y) = .ok (h y)) : mapRes f (l.map g) = .ok (l.map h) := by
  induction l with
  | nil => rfl
  | cons a l ih =>
    simp only [List.map_cons, mapRes, hl a (by simp), ih fun y hy => hl y (by simp [hy])]

/-- Storing waypoints whose times have any one rate: they are read back at the same frames. -/
theorem setWaypoints_retime {F : Fl} {ctx : Ctx} {f g : Option ℚ} {ty : Str} {n : Node}
    (hf : readFps F ctx.root = .ok f)
    {ws : List Waypoint} (hn : n.isTag = true) (hty : ourType n = .ok ty) (hne : ws ≠ [])
    (hg : AllFps g ws) (ha : Apart ws)
    (hr : ∀ w ∈ ws, 0 ≤ w.time.frames ∧ checkInterp w.before = .ok w.before ∧
      checkInterp w.after = .ok w.after ∧ Legal ty w.val) :
    (setWaypoints F ctx ws n).2 = .ok () ∧ (setWaypoints F ctx ws n).1.isTag = true ∧
    ourType (setWaypoints F ctx ws n).1 = .ok ty ∧
    waypoints F ctx (setWaypoints F ctx ws n).1 =
      .ok ((sortWps ws).map fun w => {w with time := ⟨w.time.frames, f⟩}) := by
  simp only [setWaypoints, if_neg hne, rateClash_same hg, Bool.false_eq_true, if_false]
  have hname := startAnimation_name hn
  have htag := startAnimation_tag hn
  have htype := startAnimation_type hn hty
  refine ⟨trivial, by rw [setKids_tag]; exact htag, ?_, ?_⟩
  · rw [setKids_ourType, ourType_animated hname, htype]
  · have hk : waypointTags ((startAnimation n).setKids (withNewlines ((sortWps ws).map Waypoint.tag))) =
        (sortWps ws).map Waypoint.tag := by
      rw [waypointTags, setKids_name, if_neg (by simp [hname]), Node.tagKids, setKids_kids htag,
        filter_withNewlines]
      intro x hx
      obtain ⟨w, _, rfl⟩ := List.mem_map.1 hx
      rfl
    simp only [waypoints, hk, setKids_strAttr, htype]
    rw [if_neg (by simpa using sortWps_ne_nil hne)]
    rw [mapRes_map_ok' (h := fun w => {w with time := ⟨w.time.frames, f⟩}) (by
      intro w hw
      obtain ⟨h0, h1, h2, h3⟩ := hr w (mem_sortWps.1 hw)
      exact fromTag_retime hf h0 h1 h2 h3)]
    simp only
    rw [foldl_putWp_apart (f := f), List.nil_append]
    · intro w hw
      simp only [List.nil_append, List.mem_map] at hw
      obtain ⟨x, _, rfl⟩ := hw
      rfl
    · simp only [List.nil_append, Apart, List.pairwise_map]
      exact apart_sortWps ha

/-- C42. After `s.timeline = r.timeline`, where `r` is animated and `s` is of the same type, `s` has
a waypoint just where `r` has one, with the same value and interpolations; this is so even if they
are in documents with different frame rates (then the number of frames is kept), and whatever `s`
had before, animated or not. (The model's operation returns only `s`: nothing in it can change `r`.) -/
theorem c42_assign_timeline {F : Fl} {ctx ctx' : Ctx} {f g : Option ℚ} {ty : Str} {n r : Node} {m : TMap}
    (hf : readFps F ctx.root = .ok f) (hg : readFps F ctx'.root = .ok g)
    (hn : n.isTag = true) (hty : ourType n = .ok ty) (hr : TimelineIs F ctx' ty r m)
    (hne : ∃ q, m q ≠ none) :
    (setTimeline F ctx (.ofValue ctx' r) n).2 = .ok () ∧
    TimelineIs F ctx ty (setTimeline F ctx (.ofValue ctx' r) n).1 m ∧
    ∃ ws, waypoints F ctx (setTimeline F ctx (.ofValue ctx' r) n).1 = .ok ws ∧ Ascending ws := by
  obtain ⟨_, htype, ws, hread, hnn, hlist⟩ := hr
  obtain ⟨i1, i2, i3⟩ := waypoints_inv hg htype hread
  have hws : ws ≠ [] := by
    rintro rfl
    obtain ⟨q, hq⟩ := hne
    obtain ⟨e, he⟩ := Option.ne_none_iff_exists'.1 hq
    obtain ⟨w, hw, _⟩ := (hlist q e).1 he
    simp at hw
  obtain ⟨s1, s2, s3, s4⟩ := setWaypoints_retime hf hn hty hws i1 i2
    fun w hw => ⟨hnn w hw, i3 w hw⟩
  simp only [setTimeline, hread]
  refine ⟨s1, ⟨s2, s3, _, s4, ?_, ?_⟩, _, s4, ?_⟩
  · intro w hw
    obtain ⟨x, hx, rfl⟩ := List.mem_map.1 hw
    exact hnn x (mem_sortWps.1 hx)
  · intro q e
    rw [hlist q e]
    constructor
    · rintro ⟨w, hw, h1, h2⟩
      exact ⟨_, List.mem_map.2 ⟨w, mem_sortWps.2 hw, rfl⟩, h1, h2⟩
    · rintro ⟨w, hw, h1, h2⟩
      obtain ⟨x, hx, rfl⟩ := List.mem_map.1 hw
      exact ⟨x, mem_sortWps.1 hx, h1, h2⟩
  · simp only [Ascending, List.pairwise_map]
    exact ascending_sortWps i2

/-- C42. Assigning a list of waypoints at different times is the same as putting each of them in an
empty timeline. -/
theorem c42_assign_list {F : Fl} {ctx : Ctx} {f : Option ℚ} {ty : Str} {n : Node}
    (hf : readFps F ctx.root = .ok f) (hn : n.isTag = true) (hty : ourType n = .ok ty)
    {ws : List Waypoint} (hne : ws ≠ []) (hws : Addable f ty ws)
    (hd : ws.Pairwise fun a b => a.time.frames ≠ b.time.frames) :
    (setTimeline F ctx (.list ws) n).2 = .ok () ∧
    TimelineIs F ctx ty (setTimeline F ctx (.list ws) n).1 (TMap.empty.setAll (entries ws)) ∧
    ∃ ws', waypoints F ctx (setTimeline F ctx (.list ws) n).1 = .ok ws' ∧ Ascending ws' := by
  have hwf : AllFps f ws := fun w hw => (hws w hw).1
  obtain ⟨s1, s2, s3, s4⟩ := setWaypoints_spec (F := F) (ctx := ctx) (f := f) hn hty hne hwf hd (by
    intro w hw
    obtain ⟨h1, h2, h3, h4, h5⟩ := hws w hw
    exact ⟨new_t_nonneg hf h1 h2, legalInterp_iff.1 h3, legalInterp_iff.1 h4, h5⟩)
  refine ⟨s1, ⟨s2, s3, _, s4, fun w hw => (hws w (mem_sortWps.1 hw)).2.1, ?_⟩, _, s4,
    ascending_sortWps hd⟩
  exact lists_sort (lists_self hwf hd)

/-- C42. Assigning an empty list, or the timeline of a value which isn't animated: a value in a
document becomes what its first waypoint held, and isn't animated; one that wasn't animated is
unchanged. -/
theorem c42_assign_empty {F : Fl} {ctx ctx' : Ctx} {n r : Node} (hp : ctx.hasParent = true)
    (hr : r.name ≠ "animated") :
    setTimeline F ctx (.ofValue ctx' r) n = setTimeline F ctx (.list []) n ∧
    (n.name ≠ "animated" → setTimeline F ctx (.list []) n = (n, .ok ())) ∧
    ∀ f ty w ws, readFps F ctx.root = .ok f → ourType n = .ok ty → waypoints F ctx n = .ok (w :: ws) →
      setTimeline F ctx (.list []) n = (w.val, .ok ()) ∧ w.val.name ≠ "animated" := by
  refine ⟨by simp [setTimeline, waypoints_static F ctx' hr], ?_, ?_⟩
  · intro h
    simp only [setTimeline, setWaypoints, if_true, unAnimate, ne_eq, h, not_false_eq_true]
  · intro f ty w ws hf hty h
    have hn := animated_of_waypoints h (by simp)
    obtain ⟨_, _, h3⟩ := waypoints_inv hf hty h
    refine ⟨?_, (h3 w (by simp)).2.2.2.1⟩
    simp only [setTimeline, setWaypoints, if_true, unAnimate, hn, ne_eq, not_true_eq_false, if_false,
      h, hp]

/-- C42 applies: the example timeline assigned to a static real in a 12 fps document. -/
example :
    let F := double
    let root12 : Attrs := [("fps", .str "12".toList)]
    waypoints F ⟨some root12, true⟩
      (setTimeline F ⟨some root12, true⟩ (.ofValue ⟨some exRoot, true⟩ exTimeline) (exReal "1")).1 =
      .ok (exWps.map fun w => {w with time := ⟨w.time.frames, some 12⟩}) ∧
    setTimeline F ⟨some exRoot, true⟩ (.list []) exTimeline = (exReal "5.0", .ok ()) := by
  decide +kernel

/-! ## C76: text that blocks reading -/

/-- C76 is violated: if the text `x_y` occurs anywhere in the element, for instance as the value of
a string, no subscript can be read, though the timeline is there. -/
theorem c76_xy_blocks_reading {F : Fl} {n : Node} (h : isInfix "x_y".toList (n.serial F) = true)
    (ctx : Ctx) (k : TOther) : getItem F ctx k n = .error .value := by
  simp only [getItem, h, if_true]

theorem isInfix_iff (s t : Str) : isInfix s t = true ↔ s <:+: t := by
  induction t with
  | nil => simp [isInfix]
  | cons c r ih =>
    rw [isInfix, Bool.or_eq_true, ih, List.isPrefixOf_iff_prefix, List.infix_cons_iff]

theorem escapeXml_infix {s t : Str} (hs : ∀ c ∈ s, c ≠ '&' ∧ c ≠ '<' ∧ c ≠ '>') (h : s <:+: t) :
    s <:+: escapeXml t := by
  obtain ⟨a, b, rfl⟩ := h
  have key : escapeXml s = s := by
    clear a b
    induction s with
    | nil => rfl
    | cons c r ih =>
      have hc := hs c (by simp)
      have := ih (fun d hd => hs d (by simp [hd]))
      simp only [escapeXml, List.map_cons, List.flatten_cons, hc.1, hc.2.1, hc.2.2, if_false] at this ⊢
      rw [this]; rfl
  refine ⟨escapeXml a, escapeXml b, ?_⟩
  conv_lhs => rw [← key]
  simp [escapeXml]

mutual
theorem serial_infix (F : Fl) {s t : Str} (hs : ∀ c ∈ s, c ≠ '&' ∧ c ≠ '<' ∧ c ≠ '>') (h : s <:+: t)
    (n : Node) (hn : Node.text t ∈ n.subtree) : s <:+: n.serial F := by
  match n with
  | .text u =>
    simp only [Node.subtree, List.mem_singleton, Node.text.injEq] at hn
    subst hn
    exact escapeXml_infix hs h
  | .tag nm a ks =>
    rw [subtree_tag, List.mem_cons] at hn
    rcases hn with hn | hn
    · cases hn
    · have ih := serialKids_infix F hs h ks hn
      rw [Node.serial]
      refine ih.trans ?_
      refine ⟨'<' :: nm.toList ++ (a.map fun p => ' ' :: p.1.toList ++ '=' :: '"' ::
        escapeXml (p.2.str' F) ++ ['"']).flatten ++ ['>'], '<' :: '/' :: nm.toList ++ ['>'], ?_⟩
      simp

theorem serialKids_infix (F : Fl) {s t : Str} (hs : ∀ c ∈ s, c ≠ '&' ∧ c ≠ '<' ∧ c ≠ '>') (h : s <:+: t)
    (l : List Node) (hn : Node.text t ∈ Node.nodesIn l) : s <:+: Node.serialKids F l := by
  match l with
  | [] => simp [Node.nodesIn] at hn
  | x :: r =>
    rw [nodesIn_cons, List.mem_append] at hn
    rw [Node.serialKids]
    rcases hn with hn | hn
    · exact (serial_infix F hs h x hn).trans (List.prefix_append _ _).isInfix
    · exact (serialKids_infix F hs h r hn).trans (List.suffix_append _ _).isInfix
end

/-- C76 is violated by every text in which `x_y` occurs: once it is anywhere in the timeline, no
subscript can be read. -/
theorem c76_text_blocks_reading (F : Fl) (n : Node) (t : Str) (hn : Node.text t ∈ n.subtree)
    (h : "x_y".toList <:+: t) (ctx : Ctx) (k : TOther) : getItem F ctx k n = .error .value :=
  c76_xy_blocks_reading ((isInfix_iff _ _).2 (serial_infix F (by decide) h n hn)) ctx k

/-- Such a string: it can be assigned, iterating finds it, the subscript doesn't. -/
theorem c76_reading_fails :
    let F := double
    let ctx : Ctx := ⟨some exRoot, true⟩
    let n := (setItem F ctx .string (.num 5) (.py (.str "max_y".toList)) (.tag "string" [] [.text ['a']])).1
    (iterTimeline F ctx n).map (fun ws => ws.map fun w => w.val) =
      .ok [.tag "string" [] [.text "max_y".toList]] ∧
    getItem F ctx (.num 5) n = .error .value := by
  decide +kernel

/-! ## C77: times before the start -/

theorem parseAttr_of_new {F : Fl} {root : Attrs} {k : String} {te : Str} {stop r : ℚ}
    (he : root.get k = some (.str te)) (hE : T.new F (some root) (.str te) = .ok ⟨stop, some r⟩) :
    readFps F (some root) = .ok (some r) ∧ parseAttr F (some r) root k = .ok stop := by
  simp only [T.new] at hE
  cases hr : readFps F (some root) with
  | error e => rw [hr] at hE; cases hE
  | ok fps =>
    rw [hr] at hE
    cases hp : parseSpec F fps te with
    | error e => simp only [hp] at hE; cases hE
    | ok x =>
      simp only [hp, Except.ok.injEq, T.mk.injEq] at hE
      obtain ⟨rfl, rfl⟩ := hE
      exact ⟨rfl, by simp only [parseAttr, he, hp]⟩

/-- C77 is violated. A waypoint put before the start of the animation, say at `-2f`, is found at
that many frames before the end instead: in memory, the stored time is read as a number, and
negative numbers count from the end. (Exact in `F` only if the rounding is.) -/
theorem c77_negative_time_moves {F : Fl} {ctx : Ctx} {c : VCls} {r q stop start : ℚ} {ty : Str} {n : Node}
    (hq : q < 0) {root : Attrs} (hroot : ctx.root = some root) {te tb : Str}
    (he : root.get "end-time" = some (.str te)) (hb : root.get "begin-time" = some (.str tb))
    (hE : T.new F (some root) (.str te) = .ok ⟨stop, some r⟩)
    (hB : T.new F (some root) (.str tb) = .ok ⟨start, some r⟩)
    (hn : Legal ty n) {v : SetArg} {e : Entry} (hv : Puts F c ty v e) :
    waypoints F ctx (setItem F ctx c (.t ⟨q, some r⟩) v n).1 =
      .ok [⟨⟨F.rnd (F.rnd (1 + F.rnd (stop - start)) + q), some r⟩, e.before, e.after, e.value⟩] := by
  obtain ⟨hf, hstop⟩ := parseAttr_of_new he hE
  obtain ⟨_, hstart⟩ := parseAttr_of_new hb hB
  rw [← hroot] at hf
  obtain ⟨w, w1, w2, w3, w4, w5⟩ := puts_spec (ctx := ctx) hv ⟨q, some r⟩
  have hwt := makeWp_time w1
  obtain ⟨htag, hna, hname, _⟩ := hn
  have htype : ourType n = .ok ty := by simp [ourType, hna, hname]
  have htag' : (n.setKids []).isTag = true := by rw [setKids_tag]; exact htag
  have hty' : ourType (n.setKids []) = .ok ty := by rw [setKids_ourType]; exact htype
  have g3 := waypoints_empty F ctx (n := startAnimation (n.setKids [])) (by
    rw [startAnimation_kids, setKids_kids htag])
  have hs := startAnimation_name htag'
  have hst := startAnimation_tag htag'
  have hsty := startAnimation_type htag' hty'
  simp only [setItem, ensureFps, w1, if_neg hna, g3]
  have hz : zeroClash (⟨q, some r⟩ : T) [] = false := by simp [zeroClash]
  have hrc : rateClash [w] = false := rateClash_same (f := w.time.fps) (by simp [AllFps])
  have hsort : sortWps [w] = [w] := rfl
  simp only [hz, Bool.false_eq_true, if_false, putWp, setWaypoints, List.cons_ne_nil, hrc, hsort,
    List.map_cons, List.map_nil, withNewlines]
  have hidem : startAnimation (startAnimation (n.setKids [])) = startAnimation (n.setKids []) := by
    generalize startAnimation (n.setKids []) = x at hs
    simp [startAnimation, hs]
  rw [hidem]
  have hk : waypointTags ((startAnimation (n.setKids [])).setKids [w.tag]) = [w.tag] := by
    rw [waypointTags, setKids_name, if_neg (by simp [hs]), Node.tagKids, setKids_kids hst]
    rfl
  simp only [waypoints, hk, setKids_strAttr, hsty, List.cons_ne_nil, if_false, mapRes]
  have ht : T.new F ctx.root (.t w.time) =
      .ok ⟨F.rnd (F.rnd (1 + F.rnd (stop - start)) + q), some r⟩ := by
    simp only [T.new, hf, framesOfNumber, hwt, if_pos hq]
    rw [hroot]
    simp only [hstop, hstart]
  have hread : Waypoint.fromTag F ctx.root ty w.tag =
      .ok ⟨⟨F.rnd (F.rnd (1 + F.rnd (stop - start)) + q), some r⟩, w.before, w.after, w.val⟩ := by
    obtain ⟨h4, h5, h6, c', h7⟩ := w5
    have hk : w.tag.tagKids = [w.val] := by simp [Waypoint.tag, tagKids_tag, h4]
    have hb' : strAttr w.tag "before" = .ok w.before := rfl
    have ha' : strAttr w.tag "after" = .ok w.after := rfl
    have ht' : w.tag.attrs.get "time" = some (.t w.time) := rfl
    have hn : w.tag.name = "waypoint" := rfl
    simp only [Waypoint.fromTag, hn, ne_eq, not_true_eq_false, if_false, ht', AttrV.toTArg, ht, hk, h5, h6,
      h7, hb', ha', w3, w4]
  rw [hread, ← w2]
  rfl

/-- C77: put at `-2f` in a 5 second animation at 24 fps, it is found at frame 119. -/
theorem c77_stays_put_fails :
    let F := double
    let ctx : Ctx := ⟨some exRoot, true⟩
    T.new F ctx.root (.str "-2f".toList) = .ok ⟨-2, some 24⟩ ∧
    (waypoints F ctx (setItem F ctx .real (.str "-2f".toList) (.py (.float 10)) (exReal "2.5")).1).map
      (fun ws => ws.map fun w => w.time.frames) = .ok [119] := by
  decide +kernel

/-! ## C78: `timeline += waypoints` -/

/-- C78 is violated: `value.timeline += waypoints` always raises; if the waypoints can be added it
raises `TypeError` after adding them. -/
theorem c78_iadd_raises (F : Fl) (ctx : Ctx) (c : VCls) (new : List Waypoint) (n : Node) :
    (iaddWaypoints F ctx c new n).2 ≠ .ok () ∧
    (iaddWaypoints F ctx c new n).1 = (addWaypoints F ctx c new true n).1 ∧
    ((addWaypoints F ctx c new true n).2 = .ok () → (iaddWaypoints F ctx c new n).2 = .error .type) := by
  simp only [iaddWaypoints]
  split
  · next e h => rw [h]; simp
  · next h => rw [h]; simp

end Sang
