import Verif.Lemmas.Timeline
import Verif.Props.Composites

/-! # Timelines: properties C32–C43 -/

namespace Sang

open Spec

/-! ## The state of a timeline -/

/-- What a waypoint holds besides its time. -/
def Waypoint.entry (w : Waypoint) : Entry := ⟨w.before, w.after, w.val⟩

/-- The waypoints in `ws` are what `m` says, no more and no less. -/
def Lists (ws : List Waypoint) (m : TMap) : Prop :=
  ∀ q e, m q = some e ↔ ∃ w ∈ ws, w.time.frames = q ∧ w.entry = e

/-- `n` is the element of a value of type `ty`, and what `value.timeline.values()` returns is
described by `m`. No waypoint is before the start of the animation. -/
structure TimelineIs (F : Fl) (ctx : Ctx) (ty : Str) (n : Node) (m : TMap) : Prop where
  tag : n.isTag = true
  type : ourType n = .ok ty
  read : ∃ ws, waypoints F ctx n = .ok ws ∧ (∀ w ∈ ws, 0 ≤ w.time.frames) ∧ Lists ws m

theorem startAnimation_name {n : Node} (h : n.isTag = true) : (startAnimation n).name = "animated" := by
  cases n with
  | text s => simp [Node.isTag] at h
  | tag nm a k =>
    simp only [startAnimation]
    split
    · next h => exact h
    · rfl

theorem startAnimation_tag {n : Node} (h : n.isTag = true) : (startAnimation n).isTag = true := by
  cases n with
  | text s => simp [Node.isTag] at h
  | tag nm a k => simp only [startAnimation]; split <;> rfl

theorem startAnimation_kids (n : Node) : (startAnimation n).kids = n.kids := by
  simp only [startAnimation]
  split
  · rfl
  · cases n <;> rfl

theorem startAnimation_type {n : Node} {ty : Str} (h : n.isTag = true) (hty : ourType n = .ok ty) :
    strAttr (startAnimation n) "type" = .ok ty := by
  cases n with
  | text s => simp [Node.isTag] at h
  | tag nm a k =>
    simp only [startAnimation]
    by_cases hn : (Node.tag nm a k).name = "animated"
    · simp only [ourType, if_pos hn] at hty
      rwa [if_pos hn]
    · simp only [ourType, if_neg hn] at hty
      rw [if_neg hn]
      exact hty

theorem setKids_name (n : Node) (k : List Node) : (n.setKids k).name = n.name := by cases n <;> rfl

theorem setKids_tag (n : Node) (k : List Node) : (n.setKids k).isTag = n.isTag := by cases n <;> rfl

theorem setKids_attrs (n : Node) (k : List Node) : (n.setKids k).attrs = n.attrs := by cases n <;> rfl

theorem setKids_kids {n : Node} (h : n.isTag = true) (k : List Node) : (n.setKids k).kids = k := by
  cases n with
  | text s => simp [Node.isTag] at h
  | tag nm a ks => rfl

theorem setKids_strAttr (n : Node) (k : List Node) (s : String) :
    strAttr (n.setKids k) s = strAttr n s := by simp [strAttr, setKids_attrs]

theorem setKids_ourType (n : Node) (k : List Node) : ourType (n.setKids k) = ourType n := by
  simp [ourType, setKids_name, setKids_strAttr]

theorem ourType_animated {n : Node} (h : n.name = "animated") : ourType n = strAttr n "type" := by
  simp [ourType, h]

theorem waypoints_static (F : Fl) (ctx : Ctx) {n : Node} (h : n.name ≠ "animated") :
    waypoints F ctx n = .ok [] := by simp [waypoints, waypointTags, h]

theorem animated_of_waypoints {F : Fl} {ctx : Ctx} {n : Node} {ws : List Waypoint}
    (h : waypoints F ctx n = .ok ws) (hne : ws ≠ []) : n.name = "animated" := by
  by_contra hn
  rw [waypoints_static F ctx hn] at h
  injection h with h
  exact hne h.symm

theorem waypoints_empty (F : Fl) (ctx : Ctx) {n : Node} (h : n.kids = []) :
    waypoints F ctx n = .ok [] := by
  have : waypointTags n = [] := by
    simp only [waypointTags, Node.tagKids, h]; split <;> rfl
  simp [waypoints, this]

/-- Storing waypoints: they are read back, in order of time. -/
theorem setWaypoints_spec {F : Fl} {ctx : Ctx} {f : Option ℚ} {ty : Str} {n : Node}
    {ws : List Waypoint} (hn : n.isTag = true) (hty : ourType n = .ok ty) (hne : ws ≠ [])
    (hf : AllFps f ws) (ha : Apart ws) (hr : ∀ w ∈ ws, Readable F ctx.root ty w) :
    (setWaypoints F ctx ws n).2 = .ok () ∧ (setWaypoints F ctx ws n).1.isTag = true ∧
    ourType (setWaypoints F ctx ws n).1 = .ok ty ∧
    waypoints F ctx (setWaypoints F ctx ws n).1 = .ok (sortWps ws) := by
  simp only [setWaypoints, if_neg hne, rateClash_same hf, Bool.false_eq_true, if_false]
  have hname := startAnimation_name hn
  have htag := startAnimation_tag hn
  have htype := startAnimation_type hn hty
  refine ⟨trivial, by rw [setKids_tag]; exact htag, ?_, ?_⟩
  · rw [setKids_ourType, ourType_animated hname, htype]
  · refine waypoints_written (f := f) (ty := ty) (by rw [setKids_name, hname])
      (by rw [setKids_strAttr, htype]) ?_ (fun w hw => hr w (mem_sortWps.1 hw))
      (fun w hw => hf w (mem_sortWps.1 hw)) (apart_sortWps ha)
    rw [Node.tagKids, setKids_kids htag, filter_withNewlines]
    intro x hx
    obtain ⟨w, _, rfl⟩ := List.mem_map.1 hx
    rfl

theorem makeWp_time {F : Fl} {ctx : Ctx} {c : VCls} {t : T} {v : SetArg} {w : Waypoint}
    (h : makeWp F ctx c t v = .ok w) : w.time = t := by
  cases v with
  | wp w' => simp only [makeWp] at h; injection h with h; rw [← h]
  | py v =>
    simp only [makeWp] at h
    split at h
    · simp at h
    · simp only [Waypoint.new] at h
      split at h
      · split at h
        · simp at h
        · split at h
          · simp at h
          · split at h
            · simp at h
            · injection h with h
              rw [← h]
      · simp at h

theorem lists_put {ws : List Waypoint} {f : Option ℚ} {w : Waypoint} {m : TMap}
    (hw : w.time.fps = f) (h : AllFps f ws) (ha : Apart ws) (hl : Lists ws m) :
    Lists (putWp w ws) (m.set w.time.frames w.entry) := by
  intro q e
  simp only [TMap.set]
  constructor
  · intro h1
    split at h1
    · next hq =>
      injection h1 with h1
      exact ⟨w, (mem_putWp hw h ha).2 (Or.inl rfl), hq.symm, h1⟩
    · next hq =>
      obtain ⟨x, hx, hxq, hxe⟩ := (hl q e).1 h1
      exact ⟨x, (mem_putWp hw h ha).2 (Or.inr ⟨hx, by rw [hxq]; exact hq⟩), hxq, hxe⟩
  · rintro ⟨x, hx, hxq, hxe⟩
    rcases (mem_putWp hw h ha).1 hx with rfl | ⟨hx, hne⟩
    · rw [if_pos hxq.symm, hxe]
    · rw [if_neg (by rw [← hxq]; exact hne)]
      exact (hl q e).2 ⟨x, hx, hxq, hxe⟩

theorem lists_del {ws ws' : List Waypoint} {q : ℚ} {m : TMap}
    (h : ∀ x, x ∈ ws' ↔ x ∈ ws ∧ x.time.frames ≠ q) (hl : Lists ws m) : Lists ws' (m.erase q) := by
  intro p e
  simp only [TMap.erase]
  constructor
  · intro h1
    split at h1
    · simp at h1
    · next hp =>
      obtain ⟨x, hx, hxq, hxe⟩ := (hl p e).1 h1
      exact ⟨x, (h x).2 ⟨hx, by rw [hxq]; exact hp⟩, hxq, hxe⟩
  · rintro ⟨x, hx, hxq, hxe⟩
    obtain ⟨hx, hne⟩ := (h x).1 hx
    rw [if_neg (by rw [← hxq]; exact hne)]
    exact (hl p e).2 ⟨x, hx, hxq, hxe⟩

theorem lists_sort {ws : List Waypoint} {m : TMap} (hl : Lists ws m) : Lists (sortWps ws) m := by
  intro q e
  rw [hl q e]
  simp only [mem_sortWps]

/-- One assignment. -/
theorem setItem_spec {F : Fl} {ctx : Ctx} {c : VCls} {f : Option ℚ} {ty : Str} {n : Node} {m : TMap}
    (hf : readFps F ctx.root = .ok f) (hn : TimelineIs F ctx ty n m) {t : TimeArg} {τ : T}
    (ht : ensureFps F ctx t = .ok τ) (hτ : τ.fps = f) (h0 : 0 ≤ τ.frames) {v : SetArg} {w : Waypoint}
    (hv : makeWp F ctx c τ v = .ok w) (hb : checkInterp w.before = .ok w.before)
    (ha : checkInterp w.after = .ok w.after) (hl : Legal ty w.val) :
    (setItem F ctx c t v n).2 = .ok () ∧
    TimelineIs F ctx ty (setItem F ctx c t v n).1 (m.set τ.frames w.entry) ∧
    ∃ ws, waypoints F ctx (setItem F ctx c t v n).1 = .ok ws ∧ Ascending ws := by
  obtain ⟨htag, htype, ws, hread, hnn, hlist⟩ := hn
  have hwt := makeWp_time hv
  simp only [setItem, ht, hv]
  set n1 := if n.name = "animated" then n else startAnimation (n.setKids []) with hn1
  have h1 : n1.isTag = true ∧ ourType n1 = .ok ty ∧ waypoints F ctx n1 = .ok ws := by
    rw [hn1]
    split
    · exact ⟨htag, htype, hread⟩
    · next hna =>
      have htag' : (n.setKids []).isTag = true := by rw [setKids_tag]; exact htag
      have hty' : ourType (n.setKids []) = .ok ty := by rw [setKids_ourType]; exact htype
      refine ⟨startAnimation_tag htag', ?_, ?_⟩
      · rw [ourType_animated (startAnimation_name htag')]
        exact startAnimation_type htag' hty'
      · rw [waypoints_static F ctx hna] at hread
        rw [← hread]
        apply waypoints_empty
        rw [startAnimation_kids, setKids_kids htag]
  obtain ⟨g1, g2, g3⟩ := h1
  obtain ⟨i1, i2, i3⟩ := waypoints_inv hf g2 g3
  simp only [g3, zeroClash_same hτ i1, Bool.false_eq_true, if_false]
  have hwf : w.time.fps = f := by rw [hwt]; exact hτ
  have hread' : ∀ x ∈ putWp w ws, Readable F ctx.root ty x := by
    intro x hx
    rcases (mem_putWp hwf i1 i2).1 hx with rfl | ⟨hx, _⟩
    · exact ⟨new_t_nonneg hf hwf (by rw [hwt]; exact h0), hb, ha, hl⟩
    · exact ⟨new_t_nonneg hf (i1 x hx) (hnn x hx), i3 x hx⟩
  obtain ⟨s1, s2, s3, s4⟩ := setWaypoints_spec (f := f) g1 g2 (putWp_ne_nil w ws) (allFps_putWp hwf i1)
    (apart_putWp hwf i1 i2) hread'
  refine ⟨s1, ⟨s2, s3, _, s4, ?_, ?_⟩, _, s4, ascending_sortWps (apart_putWp hwf i1 i2)⟩
  · intro x hx
    rcases (mem_putWp hwf i1 i2).1 (mem_sortWps.1 hx) with rfl | ⟨hx, _⟩
    · rw [hwt]; exact h0
    · exact hnn x hx
  · rw [← hwt]
    exact lists_sort (lists_put hwf i1 i2 hlist)

/-- The timeline of a value that isn't animated. -/
theorem timelineIs_static {F : Fl} {ctx : Ctx} {ty : Str} {v : Node} (h : Legal ty v) :
    TimelineIs F ctx ty v TMap.empty := by
  obtain ⟨h1, h2, h3, _⟩ := h
  refine ⟨h1, by simp [ourType, h2, h3], [], waypoints_static F ctx h2, by simp, ?_⟩
  intro q e; simp [TMap.empty]

theorem delKey_time {F : Fl} {ctx : Ctx} {t : TimeArg} {τ : T} (h : ensureFps F ctx t = .ok τ) :
    delKey F ctx t = .ok (some τ) := by
  cases t with
  | other => simp [ensureFps] at h
  | num q => simp only [delKey, h]
  | str s => simp only [delKey, h]
  | t v => simp only [delKey, h]

/-- Deleting what isn't there. -/
theorem delItem_absent {F : Fl} {ctx : Ctx} {f : Option ℚ} {ty : Str} {n : Node} {m : TMap}
    (hf : readFps F ctx.root = .ok f) (hn : TimelineIs F ctx ty n m) {t : TimeArg} {τ : T}
    (ht : ensureFps F ctx t = .ok τ) (hτ : τ.fps = f) (hm : m τ.frames = none) :
    delItem F ctx t n = (n, .error .key) := by
  obtain ⟨htag, htype, ws, hread, hnn, hlist⟩ := hn
  obtain ⟨i1, i2, i3⟩ := waypoints_inv hf htype hread
  simp only [delItem, delKey_time ht, hread, zeroClash_same hτ i1, Bool.false_eq_true, if_false]
  rw [delWp_absent hτ i1]
  intro w hw e
  have := (hlist τ.frames w.entry).2 ⟨w, hw, e, rfl⟩
  rw [hm] at this; simp at this

/-- Deleting one of several. -/
theorem delItem_present {F : Fl} {ctx : Ctx} {f : Option ℚ} {ty : Str} {n : Node} {m : TMap}
    (hf : readFps F ctx.root = .ok f) (hp : ctx.hasParent = true) (hn : TimelineIs F ctx ty n m)
    {t : TimeArg} {τ : T} (ht : ensureFps F ctx t = .ok τ) (hτ : τ.fps = f) {e : Entry}
    (hm : m τ.frames = some e) :
    (delItem F ctx t n).2 = .ok () ∧
    TimelineIs F ctx ty (delItem F ctx t n).1 (m.erase τ.frames) ∧
    (∃ ws, waypoints F ctx (delItem F ctx t n).1 = .ok ws ∧ Ascending ws) ∧
    ((∀ q ≠ τ.frames, m q = none) → (delItem F ctx t n).1 = e.value ∧ e.value.name ≠ "animated") := by
  obtain ⟨htag, htype, ws, hread, hnn, hlist⟩ := hn
  obtain ⟨i1, i2, i3⟩ := waypoints_inv hf htype hread
  obtain ⟨w, hw, hwq, hwe⟩ := (hlist τ.frames e).1 hm
  obtain ⟨ws', d1, d2, d3, d4⟩ := delWp_ok hτ i1 i2 ⟨w, hw, hwq⟩
  simp only [delItem, delKey_time ht, hread, zeroClash_same hτ i1, Bool.false_eq_true, if_false, d1]
  by_cases hne : ws' = []
  · -- it was the only one
    have hane : ws ≠ [] := by rintro rfl; simp at hw
    have hanim := animated_of_waypoints hread hane
    have honly : ∀ x ∈ ws, x.time.frames = τ.frames := by
      intro x hx
      by_contra hxe
      have := (d4 x).2 ⟨hx, hxe⟩
      rw [hne] at this; simp at this
    obtain ⟨x, r, rfl⟩ : ∃ x r, ws = x :: r := by
      cases ws with
      | nil => exact absurd rfl hane
      | cons x r => exact ⟨x, r, rfl⟩
    have hxe : x.entry = e := by
      have := (hlist τ.frames x.entry).2 ⟨x, by simp, honly x (by simp), rfl⟩
      rw [hm] at this; injection this with this; exact this.symm
    have hun : setWaypoints F ctx ws' n = (x.val, .ok ()) := by
      simp only [setWaypoints, hne, if_true, unAnimate, hanim, ne_eq, not_true_eq_false, if_false,
        hread, hp]
    have hlegal := (i3 x (by simp)).2.2
    rw [hun]
    have hts := timelineIs_static (F := F) (ctx := ctx) hlegal
    have hmap : m.erase τ.frames = TMap.empty := by
      funext q
      simp only [TMap.erase, TMap.empty]
      split
      · rfl
      · next hq =>
        cases hmq : m q with
        | none => rfl
        | some e' =>
          obtain ⟨y, hy, hyq, _⟩ := (hlist q e').1 hmq
          exact absurd (hyq.symm.trans (honly y hy)) hq
    refine ⟨rfl, by rw [hmap]; exact hts, ⟨[], waypoints_static F ctx hlegal.2.1, by simp [Ascending]⟩, ?_⟩
    intro _
    rw [← hxe]
    exact ⟨rfl, hlegal.2.1⟩
  · have hread' : ∀ x ∈ ws', Readable F ctx.root ty x := by
      intro x hx
      have hx' := ((d4 x).1 hx).1
      exact ⟨new_t_nonneg hf (i1 x hx') (hnn x hx'), i3 x hx'⟩
    obtain ⟨s1, s2, s3, s4⟩ := setWaypoints_spec (f := f) htag htype hne d2 d3 hread'
    refine ⟨s1, ⟨s2, s3, _, s4, ?_, lists_sort (lists_del d4 hlist)⟩,
      ⟨_, s4, ascending_sortWps d3⟩, ?_⟩
    · intro x hx
      exact hnn x ((d4 x).1 (mem_sortWps.1 hx)).1
    · intro hall
      exfalso
      obtain ⟨x, hx⟩ := List.exists_mem_of_ne_nil ws' hne
      obtain ⟨hx1, hx2⟩ := (d4 x).1 hx
      have := (hlist x.time.frames x.entry).2 ⟨x, hx1, rfl, rfl⟩
      rw [hall _ hx2] at this; simp at this

/-! ## C32, C33: histories -/

/-- A change to a timeline: `timeline[t] = v` or `del timeline[t]`. -/
inductive TimelineOp where
  | set (t : TimeArg) (v : SetArg)
  | del (t : TimeArg)

/-- The model of the change. -/
def TimelineOp.run (F : Fl) (ctx : Ctx) (c : VCls) (n : Node) : TimelineOp → Node × Res Unit
  | .set t v => setItem F ctx c t v n
  | .del t => delItem F ctx t n

/-- A history of changes: the final element. Exceptions don't stop it. -/
def runAll (F : Fl) (ctx : Ctx) (c : VCls) (n : Node) : List TimelineOp → Node
  | [] => n
  | o :: r => runAll F ctx c (o.run F ctx c n).1 r

/-- A history of changes: how each one ended. -/
def outcomesAll (F : Fl) (ctx : Ctx) (c : VCls) (n : Node) : List TimelineOp → List (Res Unit)
  | [] => []
  | o :: r => (o.run F ctx c n).2 :: outcomesAll F ctx c (o.run F ctx c n).1 r

/-- `t` denotes the time `q` (in frames), at or after the start, on the timelines of an animation:
as a number, as text, as a `T` without a rate, or as a `T` with this animation's rate. -/
inductive Denotes (F : Fl) (ctx : Ctx) : TimeArg → ℚ → Prop
  | num {x q f} : T.new F ctx.root (.num x) = .ok ⟨q, f⟩ → 0 ≤ q → Denotes F ctx (.num x) q
  | str {s q f} : T.new F ctx.root (.str s) = .ok ⟨q, f⟩ → 0 ≤ q → Denotes F ctx (.str s) q
  | noFps {x q f} : T.new F ctx.root (.num x) = .ok ⟨q, f⟩ → 0 ≤ q → Denotes F ctx (.t ⟨x, none⟩) q
  | withFps {q r} : readFps F ctx.root = .ok (some r) → 0 ≤ q → Denotes F ctx (.t ⟨q, some r⟩) q

theorem denotes_spec {F : Fl} {ctx : Ctx} {f : Option ℚ} (hf : readFps F ctx.root = .ok f)
    {t : TimeArg} {q : ℚ} (h : Denotes F ctx t q) : ensureFps F ctx t = .ok ⟨q, f⟩ ∧ 0 ≤ q := by
  cases h with
  | num h h0 => have := new_fps hf h; simp only at this; subst this; exact ⟨h, h0⟩
  | str h h0 => have := new_fps hf h; simp only at this; subst this; exact ⟨h, h0⟩
  | noFps h h0 => have := new_fps hf h; simp only at this; subst this; exact ⟨h, h0⟩
  | withFps h h0 => rw [h] at hf; injection hf with hf; subst hf; exact ⟨rfl, h0⟩

/-- A legal name of an interpolation, as stored. -/
def LegalInterp (s : Str) : Prop := s ∈ interpolations.map fun p => p.1.toList

theorem legalInterp_iff {s : Str} : LegalInterp s ↔ checkInterp s = .ok s := by
  constructor
  · intro h
    obtain ⟨p, hp, rfl⟩ := List.mem_map.1 h
    have key : ∀ p ∈ interpolations, checkInterp p.1.toList = .ok p.1.toList := by decide +kernel
    exact key p hp
  · intro h
    simp only [checkInterp] at h
    split at h
    · simp at h
    · next hu =>
      split at h
      · next hc =>
        rw [List.contains_iff_mem] at hc
        simp only [interpolationTypes, List.map_cons, List.map_nil, List.mem_cons, List.not_mem_nil,
          or_false] at hc
        simp only [LegalInterp, interpolations, List.map_cons, List.map_nil, List.mem_cons,
          List.not_mem_nil, or_false]
        tauto
      · split at h
        · next u hu' =>
          injection h with h; subst h
          obtain ⟨l1, l2, hl, _⟩ := List.lookup_eq_some_iff.1 hu'
          have hm : (u, u) ∈ interpolationSynonyms.map fun p => (p.1.toList, p.2.toList) := by
            rw [hl]; simp
          obtain ⟨p, hp, hpe⟩ := List.mem_map.1 hm
          have key : ∀ p ∈ interpolationSynonyms,
              p.2.toList ∈ interpolations.map fun p => p.1.toList := by decide +kernel
          injection hpe with _ hpe
          rw [LegalInterp, ← hpe]; exact key p hp
        · simp at h

/-- `v` denotes the entry `e`, when assigned to a subscript of a timeline of type `ty` and class
`c`: a waypoint, a value object of the same class, or a Python value that the class accepts. -/
inductive Puts (F : Fl) (c : VCls) (ty : Str) : SetArg → Entry → Prop
  | waypoint {w : Waypoint} : LegalInterp w.before → LegalInterp w.after → Legal ty w.val →
      Puts F c ty (.wp w) ⟨w.before, w.after, w.val⟩
  | object {root : Option Attrs} {v : Node} : Legal ty v →
      Puts F c ty (.py (.val c root v)) ⟨"clamped".toList, "clamped".toList, v⟩
  | python {p : PV} {v : Node} : (∀ c' root n, p ≠ .val c' root n) → newValue F c p = .ok v →
      Legal ty v → Puts F c ty (.py p) ⟨"clamped".toList, "clamped".toList, v⟩

theorem new_static {F : Fl} {root root' : Option Attrs} {c : VCls} {t : T} {v : Node}
    (h : v.name ≠ "animated") : Waypoint.new F root (.t t) (.val c root' v) "clamped".toList
      "clamped".toList = .ok ⟨t, "clamped".toList, "clamped".toList, v⟩ := by
  have hc : checkInterp "clamped".toList = .ok "clamped".toList := by decide +kernel
  simp only [Waypoint.new, if_neg h, hc]

theorem puts_spec {F : Fl} {ctx : Ctx} {c : VCls} {ty : Str} {v : SetArg} {e : Entry}
    (h : Puts F c ty v e) (t : T) : ∃ w, makeWp F ctx c t v = .ok w ∧ w.entry = e ∧
      checkInterp w.before = .ok w.before ∧ checkInterp w.after = .ok w.after ∧ Legal ty w.val := by
  have hc : checkInterp "clamped".toList = .ok "clamped".toList := by decide +kernel
  cases h with
  | waypoint h1 h2 h3 =>
    exact ⟨_, rfl, rfl, legalInterp_iff.1 h1, legalInterp_iff.1 h2, h3⟩
  | object h =>
    refine ⟨⟨t, "clamped".toList, "clamped".toList, _⟩, ?_, rfl, hc, hc, h⟩
    simp only [makeWp, if_true]
    exact new_static h.2.1
  | @python p v h1 h2 h3 =>
    refine ⟨⟨t, "clamped".toList, "clamped".toList, v⟩, ?_, rfl, hc, hc, h3⟩
    have : makeWp F ctx c t (.py p) =
        Waypoint.new F ctx.root (.t t) (.val c none v) "clamped".toList "clamped".toList := by
      cases p with
      | val c' r n => exact absurd rfl (h1 c' r n)
      | _ => simp only [makeWp, h2]
    rw [this]
    exact new_static h3.2.1

/-- The change to the timeline `o` denotes the change to a map `a`. -/
inductive Means (F : Fl) (ctx : Ctx) (c : VCls) (ty : Str) : TimelineOp → MapOp → Prop
  | set {t q v e} : Denotes F ctx t q → Puts F c ty v e → Means F ctx c ty (.set t v) (.set q e)
  | del {t q} : Denotes F ctx t q → Means F ctx c ty (.del t) (.del q)

theorem run_spec {F : Fl} {ctx : Ctx} {c : VCls} {f : Option ℚ} {ty : Str} {n : Node} {m : TMap}
    (hf : readFps F ctx.root = .ok f) (hp : ctx.hasParent = true) (hn : TimelineIs F ctx ty n m)
    {o : TimelineOp} {a : MapOp} (h : Means F ctx c ty o a) :
    (o.run F ctx c n).2 = a.outcome m ∧ TimelineIs F ctx ty (o.run F ctx c n).1 (a.apply m) ∧
    (a.outcome m = .ok () → ∃ ws, waypoints F ctx (o.run F ctx c n).1 = .ok ws ∧ Ascending ws) ∧
    (a.outcome m ≠ .ok () → (o.run F ctx c n).1 = n) := by
  cases h with
  | @set t q v e ht hv =>
    obtain ⟨h1, h2⟩ := denotes_spec hf ht
    obtain ⟨w, w1, w2, w3, w4, w5⟩ := puts_spec (ctx := ctx) hv ⟨q, f⟩
    obtain ⟨s1, s2, s3⟩ := setItem_spec hf hn h1 rfl h2 w1 w3 w4 w5
    refine ⟨s1, ?_, fun _ => s3, fun h => absurd rfl h⟩
    rw [← w2]; exact s2
  | @del t q ht =>
    obtain ⟨h1, h2⟩ := denotes_spec hf ht
    simp only [TimelineOp.run, MapOp.outcome, MapOp.apply]
    cases hm : m q with
    | none =>
      have := delItem_absent hf hn h1 rfl hm
      rw [this]
      refine ⟨rfl, ?_, fun h => by simp at h, fun _ => rfl⟩
      have he : m.erase q = m := by
        funext x
        simp only [TMap.erase]
        split
        · next hx => rw [hx, hm]
        · rfl
      rw [he]; exact hn
    | some e =>
      obtain ⟨d1, d2, d3, _⟩ := delItem_present hf hp hn h1 rfl hm
      exact ⟨d1, d2, fun _ => d3, fun h => absurd rfl h⟩

/-- C32. Any history of `timeline[t] = v` and `del timeline[t]`, on a value in a document: each one
succeeds or raises as it would on a finite map, and the timeline ends up as the map does. Waypoints
at other times keep their value and interpolations; this includes histories that delete the last
waypoint and start again. -/
theorem c32_timeline_is_a_map {F : Fl} {ctx : Ctx} {c : VCls} {f : Option ℚ} {ty : Str} {n : Node}
    {m : TMap} (hf : readFps F ctx.root = .ok f) (hp : ctx.hasParent = true)
    (hn : TimelineIs F ctx ty n m) {ops : List TimelineOp} {as : List MapOp}
    (h : List.Forall₂ (Means F ctx c ty) ops as) :
    outcomesAll F ctx c n ops = outcomes m as ∧
    TimelineIs F ctx ty (runAll F ctx c n ops) (applyAll m as) := by
  induction h generalizing n m with
  | nil => exact ⟨rfl, hn⟩
  | cons ho _ ih =>
    obtain ⟨h1, h2, _⟩ := run_spec hf hp hn ho
    obtain ⟨g1, g2⟩ := ih h2
    exact ⟨by simp only [outcomesAll, outcomes, h1, g1], g2⟩

/-- C33. After any history of such changes at least one of which succeeded, or on a timeline which
was so to begin with, the waypoints are in strictly increasing order of time. -/
theorem c33_sorted {F : Fl} {ctx : Ctx} {c : VCls} {f : Option ℚ} {ty : Str} {n : Node}
    {m : TMap} (hf : readFps F ctx.root = .ok f) (hp : ctx.hasParent = true)
    (hn : TimelineIs F ctx ty n m) {ops : List TimelineOp} {as : List MapOp}
    (h : List.Forall₂ (Means F ctx c ty) ops as)
    (hs : (∃ ws, waypoints F ctx n = .ok ws ∧ Ascending ws) ∨
      .ok () ∈ outcomesAll F ctx c n ops) :
    ∃ ws, waypoints F ctx (runAll F ctx c n ops) = .ok ws ∧
      ws.Pairwise fun a b => a.time.frames < b.time.frames := by
  induction h generalizing n m with
  | nil =>
    rcases hs with hs | hs
    · exact hs
    · simp [outcomesAll] at hs
  | @cons o a _ _ ho _ ih =>
    obtain ⟨h1, h2, h3, h4⟩ := run_spec hf hp hn ho
    apply ih h2
    by_cases hok : a.outcome m = .ok ()
    · exact Or.inl (h3 hok)
    · have hsame := h4 hok
      rcases hs with hs | hs
      · left; rw [hsame]; exact hs
      · right
        simp only [outcomesAll, List.mem_cons, h1] at hs
        rcases hs with hs | hs
        · exact absurd hs.symm hok
        · exact hs

/-! ### What may be assigned -/

theorem legal_simple {name : String} {c : VCls} {a : Attrs} {ks : List Node} (h : name ≠ "animated")
    (hr : valueRegistry.fromName name.toList = .ok c) (hv : c ≠ .vector) (hc : c ≠ .composite) :
    Legal name.toList (.tag name a ks) :=
  ⟨rfl, h, rfl, c, fromTag_simple h hr hv hc⟩

theorem construct_ok {c : VCls} {set : Node → Node × Res Unit} {v : Node}
    (h : construct c set = .ok v) :
    set (emptyTag c) = (v, .ok ()) := by
  simp only [construct] at h
  split at h
  · simp at h
  · next h2 => injection h with h; rw [← h, ← h2]

theorem setSimple_form {F : Fl} {name : String} {dflt : Str} {conv : PV → Res Str} {p : PV}
    {s : String} {a : Attrs} {k : List Node} {v : Node}
    (h : setSimple F name dflt conv p (.tag s a k) = (v, .ok ())) :
    ∃ t, v = .tag name [("value", .str t)] [] := by
  simp only [setSimple] at h
  split at h
  · simp at h
  · split at h
    · simp at h
    · next t _ => exact ⟨t, by injection h with h; rw [← h]; rfl⟩

theorem appendStops_attrs (F : Fl) (l : List (ℚ × PV)) (nm : String) (a : Attrs) (ks : List Node) :
    ∃ ks', (appendStops F l (.tag nm a ks)).1 = .tag nm a ks' := by
  induction l generalizing ks with
  | nil => exact ⟨ks, rfl⟩
  | cons p r ih =>
    obtain ⟨q, x⟩ := p
    simp only [appendStops]
    split
    · exact ⟨ks, rfl⟩
    · exact ih _

/-- Whatever `C(v)` makes, for these classes, may be in a waypoint. -/
theorem newValue_legal {F : Fl} {c : VCls} {p : PV} {v : Node} (h : newValue F c p = .ok v)
    (hc : c ∈ [VCls.real, .integer, .bool, .angle, .time, .string, .color, .gradient]) :
    Legal (emptyTag c).name.toList v := by
  have h' := construct_ok h
  simp only [List.mem_cons, List.not_mem_nil, or_false] at hc
  rcases hc with rfl | rfl | rfl | rfl | rfl | rfl | rfl | rfl
  · obtain ⟨t, rfl⟩ := setSimple_form h'
    exact legal_simple (c := .real) (by decide) (by decide) (by decide) (by decide)
  · obtain ⟨t, rfl⟩ := setSimple_form h'
    exact legal_simple (c := .integer) (by decide) (by decide) (by decide) (by decide)
  · obtain ⟨t, rfl⟩ := setSimple_form h'
    exact legal_simple (c := .bool) (by decide) (by decide) (by decide) (by decide)
  · obtain ⟨t, rfl⟩ := setSimple_form h'
    exact legal_simple (c := .angle) (by decide) (by decide) (by decide) (by decide)
  · obtain ⟨t, rfl⟩ := setSimple_form h'
    exact legal_simple (c := .time) (by decide) (by decide) (by decide) (by decide)
  · simp only [setValue, emptyTag, Node.new] at h'
    split at h'
    · simp at h'
    · injection h' with h' _
      subst h'
      exact legal_simple (c := .string) (by decide) (by decide) (by decide) (by decide)
  · obtain ⟨r, g, b, a, rfl⟩ := newColor_form h
    exact legal_simple (c := .color) (by decide) (by decide) (by decide) (by decide)
  · simp only [setValue, setGradient, emptyTag, Node.new] at h'
    split at h'
    · simp at h'
    · split at h'
      · simp at h'
      · next l _ _ =>
        obtain ⟨ks', hk⟩ := appendStops_attrs F (sortStops l) "gradient" [] []
        have : v = .tag "gradient" [] ks' := by
          rw [← hk]
          exact (congrArg Prod.fst h').symm
        subst this
        exact legal_simple (c := .gradient) (by decide) (by decide) (by decide) (by decide)

/-- A vector made from two numbers may be in a waypoint. -/
theorem newVector_legal (F : Fl) (x y : ℚ) :
    newValue F .vector (.tuple [.float x, .float y]) = .ok (vecNode x y) ∧
    Legal "vector".toList (vecNode x y) :=
  ⟨rfl, rfl, (by decide : "vector" ≠ "animated"), rfl, _, fromTag_vec x y⟩

/-- The element of a real with this text. -/
def exReal (s : String) : Node := .tag "real" [("value", .str s.toList)] []

theorem exReal_legal (s : String) : Legal "real".toList (exReal s) :=
  legal_simple (c := .real) (by decide) (by decide) (by decide) (by decide)

/-- An entry with this real. -/
def exEntry (s : String) : Entry := ⟨"clamped".toList, "clamped".toList, exReal s⟩

/-- C32 and C33 apply: on a static real in a 24 fps document, the history "set 10 at 2s, set 5 at
frame 0, delete 1s (raises KeyError), delete 48, delete 0f, set 7 at 3" denotes a history of a map. -/
example :
    let F := double
    let ctx : Ctx := ⟨some exRoot, true⟩
    let ops : List TimelineOp :=
      [.set (.str "2s".toList) (.py (.float 10)), .set (.num 0) (.py (.int 5)), .del (.str "1s".toList),
       .del (.t ⟨48, some 24⟩), .del (.str "0f".toList), .set (.t ⟨3, none⟩) (.py (.str "7".toList))]
    TimelineIs F ctx "real".toList (exReal "2.5") TMap.empty ∧
    List.Forall₂ (Means F ctx .real "real".toList) ops
      [.set 48 (exEntry "10.0000000000"), .set 0 (exEntry "5.0000000000"), .del 24, .del 48, .del 0,
       .set 3 (exEntry "7.0000000000")] ∧
    outcomesAll F ctx .real (exReal "2.5") ops =
      [.ok (), .ok (), .error .key, .ok (), .ok (), .ok ()] := by
  refine ⟨timelineIs_static (exReal_legal _), ?_, by decide +kernel⟩
  refine .cons (.set (.str (f := some 24) (by decide +kernel) (by norm_num)) (.python (by simp) (by decide +kernel) (exReal_legal _))) ?_
  refine .cons (.set (.num (f := some 24) (by decide +kernel) (by norm_num)) (.python (by simp) (by decide +kernel) (exReal_legal _))) ?_
  refine .cons (.del (.str (f := some 24) (by decide +kernel) (by norm_num))) ?_
  refine .cons (.del (.withFps (by decide +kernel) (by norm_num))) ?_
  refine .cons (.del (.str (f := some 24) (by decide +kernel) (by norm_num))) ?_
  exact .cons (.set (.noFps (f := some 24) (by decide +kernel) (by norm_num)) (.python (by simp) (by decide +kernel) (exReal_legal _))) .nil

end Sang
