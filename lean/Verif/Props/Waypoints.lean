import Verif.Props.Timeline

/-! # Reading, deleting, adding, assigning: properties C34–C38, C40–C42 -/

namespace Sang

open Spec

/-! ## C34: reading back -/

/-- `k`, as a subscript to read, denotes the time `q` on timelines with rate `f`: a number, a `T`
without a rate, or a `T` with that rate. -/
inductive Asks (f : Option ℚ) : TOther → ℚ → Prop
  | num {q} : Asks f (.num q) q
  | noFps {q} : Asks f (.t ⟨q, none⟩) q
  | withFps {q} : Asks f (.t ⟨q, f⟩) q

theorem compare_asks {f : Option ℚ} {k : TOther} {q : ℚ} (hk : Asks f k q) {t : T} (ht : t.fps = f)
    (op : ℚ → ℚ → Bool) : t.compare k op = .ok (op t.frames q) := by
  cases hk with
  | num => rfl
  | noFps => simp only [T.compare]
  | withFps => subst ht; simp only [T.compare]; cases t.fps <;> simp

theorem eq_asks {f : Option ℚ} {k : TOther} {q : ℚ} (hk : Asks f k q) {t : T} (ht : t.fps = f) :
    t.eq k = .ok (decide (t.frames = q)) := compare_asks hk ht _

theorem gt_asks {f : Option ℚ} {k : TOther} {q : ℚ} (hk : Asks f k q) {t : T} (ht : t.fps = f) :
    t.gt k = .ok (decide (q < t.frames)) := by
  have h1 : t.lt k = .ok (decide (t.frames < q)) := compare_asks hk ht _
  simp only [T.gt, h1]
  by_cases h : t.frames < q
  · simp [h, not_lt.2 h.le]
  · simp only [h, decide_false, eq_asks hk ht]
    rcases eq_or_lt_of_le (not_lt.1 h) with h' | h'
    · simp [h']
    · simp [h', h'.ne']

theorem seekWp_found {f : Option ℚ} {k : TOther} {q : ℚ} (hk : Asks f k q) {ws : List Waypoint}
    (hf : AllFps f ws) (ha : Ascending ws) {w : Waypoint} (hw : w ∈ ws) (hq : w.time.frames = q) :
    seekWp k ws = .ok w := by
  induction ws with
  | nil => simp at hw
  | cons x r ih =>
    have ha' := List.pairwise_cons.1 ha
    simp only [seekWp, eq_asks hk (hf x (by simp))]
    rcases List.mem_cons.1 hw with rfl | hw'
    · simp [hq]
    · have hlt := ha'.1 w hw'
      rw [hq] at hlt
      simp only [hlt.ne, decide_false, gt_asks hk (hf x (by simp)), not_lt.2 hlt.le]
      exact ih (fun y hy => hf y (by simp [hy])) ha'.2 hw'

theorem seekWp_absent {f : Option ℚ} {k : TOther} {q : ℚ} (hk : Asks f k q) {ws : List Waypoint}
    (hf : AllFps f ws) (hno : ∀ w ∈ ws, w.time.frames ≠ q) :
    seekWp k ws = .error .key := by
  induction ws with
  | nil => rfl
  | cons x r ih =>
    simp only [seekWp, eq_asks hk (hf x (by simp)), hno x (by simp), decide_false,
      gt_asks hk (hf x (by simp))]
    by_cases h : q < x.time.frames
    · simp [h]
    · simp only [h, decide_false]
      exact ih (fun y hy => hf y (by simp [hy])) fun y hy => hno y (by simp [hy])

/-- The text `x_y` isn't in the element (see C76). -/
def NoXY (F : Fl) (n : Node) : Prop := isInfix "x_y".toList (n.serial F) = false

/-- Reading a sorted timeline: what the map says. -/
theorem getItem_spec {F : Fl} {ctx : Ctx} {f : Option ℚ} {ty : Str} {n : Node} {m : TMap}
    (hf : readFps F ctx.root = .ok f) (hn : TimelineIs F ctx ty n m)
    (hs : ∃ ws, waypoints F ctx n = .ok ws ∧ Ascending ws) (hxy : NoXY F n)
    {k : TOther} {q : ℚ} (hk : Asks f k q) :
    getItem F ctx k n = match m q with
      | some e => .ok ⟨⟨q, f⟩, e.before, e.after, e.value⟩
      | none => .error .key := by
  obtain ⟨_, htype, ws, hread, hnn, hlist⟩ := hn
  obtain ⟨i1, i2, i3⟩ := waypoints_inv hf htype hread
  obtain ⟨ws', hread', hasc⟩ := hs
  rw [hread] at hread'; injection hread' with e; subst e
  have hxy' : isInfix "x_y".toList (n.serial F) = false := hxy
  simp only [getItem, hxy', Bool.false_eq_true, if_false, hread]
  cases hm : m q with
  | none =>
    refine seekWp_absent hk i1 fun w hw e => ?_
    have := (hlist q w.entry).2 ⟨w, hw, e, rfl⟩
    rw [hm] at this; simp at this
  | some e =>
    obtain ⟨w, hw, hwq, hwe⟩ := (hlist q e).1 hm
    rw [seekWp_found hk i1 hasc hw hwq]
    have hwf := i1 w hw
    obtain ⟨⟨wq, wf⟩, b, a, v⟩ := w
    simp only at hwq hwf
    subst hwq hwf
    rw [← hwe]
    rfl

/-- C34. After any history of changes ending with a successful one, `timeline[k]` is what was last
assigned at that time: its value and interpolations; and `KeyError` if there is nothing at that
time, for instance because it was deleted. -/
theorem c34_read_back_partial {F : Fl} {ctx : Ctx} {c : VCls} {f : Option ℚ} {ty : Str} {n : Node} {m : TMap}
    (hf : readFps F ctx.root = .ok f) (hp : ctx.hasParent = true) (hn : TimelineIs F ctx ty n m)
    {ops : List TimelineOp} {as : List MapOp} (h : List.Forall₂ (Means F ctx c ty) ops as)
    (hs : .ok () ∈ outcomesAll F ctx c n ops) (hxy : NoXY F (runAll F ctx c n ops))
    {k : TOther} {q : ℚ} (hk : Asks f k q) :
    getItem F ctx k (runAll F ctx c n ops) = match applyAll m as q with
      | some e => .ok ⟨⟨q, f⟩, e.before, e.after, e.value⟩
      | none => .error .key :=
  getItem_spec hf (c32_timeline_is_a_map hf hp hn h).2 (c33_sorted hf hp hn h (Or.inr hs)) hxy hk

/-- C34, the one-step case: what was just assigned is what is read; what was just deleted isn't
there. -/
theorem c34_set_then_read_partial {F : Fl} {ctx : Ctx} {c : VCls} {f : Option ℚ} {ty : Str} {n : Node} {m : TMap}
    (hf : readFps F ctx.root = .ok f) (hn : TimelineIs F ctx ty n m)
    {t : TimeArg} {q : ℚ} (ht : Denotes F ctx t q) {v : SetArg} {e : Entry} (hv : Puts F c ty v e)
    (hxy : NoXY F (setItem F ctx c t v n).1) {k : TOther} (hk : Asks f k q) :
    getItem F ctx k (setItem F ctx c t v n).1 = .ok ⟨⟨q, f⟩, e.before, e.after, e.value⟩ := by
  obtain ⟨h1, h2⟩ := denotes_spec hf ht
  obtain ⟨w, w1, w2, w3, w4, w5⟩ := puts_spec (ctx := ctx) hv ⟨q, f⟩
  obtain ⟨s1, s2, s3⟩ := setItem_spec hf hn h1 rfl h2 w1 w3 w4 w5
  rw [getItem_spec hf s2 s3 hxy hk]
  simp [TMap.set, w2]

/-- C34. Text as a subscript to read never finds anything. -/
theorem c34_text_never_found (F : Fl) (ctx : Ctx) (n : Node) (w : Waypoint) :
    getItem F ctx .other n ≠ .ok w := by
  simp only [getItem]
  split
  · simp
  · split
    · simp
    · next ws _ =>
      cases ws with
      | nil => simp [seekWp]
      | cons x r => simp [seekWp, T.eq, T.gt, T.lt, T.compare]

/-- C34 applies: after setting 10 at 2s, subscript 48 reads it and subscript 47 is a KeyError. -/
example :
    let F := double
    let ctx : Ctx := ⟨some exRoot, true⟩
    let n := (setItem F ctx .real (.str "2s".toList) (.py (.float 10)) (exReal "2.5")).1
    NoXY F n ∧ getItem F ctx (.num 48) n = .ok ⟨⟨48, some 24⟩, "clamped".toList, "clamped".toList,
      exReal "10.0000000000"⟩ ∧ getItem F ctx (.num 47) n = .error .key := by
  unfold NoXY
  decide +kernel

/-! ## C35, C36: deleting -/

/-- C35. Deleting the only waypoint of a value in a document: the value isn't animated any more,
and is the deleted waypoint's value. -/
theorem c35_delete_last {F : Fl} {ctx : Ctx} {f : Option ℚ} {ty : Str} {n : Node} {m : TMap}
    (hf : readFps F ctx.root = .ok f) (hp : ctx.hasParent = true) (hn : TimelineIs F ctx ty n m)
    {t : TimeArg} {q : ℚ} (ht : Denotes F ctx t q) {e : Entry} (hm : m q = some e)
    (honly : ∀ q' ≠ q, m q' = none) :
    delItem F ctx t n = (e.value, .ok ()) ∧ e.value.name ≠ "animated" := by
  obtain ⟨h1, h2⟩ := denotes_spec hf ht
  obtain ⟨d1, d2, d3, d4⟩ := delItem_present hf hp hn h1 rfl hm
  obtain ⟨g1, g2⟩ := d4 honly
  exact ⟨Prod.ext g1 d1, g2⟩

/-- C36. Deleting at a time where there is no waypoint raises `KeyError` and changes nothing. -/
theorem c36_delete_absent {F : Fl} {ctx : Ctx} {f : Option ℚ} {ty : Str} {n : Node} {m : TMap}
    (hf : readFps F ctx.root = .ok f) (hn : TimelineIs F ctx ty n m)
    {t : TimeArg} {q : ℚ} (ht : Denotes F ctx t q) (hm : m q = none) :
    delItem F ctx t n = (n, .error .key) := by
  obtain ⟨h1, h2⟩ := denotes_spec hf ht
  exact delItem_absent hf hn h1 rfl hm

/-- C36. Deleting with something that isn't a time, number or text raises `KeyError` as well. -/
theorem c36_delete_other {F : Fl} {ctx : Ctx} {ty : Str} {n : Node} {m : TMap}
    (hn : TimelineIs F ctx ty n m) : delItem F ctx .other n = (n, .error .key) := by
  obtain ⟨-, -, ws, hread, -, -⟩ := hn
  simp only [delItem, delKey, hread]

/-- An animated real with waypoints at frames 0 and 48, as if just loaded. -/
def exTimeline : Node :=
  .tag "animated" [("type", .str "real".toList)]
    [.text ['\n'],
     .tag "waypoint" [("time", .str "0s".toList), ("before", .str "clamped".toList),
       ("after", .str "linear".toList)] [.text ['\n'], exReal "5.0", .text ['\n']],
     .text ['\n'],
     .tag "waypoint" [("time", .str "2s".toList), ("before", .str "auto".toList),
       ("after", .str "clamped".toList)] [.text ['\n'], exReal "10.0", .text ['\n']],
     .text ['\n']]

/-- The map of `exTimeline`. -/
def exMap : TMap :=
  (TMap.empty.set 0 ⟨"clamped".toList, "linear".toList, exReal "5.0"⟩).set 48
    ⟨"tcb".toList, "clamped".toList, exReal "10.0"⟩

/-- The waypoints of `exTimeline`. -/
def exWps : List Waypoint :=
  [⟨⟨0, some 24⟩, "clamped".toList, "linear".toList, exReal "5.0"⟩,
   ⟨⟨48, some 24⟩, "tcb".toList, "clamped".toList, exReal "10.0"⟩]

/-- `exTimeline` is a timeline which the theorems are about. -/
theorem exTimeline_is : TimelineIs double ⟨some exRoot, true⟩ "real".toList exTimeline exMap := by
  refine ⟨rfl, by decide +kernel, exWps, by decide +kernel, by decide +kernel, ?_⟩
  intro q e
  simp only [exMap, exWps, TMap.set, TMap.empty, Waypoint.entry, List.mem_cons, List.not_mem_nil,
    or_false, exists_eq_or_imp, exists_eq_left]
  constructor
  · intro h
    split at h
    · next hq => right; injection h with h; exact ⟨hq.symm, h⟩
    · split at h
      · next hq => left; injection h with h; exact ⟨hq.symm, h⟩
      · simp at h
  · rintro (⟨rfl, rfl⟩ | ⟨rfl, rfl⟩)
    · simp
    · simp

/-- C35 and C36 apply to it: delete 48, then 1s (absent), then 0, which was the last. -/
example :
    let F := double
    let ctx : Ctx := ⟨some exRoot, true⟩
    let n1 := (delItem F ctx (.num 48) exTimeline).1
    delItem F ctx (.str "1s".toList) n1 = (n1, .error .key) ∧
    delItem F ctx (.num 0) n1 = (exReal "5.0", .ok ()) := by
  decide +kernel

/-! ## C37, C38: adding several waypoints -/

/-- The times and entries of some waypoints. -/
def entries (ws : List Waypoint) : List (ℚ × Entry) := ws.map fun w => (w.time.frames, w.entry)

/-- Waypoints which may be added to a timeline of type `ty` and rate `f`: at or after the start,
with legal interpolations and values. -/
def Addable (f : Option ℚ) (ty : Str) (ws : List Waypoint) : Prop :=
  ∀ w ∈ ws, w.time.fps = f ∧ 0 ≤ w.time.frames ∧ LegalInterp w.before ∧ LegalInterp w.after ∧
    Legal ty w.val

theorem lists_foldl {f : Option ℚ} (new ws : List Waypoint) (m : TMap) (hnew : AllFps f new)
    (h : AllFps f ws) (ha : Apart ws) (hl : Lists ws m) :
    Lists (new.foldl (fun d w => putWp w d) ws) (m.setAll (entries new)) := by
  induction new generalizing ws m with
  | nil => exact hl
  | cons w r ih =>
    have hw := hnew w (by simp)
    simp only [List.foldl_cons, entries, List.map_cons, TMap.setAll]
    exact ih _ _ (fun x hx => hnew x (by simp [hx])) (allFps_putWp hw h) (apart_putWp hw h ha)
      (lists_put hw h ha hl)

theorem setAll_or (l : List (ℚ × Entry)) (m : TMap) (q : ℚ) :
    m.setAll l q = (TMap.empty.setAll l q).or (m q) := by
  induction l using List.reverseRecOn with
  | nil => simp [TMap.setAll, TMap.empty]
  | append_singleton r p ih =>
    simp only [TMap.setAll, List.foldl_append, List.foldl_cons, List.foldl_nil, TMap.set] at *
    split
    · rfl
    · exact ih

theorem lists_ext {ws : List Waypoint} {m m' : TMap} (h : Lists ws m) (h' : Lists ws m') : m = m' := by
  funext q
  cases hm : m q with
  | some e => exact ((h' q e).2 ((h q e).1 hm)).symm
  | none =>
    cases hm' : m' q with
    | none => rfl
    | some e =>
      have := (h q e).2 ((h' q e).1 hm')
      rw [hm] at this; simp at this

theorem lists_self {f : Option ℚ} {ws : List Waypoint} (h : AllFps f ws) (ha : Apart ws) :
    Lists ws (TMap.empty.setAll (entries ws)) := by
  have := lists_foldl ws [] TMap.empty h (by simp [AllFps]) (by simp [Apart])
    (by intro q e; simp [TMap.empty])
  rwa [foldl_putWp_apart (f := f) ws [] (by simpa using h) (by simpa using ha), List.nil_append] at this

/-- Putting in a dict of new waypoints is the same as putting them in one by one. -/
theorem lists_merge {f : Option ℚ} {new ws : List Waypoint} {m : TMap} (hnew : AllFps f new)
    (h : AllFps f ws) (ha : Apart ws) (hl : Lists ws m) :
    Lists ((new.foldl (fun d w => putWp w d) []).foldl (fun d w => putWp w d) ws)
      (m.setAll (entries new)) := by
  obtain ⟨g1, g2, g3⟩ := foldl_putWp_inv new [] hnew (by simp [AllFps]) (by simp [Apart])
  have h1 := lists_foldl (new.foldl (fun d w => putWp w d) []) ws m g1 h ha hl
  have h2 := lists_foldl new [] TMap.empty hnew (by simp [AllFps]) (by simp [Apart])
    (by intro q e; simp [TMap.empty])
  have h3 := lists_ext h2 (lists_self g1 g2)
  have : m.setAll (entries (new.foldl (fun d w => putWp w d) [])) = m.setAll (entries new) := by
    funext q
    rw [setAll_or, setAll_or (entries new), h3]
  rwa [this] at h1

theorem animate_tag {F : Fl} {ctx : Ctx} {c : VCls} {n : Node} {ty : Str} (hn : n.isTag = true)
    (hty : ourType n = .ok ty) :
    (animate F ctx c n).2 = .ok () →
    (animate F ctx c n).1.isTag = true ∧ (animate F ctx c n).1.name = "animated" ∧
      strAttr (animate F ctx c n).1 "type" = .ok ty := by
  have hst := startAnimation_tag hn
  have hsn := startAnimation_name hn
  have hsty := startAnimation_type hn hty
  simp only [animate]
  split
  · next h => intro _; exact ⟨hn, h, by rw [← ourType_animated h]; exact hty⟩
  · split
    · simp
    · next v hv =>
      have h1 : ((startAnimation n).setKids []).name = "animated" := by rw [setKids_name, hsn]
      have h2 : ((startAnimation n).setKids []).isTag = true := by rw [setKids_tag, hst]
      have h3 : strAttr ((startAnimation n).setKids []) "type" = .ok ty := by
        rw [setKids_strAttr, hsty]
      generalize (startAnimation n).setKids [] = n0 at *
      simp only [setItem]
      split
      · simp
      · split
        · simp
        · simp only [h1, if_true]
          split
          · simp
          · split
            · simp
            · rw [setWaypoints, if_neg (putWp_ne_nil _ _)]
              split
              · simp
              · intro _
                have h4 : startAnimation n0 = n0 := by simp [startAnimation, h1]
                rw [h4, setKids_tag, setKids_name, setKids_strAttr]
                exact ⟨h2, h1, h3⟩

/-- The last part of `add`. -/
theorem add_finish {F : Fl} {ctx : Ctx} {f : Option ℚ} {ty : Str} {n : Node} {m : TMap}
    (hf : readFps F ctx.root = .ok f) (hn : n.isTag = true) (hname : n.name = "animated")
    (hty : strAttr n "type" = .ok ty) {new kept : List Waypoint} (hnew : Addable f ty new)
    (hk : ∀ w ∈ kept, 0 ≤ w.time.frames ∧ checkInterp w.before = .ok w.before ∧
      checkInterp w.after = .ok w.after ∧ Legal ty w.val)
    (hkf : AllFps f kept) (hka : Apart kept) (hl : Lists kept m) :
    let all := (new.foldl (fun d w => putWp w d) []).foldl (fun d w => putWp w d) kept
    rateClash all = false ∧
    TimelineIs F ctx ty (n.setKids ((sortWps all).map Waypoint.tag)) (m.setAll (entries new)) ∧
    waypoints F ctx (n.setKids ((sortWps all).map Waypoint.tag)) = .ok (sortWps all) ∧
    Ascending (sortWps all) := by
  intro all
  have hnf : AllFps f new := fun w hw => (hnew w hw).1
  obtain ⟨g1, g2, g3⟩ := foldl_putWp_inv new [] hnf (by simp [AllFps]) (by simp [Apart])
  obtain ⟨a1, a2, a3⟩ := foldl_putWp_inv (new.foldl (fun d w => putWp w d) []) kept g1 hkf hka
  have hmem : ∀ w ∈ all, 0 ≤ w.time.frames ∧ checkInterp w.before = .ok w.before ∧
      checkInterp w.after = .ok w.after ∧ Legal ty w.val := by
    intro w hw
    rcases a3 w hw with h | h
    · exact hk w h
    · rcases g3 w h with h | h
      · simp at h
      · obtain ⟨_, b0, b1, b2, b3⟩ := hnew w h
        exact ⟨b0, legalInterp_iff.1 b1, legalInterp_iff.1 b2, b3⟩
  have hread : waypoints F ctx (n.setKids ((sortWps all).map Waypoint.tag)) = .ok (sortWps all) := by
    refine waypoints_written (f := f) (ty := ty) (by rw [setKids_name, hname])
      (by rw [setKids_strAttr, hty]) ?_ ?_ (fun w hw => a1 w (mem_sortWps.1 hw)) (apart_sortWps a2)
    · rw [Node.tagKids, setKids_kids hn]
      rw [List.filter_eq_self]
      intro x hx
      obtain ⟨w, _, rfl⟩ := List.mem_map.1 hx
      rfl
    · intro w hw
      have hw' := mem_sortWps.1 hw
      obtain ⟨b0, b1⟩ := hmem w hw'
      exact ⟨new_t_nonneg hf (a1 w hw') b0, b1⟩
  refine ⟨rateClash_same a1, ⟨by rw [setKids_tag, hn], ?_, _, hread, ?_, ?_⟩, hread,
    ascending_sortWps a2⟩
  · rw [ourType_animated (by rw [setKids_name, hname]), setKids_strAttr, hty]
  · intro w hw; exact (hmem w (mem_sortWps.1 hw)).1
  · exact lists_sort (lists_merge hnf hkf hka hl)

theorem clashes_nil_iff {old new : List Waypoint} :
    clashes old new = [] ↔ ∀ o ∈ old, ∀ w ∈ new, o.time.frames ≠ w.time.frames := by
  simp only [clashes, List.flatMap_eq_nil_iff, List.map_eq_nil_iff, List.filter_eq_nil_iff,
    T.sameTime, decide_eq_true_eq]

theorem no_differ {f : Option ℚ} {old new : List Waypoint} (h : AllFps f old) (hn : AllFps f new) :
    old.any (fun o => new.any fun w => o.time.fpsDiffer w.time) = false := by
  simp only [List.any_eq_false, Bool.not_eq_true]
  intro a ha b hb
  exact fpsDiffer_same (h a ha) (hn b hb)

theorem no_zeroClash {f : Option ℚ} {new : List Waypoint} (hn : AllFps f new) :
    new.any (fun w => zeroClash w.time new) = false := by
  simp only [List.any_eq_false, Bool.not_eq_true]
  intro w hw
  exact zeroClash_same (hn w hw) hn

/-- C37. `timeline.add(new)`, if any of the new waypoints is at the time of an existing one, raises
`ValueError` and changes nothing. -/
theorem c37_add_clash {F : Fl} {ctx : Ctx} {c : VCls} {f : Option ℚ} {ty : Str} {n : Node} {m : TMap}
    (hf : readFps F ctx.root = .ok f) (hn : TimelineIs F ctx ty n m) {new : List Waypoint}
    (hnew : ∀ w ∈ new, w.time.fps = f) (hc : ∃ w ∈ new, m w.time.frames ≠ none) :
    addWaypoints F ctx c new false n = (n, .error .value) := by
  obtain ⟨htag, htype, ws, hread, hnn, hlist⟩ := hn
  obtain ⟨i1, i2, i3⟩ := waypoints_inv hf htype hread
  have hcl : clashes ws new ≠ [] := by
    rw [Ne, clashes_nil_iff]
    intro hall
    obtain ⟨w, hw, hm⟩ := hc
    obtain ⟨e, he⟩ := Option.ne_none_iff_exists'.1 hm
    obtain ⟨o, ho, hoq, _⟩ := (hlist _ e).1 he
    exact hall o ho w hw hoq
  simp only [addWaypoints, hread, no_differ i1 hnew, Bool.false_eq_true, if_false, if_neg hcl]

/-- C37. `timeline.add(new)`, if none of the new waypoints is at the time of an existing one: the
timeline becomes the union, in order. The value may be animated already, or be one that can be
animated (see C39; what a static value held is not part of its timeline, and is lost). -/
theorem c37_add_union {F : Fl} {ctx : Ctx} {c : VCls} {f : Option ℚ} {ty : Str} {n : Node} {m : TMap}
    (hf : readFps F ctx.root = .ok f) (hn : TimelineIs F ctx ty n m)
    (han : (animate F ctx c n).2 = .ok ()) {new : List Waypoint} (hnew : Addable f ty new)
    (hc : ∀ w ∈ new, m w.time.frames = none) :
    (addWaypoints F ctx c new false n).2 = .ok () ∧
    TimelineIs F ctx ty (addWaypoints F ctx c new false n).1 (m.setAll (entries new)) ∧
    ∃ ws, waypoints F ctx (addWaypoints F ctx c new false n).1 = .ok ws ∧ Ascending ws := by
  obtain ⟨htag, htype, ws, hread, hnn, hlist⟩ := hn
  obtain ⟨i1, i2, i3⟩ := waypoints_inv hf htype hread
  have hnf : AllFps f new := fun w hw => (hnew w hw).1
  have hcl : clashes ws new = [] := by
    rw [clashes_nil_iff]
    intro o ho w hw e
    have := (hlist o.time.frames o.entry).2 ⟨o, ho, rfl, rfl⟩
    rw [e, hc w hw] at this; simp at this
  obtain ⟨t1, t2, t3⟩ := animate_tag htag htype han
  have hsplit : animate F ctx c n = ((animate F ctx c n).1, .ok ()) := Prod.ext rfl han
  obtain ⟨a1, a2, a3, a4⟩ := add_finish (ctx := ctx) hf t1 t2 t3 hnew
    (fun w hw => ⟨hnn w hw, i3 w hw⟩) i1 i2 hlist
  simp only [addWaypoints, hread, no_differ i1 hnf, Bool.false_eq_true, if_false, hcl, if_true]
  rw [hsplit]
  simp only [no_zeroClash hnf, Bool.false_eq_true, if_false, a1]
  exact ⟨trivial, a2, _, a3, a4⟩

theorem delClashes_ok {f : Option ℚ} {ts : List T} {ws : List Waypoint} (hts : ∀ t ∈ ts, t.fps = f)
    (hd : ts.Pairwise fun a b => a.frames ≠ b.frames) (h : AllFps f ws) (ha : Apart ws)
    (hex : ∀ t ∈ ts, ∃ w ∈ ws, w.time.frames = t.frames) :
    ∃ ws', delClashes ts ws = .ok ws' ∧ AllFps f ws' ∧ Apart ws' ∧
      ∀ x, x ∈ ws' ↔ x ∈ ws ∧ ∀ t ∈ ts, x.time.frames ≠ t.frames := by
  induction ts generalizing ws with
  | nil => exact ⟨ws, rfl, h, ha, fun x => by simp⟩
  | cons t r ih =>
    obtain ⟨ws1, d1, d2, d3, d4⟩ := delWp_ok (hts t (by simp)) h ha (hex t (by simp))
    have hd' := List.pairwise_cons.1 hd
    obtain ⟨ws', e1, e2, e3, e4⟩ := ih (fun t ht => hts t (by simp [ht])) hd'.2 d2 d3 (by
      intro t' ht'
      obtain ⟨w, hw, hwt⟩ := hex t' (by simp [ht'])
      exact ⟨w, (d4 w).2 ⟨hw, by rw [hwt]; exact (hd'.1 t' ht').symm⟩, hwt⟩)
    refine ⟨ws', by simp only [delClashes, d1, e1], e2, e3, fun x => ?_⟩
    rw [e4, d4]
    simp only [List.mem_cons, forall_eq_or_imp, and_assoc]

theorem delClashes_inv {f : Option ℚ} {ts : List T} {ws : List Waypoint} (hts : ∀ t ∈ ts, t.fps = f)
    (h : AllFps f ws) (ha : Apart ws) :
    delClashes ts ws = .error .key ∨
      ((∃ ws', delClashes ts ws = .ok ws') ∧ (ts.Pairwise fun a b => a.frames ≠ b.frames) ∧
        ∀ t ∈ ts, ∃ w ∈ ws, w.time.frames = t.frames) := by
  induction ts generalizing ws with
  | nil => right; exact ⟨⟨ws, rfl⟩, by simp, by simp⟩
  | cons t r ih =>
    by_cases hex : ∃ w ∈ ws, w.time.frames = t.frames
    · obtain ⟨ws1, d1, d2, d3, d4⟩ := delWp_ok (hts t (by simp)) h ha hex
      simp only [delClashes, d1]
      rcases ih (fun t ht => hts t (by simp [ht])) d2 d3 with h1 | ⟨h1, h2, h3⟩
      · exact Or.inl h1
      · refine Or.inr ⟨h1, List.pairwise_cons.2 ⟨fun t' ht' e => ?_, h2⟩, ?_⟩
        · obtain ⟨w, hw, hwt⟩ := h3 t' ht'
          exact ((d4 w).1 hw).2 (hwt.trans e.symm)
        · intro t' ht'
          rcases List.mem_cons.1 ht' with rfl | ht'
          · exact hex
          · obtain ⟨w, hw, hwt⟩ := h3 t' ht'
            exact ⟨w, ((d4 w).1 hw).1, hwt⟩
    · left
      simp only [delClashes]
      rw [delWp_absent (hts t (by simp)) h fun w hw e => hex ⟨w, hw, e⟩]

theorem clash_filter {new : List Waypoint} (ha : Apart new) (o : Waypoint) :
    (new.filter fun w => o.time.sameTime w.time) = [] ∨
    ∃ x, (new.filter fun w => o.time.sameTime w.time) = [x] := by
  have hp : (new.filter fun w => o.time.sameTime w.time).Pairwise
      fun a b => a.time.frames ≠ b.time.frames := List.Pairwise.filter _ ha
  have hall : ∀ x ∈ new.filter (fun w => o.time.sameTime w.time), o.time.frames = x.time.frames := by
    intro x hx
    simpa [T.sameTime] using (List.mem_filter.1 hx).2
  match h : new.filter (fun w => o.time.sameTime w.time) with
  | [] => exact Or.inl h
  | [x] => exact Or.inr ⟨x, h⟩
  | x :: y :: r =>
    rw [h] at hp hall
    exact absurd ((hall x (by simp)).symm.trans (hall y (by simp)))
      ((List.pairwise_cons.1 hp).1 y (by simp))

theorem clashes_apart {old new : List Waypoint} (ho : Apart old) (hn : Apart new) :
    (clashes old new).Pairwise (fun a b => a.frames ≠ b.frames) ∧
    ∀ t ∈ clashes old new, ∃ o ∈ old, o.time = t ∧ ∃ w ∈ new, w.time.frames = t.frames := by
  constructor
  · induction old with
    | nil => simp [clashes]
    | cons o r ih =>
      have ho' := List.pairwise_cons.1 ho
      simp only [clashes, List.flatMap_cons]
      rw [List.pairwise_append]
      refine ⟨?_, ih ho'.2, ?_⟩
      · rcases clash_filter hn o with h | ⟨x, h⟩ <;> simp [h]
      · intro a ha b hb
        obtain ⟨_, _, rfl⟩ := List.mem_map.1 ha
        obtain ⟨o', ho2, hb⟩ := List.mem_flatMap.1 hb
        obtain ⟨_, _, rfl⟩ := List.mem_map.1 hb
        exact ho'.1 o' ho2
  · intro t ht
    obtain ⟨o, ho, ht⟩ := List.mem_flatMap.1 ht
    obtain ⟨w, hw, rfl⟩ := List.mem_map.1 ht
    obtain ⟨hw1, hw2⟩ := List.mem_filter.1 hw
    exact ⟨o, ho, rfl, w, hw1, by simpa [T.sameTime, eq_comm] using hw2⟩

theorem mem_clashes {old new : List Waypoint} {o w : Waypoint} (ho : o ∈ old) (hw : w ∈ new)
    (h : o.time.frames = w.time.frames) : o.time ∈ clashes old new := by
  simp only [clashes, List.mem_flatMap, List.mem_map, List.mem_filter]
  exact ⟨o, ho, w, ⟨hw, by simp [T.sameTime, h]⟩, rfl⟩

/-- C38. `timeline.add(new, overwrite=True)`, for new waypoints at different times: those at the
given times are replaced, and the others are kept. -/
theorem c38_add_overwrite {F : Fl} {ctx : Ctx} {c : VCls} {f : Option ℚ} {ty : Str} {n : Node} {m : TMap}
    (hf : readFps F ctx.root = .ok f) (hn : TimelineIs F ctx ty n m)
    (han : (animate F ctx c n).2 = .ok ()) {new : List Waypoint} (hnew : Addable f ty new)
    (hd : new.Pairwise fun a b => a.time.frames ≠ b.time.frames) :
    (addWaypoints F ctx c new true n).2 = .ok () ∧
    TimelineIs F ctx ty (addWaypoints F ctx c new true n).1 (m.setAll (entries new)) ∧
    ∃ ws, waypoints F ctx (addWaypoints F ctx c new true n).1 = .ok ws ∧ Ascending ws := by
  obtain ⟨htag, htype, ws, hread, hnn, hlist⟩ := hn
  obtain ⟨i1, i2, i3⟩ := waypoints_inv hf htype hread
  have hnf : AllFps f new := fun w hw => (hnew w hw).1
  obtain ⟨c1, c2⟩ := clashes_apart i2 hd
  obtain ⟨kept, k1, k2, k3, k4⟩ := delClashes_ok (f := f) (ts := clashes ws new) (ws := ws) (by
      intro t ht
      obtain ⟨o, ho, rfl, _⟩ := c2 t ht
      exact i1 o ho) c1 i1 i2 (by
      intro t ht
      obtain ⟨o, ho, rfl, _⟩ := c2 t ht
      exact ⟨o, ho, rfl⟩)
  obtain ⟨t1, t2, t3⟩ := animate_tag htag htype han
  have hsplit : animate F ctx c n = ((animate F ctx c n).1, .ok ()) := Prod.ext rfl han
  -- the map of those kept
  let mk : TMap := fun q => if ∃ w ∈ new, w.time.frames = q then none else m q
  have hlk : Lists kept mk := by
    intro q e
    simp only [mk]
    constructor
    · intro h
      split at h
      · simp at h
      · next hno =>
        obtain ⟨x, hx, hxq, hxe⟩ := (hlist q e).1 h
        refine ⟨x, (k4 x).2 ⟨hx, ?_⟩, hxq, hxe⟩
        intro t ht e'
        obtain ⟨o, ho, rfl, w, hw, hwt⟩ := c2 t ht
        exact hno ⟨w, hw, by rw [hwt, ← e', hxq]⟩
    · rintro ⟨x, hx, hxq, hxe⟩
      obtain ⟨hx1, hx2⟩ := (k4 x).1 hx
      rw [if_neg]
      · exact (hlist q e).2 ⟨x, hx1, hxq, hxe⟩
      · rintro ⟨w, hw, hwq⟩
        exact hx2 _ (mem_clashes hx1 hw (by rw [hxq, hwq])) rfl
  have hmap : mk.setAll (entries new) = m.setAll (entries new) := by
    funext q
    rw [setAll_or, setAll_or _ m]
    simp only [mk]
    split
    · next hex =>
      obtain ⟨w, hw, hwq⟩ := hex
      have := (lists_self hnf hd q w.entry).2 ⟨w, hw, hwq, rfl⟩
      rw [this]; rfl
    · rfl
  obtain ⟨a1, a2, a3, a4⟩ := add_finish (ctx := ctx) hf t1 t2 t3 hnew
    (fun w hw => ⟨hnn w ((k4 w).1 hw).1, i3 w ((k4 w).1 hw).1⟩) k2 k3 hlk
  rw [hmap] at a2
  simp only [addWaypoints, hread, no_differ i1 hnf, Bool.false_eq_true, if_false, if_true, k1]
  rw [hsplit]
  simp only [no_zeroClash hnf, Bool.false_eq_true, if_false, a1]
  exact ⟨trivial, a2, _, a3, a4⟩

/-- C38. With two new waypoints both at the time of an existing one, `KeyError` is raised and nothing
is changed. -/
theorem c38_overwrite_twice_refused {F : Fl} {ctx : Ctx} {c : VCls} {f : Option ℚ} {ty : Str}
    {n : Node} {m : TMap} (hf : readFps F ctx.root = .ok f) (hn : TimelineIs F ctx ty n m)
    {a b d : List Waypoint} {w w' : Waypoint}
    (hnew : ∀ x ∈ a ++ w :: b ++ w' :: d, x.time.fps = f) (hw : w.time.frames = w'.time.frames)
    (hm : m w.time.frames ≠ none) :
    addWaypoints F ctx c (a ++ w :: b ++ w' :: d) true n = (n, .error .key) := by
  obtain ⟨htag, htype, ws, hread, hnn, hlist⟩ := hn
  obtain ⟨i1, i2, i3⟩ := waypoints_inv hf htype hread
  set new := a ++ w :: b ++ w' :: d with hnewdef
  have hkey : delClashes (clashes ws new) ws = .error .key := by
    rcases delClashes_inv (f := f) (ts := clashes ws new) (ws := ws) (by
      intro t ht
      obtain ⟨o, ho, ht⟩ := List.mem_flatMap.1 ht
      obtain ⟨_, _, rfl⟩ := List.mem_map.1 ht
      exact i1 o ho) i1 i2 with h | ⟨_, hd, _⟩
    · exact h
    · exfalso
      obtain ⟨e, he⟩ := Option.ne_none_iff_exists'.1 hm
      obtain ⟨o, ho, hoq, _⟩ := (hlist _ e).1 he
      obtain ⟨l1, l2, rfl⟩ := List.append_of_mem ho
      simp only [clashes, List.flatMap_append, List.flatMap_cons] at hd
      have hd1 := (List.pairwise_append.1 (List.pairwise_append.1 hd).2.1).1
      have hsw : o.time.sameTime w.time = true := by simp [T.sameTime, hoq]
      have hsw' : o.time.sameTime w'.time = true := by simp [T.sameTime, hoq, hw]
      simp only [hnewdef, List.filter_append, List.filter_cons, hsw, hsw', if_true, List.map_append,
        List.map_cons] at hd1
      have := (List.pairwise_append.1 hd1).2.2 o.time (by simp) o.time (by simp)
      exact this rfl
  simp only [addWaypoints, hread, no_differ i1 hnew, Bool.false_eq_true, if_false, if_true, hkey]

/-- C37 and C38 apply: two waypoints added to the example timeline; one of them at an occupied
time. -/
example :
    let F := double
    let ctx : Ctx := ⟨some exRoot, true⟩
    let a : Waypoint := ⟨⟨24, some 24⟩, "ease".toList, "tcb".toList, exReal "1.0"⟩
    let b : Waypoint := ⟨⟨48, some 24⟩, "ease".toList, "tcb".toList, exReal "2.0"⟩
    addWaypoints F ctx .real [a, b] false exTimeline = (exTimeline, .error .value) ∧
    waypoints F ctx (addWaypoints F ctx .real [b, a] true exTimeline).1 =
      .ok [exWps.head (by simp [exWps]), a, b] ∧
    (animate F ctx .real exTimeline).2 = .ok () ∧ Addable (some 24) "real".toList [a, b] := by
  refine ⟨by decide +kernel, by decide +kernel, by decide +kernel, ?_⟩
  intro w hw
  simp only [List.mem_cons, List.not_mem_nil, or_false] at hw
  rcases hw with rfl | rfl
  · exact ⟨rfl, by norm_num, by unfold LegalInterp; decide +kernel, by unfold LegalInterp; decide +kernel, exReal_legal _⟩
  · exact ⟨rfl, by norm_num, by unfold LegalInterp; decide +kernel, by unfold LegalInterp; decide +kernel, exReal_legal _⟩

end Sang
