import Verif.Props.Waypoints
import Verif.Props.WaypointRules
import Verif.Props.Subscripts

/-! # Assigning to animated values: properties C109–C111 -/

namespace Sang

open Spec

/-! ## C109: giving an animated value a value -/

theorem setSimple_any {F : Fl} {name : String} {dflt : Str} {conv : PV → Res Str} {v : PV}
    {n m : Node} (hn : n.isTag = true) (hm : m.isTag = true)
    (h : (setSimple F name dflt conv v m).2 = .ok ()) :
    setSimple F name dflt conv v n = setSimple F name dflt conv v m ∧
      ((setSimple F name dflt conv v m).1).name = name := by
  cases n with
  | text t => simp [Node.isTag] at hn
  | tag nm a ks =>
  cases m with
  | text t => simp [Node.isTag] at hm
  | tag nm' a' ks' =>
    simp only [setSimple] at h ⊢
    cases h1 : v.eqEmptyTuple F with
    | error e => simp [h1] at h
    | ok b =>
      simp only [h1] at h ⊢
      generalize (if b || v.isNone then Except.ok dflt else conv v) = r at h ⊢
      cases r with
      | error e => simp at h
      | ok s => exact ⟨rfl, rfl⟩

/-- C109, the part that holds: after `value.value = x`, a number, boolean, time or colour is just
what the constructor makes of `x`, whatever it was, and however it was animated; so it isn't
animated. -/
theorem c109_replaced_partial (F : Fl) (c : VCls)
    (hc : c ∈ [VCls.real, .integer, .bool, .angle, .time, .color]) (n : Node) (hn : n.isTag = true)
    (x : PV) (m : Node) (hx : newValue F c x = .ok m) :
    setValue F c x n = (m, .ok ()) ∧ m.name ≠ "animated" ∧
      ∀ ctx, waypoints F ctx (setValue F c x n).1 = .ok [] := by
  have key : setValue F c x n = (m, .ok ()) ∧ m.name ≠ "animated" := by
    simp only [newValue, construct] at hx
    cases h2 : (setValue F c x (emptyTag c)).2 with
    | error e => simp [h2] at hx
    | ok u =>
      simp only [h2, Except.ok.injEq] at hx
      subst hx
      simp only [List.mem_cons, List.not_mem_nil, or_false] at hc
      rcases hc with rfl | rfl | rfl | rfl | rfl | rfl
      case inr.inr.inr.inr.inr =>
        cases ha : colorArg F x with
        | error e => simp [setValue, setColor, ha] at h2
        | ok cs =>
          match cs, colorArg_four ha with
          | [r, g, b, a], _ =>
            rw [setColor_ok hn ha, setColor_ok (n := emptyTag .color) rfl ha]
            exact ⟨rfl, by simp [colorNode, Node.name]⟩
      all_goals
        simp only [setValue] at h2 ⊢
        obtain ⟨e1, e2⟩ := setSimple_any hn (by rfl) h2
        rw [e1, e2, ← h2]
        exact ⟨rfl, by decide⟩
  refine ⟨key.1, key.2, fun ctx => ?_⟩
  rw [key.1]
  exact waypoints_static F ctx key.2

/-- C109's hypotheses are met: an animated real. -/
example : ∃ m, newValue double .real (.float 5) = .ok m ∧ exTimeline.isTag = true ∧
    exTimeline.name = "animated" :=
  ⟨.tag "real" [("value", .str "5.0000000000".toList)] [], by decide +kernel, by decide +kernel,
    by decide +kernel⟩

/-- C109, violated: an animated text which is given a value is still animated, with no waypoints. -/
theorem c109_string_stays_animated (F : Fl) (n : Node) (hn : n.isTag = true)
    (ha : n.name = "animated") (s : Str) :
    (setValue F .string (.str s) n).2 = .ok () ∧
    (setValue F .string (.str s) n).1.name = "animated" ∧
    ∀ ctx, waypoints F ctx (setValue F .string (.str s) n).1 = .ok [] := by
  cases n with
  | text t => simp [Node.isTag] at hn
  | tag nm a ks =>
    refine ⟨rfl, ha, fun ctx => ?_⟩
    have : waypointTags (setValue F .string (.str s) (.tag nm a ks)).1 = [] := by
      simp [setValue, PV.toStr, Node.setString, Node.setKids, waypointTags, Node.tagKids, Node.kids,
        Node.isTag]
    simp only [waypoints, this, if_true]

/-- C109, violated: an animated vector which is given a value keeps its waypoints, and it can't be
read from its document any more. -/
theorem c109_vector_broken (F : Fl) (a : Attrs) (ks : List Node) (w : Node) (hw : w ∈ ks)
    (hwt : w.isTag = true) (hwn : w.name = "waypoint") (x y : ℚ) :
    (setValue F .vector (.tuple [.float x, .float y]) (.tag "animated" a ks)).2 = .ok () ∧
    w ∈ (setValue F .vector (.tuple [.float x, .float y]) (.tag "animated" a ks)).1.kids ∧
    fromTag (setValue F .vector (.tuple [.float x, .float y]) (.tag "animated" a ks)).1 =
      .error .type := by
  rw [setVector_pair]
  refine ⟨rfl, by simp [Node.kids, hw], ?_⟩
  have hk : isXY (kidNames (.tag "vector" [] (ks ++ [coordTag "x" x, coordTag "y" y]))) = false := by
    rw [Bool.eq_false_iff]
    intro h
    have hm : "waypoint" ∈ kidNames (.tag "vector" [] (ks ++ [coordTag "x" x, coordTag "y" y])) := by
      simp only [kidNames, Node.tagKids, Node.kids, List.mem_map, List.mem_filter]
      exact ⟨w, ⟨by simp [hw], hwt⟩, hwn⟩
    simp only [isXY, Bool.and_eq_true, List.all_eq_true] at h
    have := h.1.1 _ hm
    simp at this
  have hr : valueRegistry.fromName "vector".toList = .ok .vector := by decide
  have hne : ("vector" : String) ≠ "animated" := by decide
  have hv : vectorCheck (.tag "vector" [] (ks ++ [coordTag "x" x, coordTag "y" y])) =
      .error .type := by
    simp only [vectorCheck, Node.name, if_neg hne, hk, Bool.false_eq_true, if_false]
  unfold fromTag
  simp only [Node.name]
  simp only [show ("vector" = "animated") = False by decide, if_false]
  simp only [hr, hv]

/-- C109's violation for vectors applies to any with a waypoint. -/
example : ∃ w : Node, w ∈ [Node.tag "waypoint" [("time", .str "0f".toList)] [vecNode 1 2]] ∧
    w.isTag = true ∧ w.name = "waypoint" := ⟨_, List.mem_singleton.2 rfl, rfl, rfl⟩

theorem waypoints_wrong_first {F : Fl} {ctx : Ctx} {a : Attrs} {x : Node} {ks : List Node}
    {ty : Str} (hty : strAttr (.tag "animated" a (x :: ks)) "type" = .ok ty)
    (hx : x.isTag = true) (hn : x.name ≠ "waypoint") :
    waypoints F ctx (.tag "animated" a (x :: ks)) = .error .value := by
  have h1 : waypointTags (.tag "animated" a (x :: ks)) = x :: ks.filter Node.isTag := by
    simp only [waypointTags, Node.name, ne_eq, not_true_eq_false, if_false, Node.tagKids, Node.kids]
    rw [List.filter_cons_of_pos hx]
  have h2 : Waypoint.fromTag F ctx.root ty x = .error .value := by
    simp only [Waypoint.fromTag, ne_eq, hn, not_false_eq_true, if_true]
  simp only [waypoints, h1, hty, mapRes, h2]
  simp

/-- C109, violated: an animated gradient which is given a value is still animated, but its timeline
can't be read. -/
theorem c109_gradient_broken (F : Fl) (a : Attrs) (ks : List Node) (ty : Str)
    (hty : a.get "type" = some (.str ty)) (l : List (ℚ × PV)) (h2 : 2 ≤ l.length)
    (hcol : ∀ p ∈ l, ∃ c, newValue F .color p.2 = .ok c) :
    (setValue F .gradient (.stops l) (.tag "animated" a ks)).2 = .ok () ∧
    (setValue F .gradient (.stops l) (.tag "animated" a ks)).1.name = "animated" ∧
    ∀ ctx, waypoints F ctx (setValue F .gradient (.stops l) (.tag "animated" a ks)).1 =
      .error .value := by
  have hcol' : ∀ p ∈ sortStops l, newValue F .color p.2 = .ok (madeColor F p.2) := by
    intro p hp
    obtain ⟨c, hc⟩ := hcol p ((List.perm_insertionSort _ _).mem_iff.1 hp)
    simp only [madeColor, hc]
  have hset : setValue F .gradient (.stops l) (.tag "animated" a ks) =
      (.tag "animated" a ((sortStops l).map fun p => stopNode p.1 (madeColor F p.2)), .ok ()) := by
    simp only [setValue, setGradient, gradientArg, if_neg (not_lt.2 h2), Node.setKids]
    rw [appendStops_ok F _ (madeColor F) hcol', List.nil_append]
  rw [hset]
  refine ⟨rfl, rfl, fun ctx => ?_⟩
  have hlen : (sortStops l).length = l.length := (List.perm_insertionSort _ _).length_eq
  match hs : sortStops l with
  | [] => rw [hs] at hlen; simp at hlen; omega
  | p :: r =>
    have hp := hcol' p (by rw [hs]; simp)
    obtain ⟨r', g, b, a', hc⟩ := newColor_form hp
    refine waypoints_wrong_first (ty := ty) ?_ ?_ ?_
    · simp only [strAttr, Node.attrs, hty]
    · simp only [hc]; rfl
    · simp only [hc]; simp [stopNode, colorNode, Node.setAttr, Node.name]

/-- C109's hypotheses are met: an animated gradient, and two stops. -/
example : Attrs.get [("type", .str "gradient".toList)] "type" = some (.str "gradient".toList) ∧
    ∀ p ∈ [((0:ℚ), PV.str "#000000".toList), (1, .str "#ffffff".toList)],
      ∃ c, newValue double .color p.2 = .ok c := by
  refine ⟨rfl, ?_⟩
  intro p hp
  simp only [List.mem_cons, List.not_mem_nil, or_false] at hp
  rcases hp with rfl | rfl
  · exact ⟨colorNode 0 0 0 1, by decide +kernel⟩
  · exact ⟨colorNode 1 1 1 1, by decide +kernel⟩

/-- C109, violated: so is an animated transformation. -/
theorem c109_transformation_broken (F : Fl) (a : Attrs) (ks : List Node) (ty : Str)
    (hty : a.get "type" = some (.str ty)) (p : TransParts) (l : List (String × PV))
    (hl : l.Perm p.dict) :
    (setValue F .composite (.dict l) (.tag "animated" a ks)).2 = .ok () ∧
    (setValue F .composite (.dict l) (.tag "animated" a ks)).1.name = "animated" ∧
    ∀ ctx, waypoints F ctx (setValue F .composite (.dict l) (.tag "animated" a ks)).1 =
      .error .value := by
  rw [setComposite_ok F p hl]
  refine ⟨rfl, rfl, fun ctx => ?_⟩
  have hlen : l.length = 4 := hl.length_eq
  match l, hlen with
  | q :: r, _ =>
    have hq := hl.mem_iff.1 (List.mem_cons_self (a := q) (l := r))
    refine waypoints_wrong_first (ty := ty) ?_ rfl ?_
    · simp only [strAttr, Node.attrs, hty]
    · simp only [TransParts.dict, List.mem_cons, List.not_mem_nil, or_false] at hq
      rcases hq with rfl | rfl | rfl | rfl <;> simp [Node.name]

/-! ## C110: assigning a list with other things in it to a timeline -/

/-- C110, violated: assigning a list which has anything but waypoints in it raises, after the value
has been made animated and emptied: the waypoints it had, or the value, are lost. -/
theorem c110_mixed_list_destroys (F : Fl) (ctx : Ctx) (n : Node) (hn : n.isTag = true) (e : Err) :
    (setTimeline F ctx (.mixed e) n).2 = .error e ∧
    (setTimeline F ctx (.mixed e) n).1.name = "animated" ∧
    (setTimeline F ctx (.mixed e) n).1.kids = [] ∧
    waypoints F ctx (setTimeline F ctx (.mixed e) n).1 = .ok [] := by
  have ht := startAnimation_tag hn
  refine ⟨rfl, ?_, ?_, ?_⟩
  · simp only [setTimeline, setKids_name, startAnimation_name hn]
  · simp only [setTimeline, setKids_kids ht]
  · exact waypoints_empty F ctx (setKids_kids ht [])

/-- C110, the part that holds: things which aren't lists, dicts or timelines are refused, and
nothing changes. -/
theorem c110_others_refused_partial (F : Fl) (ctx : Ctx) (n : Node) :
    setTimeline F ctx .other n = (n, .error .type) := rfl

/-- C110: a value loses its number this way. -/
example : (setTimeline double ⟨some exRoot, true⟩ (.mixed .attr) (exReal "2.5")).1 =
    .tag "animated" [("type", .str "real".toList)] [] := by decide +kernel

/-! ## C111: reading a waypoint, changing it, putting it back -/

/-- C111. Reading a waypoint, changing its interpolations, and putting it back at the same time
changes just those, at that time only. -/
theorem c111_read_modify_write {F : Fl} {ctx : Ctx} {c : VCls} {f : Option ℚ} {ty : Str} {n : Node}
    {m : TMap} (hf : readFps F ctx.root = .ok f) (hn : TimelineIs F ctx ty n m)
    {k : TOther} {q : ℚ} {w : Waypoint} (hk : Asks f k q) (hw : getItem F ctx k n = .ok w)
    (hs : ∃ ws, waypoints F ctx n = .ok ws ∧ Ascending ws) (b a : Str) (hb : LegalInterp b)
    (ha : LegalInterp a) {t : TimeArg} (ht : Denotes F ctx t q) :
    ∃ e, m q = some e ∧ w.val = e.value ∧
      (setItem F ctx c t (.wp {w with before := b, after := a}) n).2 = .ok () ∧
      TimelineIs F ctx ty (setItem F ctx c t (.wp {w with before := b, after := a}) n).1
        (m.set q ⟨b, a, e.value⟩) := by
  have hxy : NoXY F n := by
    unfold NoXY
    simp only [getItem] at hw
    cases h : isInfix "x_y".toList (n.serial F) with
    | true => rw [if_pos h] at hw; cases hw
    | false => rfl
  have hget := getItem_spec hf hn hs hxy hk
  rw [hw] at hget
  cases hm : m q with
  | none => simp [hm] at hget
  | some e =>
    simp only [hm, Except.ok.injEq] at hget
    subst hget
    have hv : Legal ty e.value := by
      obtain ⟨-, htype, ws, hread, -, hlist⟩ := hn
      obtain ⟨-, -, i3⟩ := waypoints_inv hf htype hread
      obtain ⟨w, hw', -, rfl⟩ := (hlist q e).1 hm
      exact (i3 w hw').2.2
    obtain ⟨h1, h2⟩ := denotes_spec hf ht
    refine ⟨e, rfl, rfl, ?_⟩
    obtain ⟨w', w1, w2, w3, w4, w5⟩ := puts_spec (ctx := ctx) (F := F) (c := c) (ty := ty)
      (v := .wp ⟨⟨q, f⟩, b, a, e.value⟩) (e := ⟨b, a, e.value⟩) (.waypoint hb ha hv) ⟨q, f⟩
    obtain ⟨s1, s2, -⟩ := setItem_spec hf hn h1 rfl h2 w1 w3 w4 w5
    rw [w2] at s2
    exact ⟨s1, s2⟩

/-- C111's hypotheses are met by the first waypoint of a timeline. -/
example : ∃ w, getItem double ⟨some exRoot, true⟩ (.num 0) exTimeline = .ok w ∧
    LegalInterp "linear".toList ∧ Denotes double ⟨some exRoot, true⟩ (.num 0) 0 := by
  refine ⟨⟨⟨0, some 24⟩, "clamped".toList, "linear".toList, exReal "5.0"⟩, ?_, ?_, ?_⟩
  · rw [getItem_spec (f := some 24) (by decide +kernel) exTimeline_is
      ⟨exWps, by decide +kernel, by unfold Ascending; decide +kernel⟩ (by unfold NoXY; decide +kernel)
      (.num : Asks _ _ 0)]
    rfl
  · unfold LegalInterp; decide +kernel
  · exact .num (f := some 24) (by decide +kernel) (le_refl _)

end Sang
