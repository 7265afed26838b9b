import Verif.DomTimeline
import Verif.Props.Documents
import Verif.Props.WaypointRules

/-!
# C159: values on their own timelines, and on others'
-/

namespace Sang
open Dom Spec Relation

/-- Nothing but `v` has changed, and what is new. -/
structure OnlyAt (v : ℕ) (h h' : Dom) : Prop where
  forest : Forest h'
  size : h.size ≤ h'.size
  same : ∀ q, q < h.size → q ≠ v → h'.kids q = h.kids q ∧ h'.lbl q = h.lbl q
  up : ∀ z p, z < h.size → Par h' z p → Par h z p

theorem OnlyAt.refl {h : Dom} (hf : Forest h) (v : ℕ) : OnlyAt v h h := ⟨hf, le_rfl, fun _ _ _ => ⟨rfl, rfl⟩, fun _ _ _ h => h⟩

theorem OnlyAt.trans {v : ℕ} {a b c : Dom} (h : OnlyAt v a b) (h' : OnlyAt v b c) : OnlyAt v a c :=
  ⟨h'.forest, h.size.trans h'.size, fun q hq hv =>
    ⟨(h'.same q (hq.trans_le h.size) hv).1.trans (h.same q hq hv).1,
      (h'.same q (hq.trans_le h.size) hv).2.trans (h.same q hq hv).2⟩,
    fun z p hz hp => h.up z p hz (h'.up z p (hz.trans_le h.size) hp)⟩

theorem OnlyAt.node {v : ℕ} {h h' : Dom} (o : OnlyAt v h h') (hf : Forest h) {b : ℕ} (hb : b < h.size)
    (hin : ¬ Within h v b) : h'.node b = h.node b :=
  node_congr hf o.forest b fun z hz => o.same z (inside_made hf hz hb) fun e => hin (e ▸ hz)

/-- What wasn't inside something still isn't. -/
theorem OnlyAt.outside {v : ℕ} {h h' : Dom} (o : OnlyAt v h h') (hf : Forest h) {a b : ℕ} (ha : a < h.size)
    (hin : Within h' a b) : Within h a b := by
  induction hin using ReflTransGen.head_induction_on with
  | refl => exact .refl
  | @head p q hpq _ ih =>
    have := o.up p q ha hpq
    exact ReflTransGen.head this (ih (hf.made _ _ this).1)

theorem onlyAt_rewrite {h : Dom} (hf : Forest h) {v : ℕ} (hv : v < h.size) (n : String) (a : Attrs)
    (ks : List Node) : OnlyAt v h (h.rewrite v n a ks) := by
  obtain ⟨r1, _, _, r4, r5, _, r7⟩ := rewrite_spec hf hv n a ks
  refine ⟨r1, r4, r5, fun z p hz hp => ?_⟩
  rw [Par, r7 z hz] at hp
  split at hp
  · cases hp
  · exact hp

theorem bare_rewrite {h : Dom} (hf : Forest h) {v : ℕ} (hv : v < h.size) (n : String) (a : Attrs)
    (ks : List Node) : (h.rewrite v n a ks).bare v = .tag n a [] := by
  rw [bare, (rewrite_spec hf hv n a ks).2.2.1]

theorem name_node {h : Dom} (hf : Forest h) (x : ℕ) : (h.node x).name = (h.bare x).name := by
  cases e : h.lbl x with
  | text s => rw [node_text e, bare, e]
  | tag n a => rw [node_tag hf e, bare, e]; rfl

theorem attrs_node {h : Dom} (hf : Forest h) (x : ℕ) : (h.node x).attrs = (h.bare x).attrs := by
  cases e : h.lbl x with
  | text s => rw [node_text e, bare, e]
  | tag n a => rw [node_tag hf e, bare, e]; rfl

/-- What was there before isn't in an element that has been given new contents. -/
theorem not_within_rewritten {h : Dom} (hf : Forest h) {v x : ℕ} (hv : v < h.size) (hx : x < h.size) (hne : x ≠ v)
    (n : String) (a : Attrs) (ks : List Node) : ¬ Within (h.rewrite v n a ks) x v := by
  obtain ⟨r1, _, _, r4, r5, r6, r7⟩ := rewrite_spec hf hv n a ks
  intro hw
  have key : ∀ z, z < h.size → ¬ Par (h.rewrite v n a ks) z v := fun z hz hp => by
    have := r6 z ((r1.child v z).2 hp)
    omega
  have : ∀ z, Within (h.rewrite v n a ks) z v → z < h.size → z = v := by
    intro z hz
    induction hz using ReflTransGen.head_induction_on with
    | refl => exact fun _ => rfl
    | @head p q hpq _ ih =>
      intro hp
      by_cases e : q = v
      · subst e; exact absurd hpq (key p hp)
      · refine absurd (ih ?_) e
        rw [Par, r7 p hp] at hpq
        split at hpq
        · cases hpq
        · exact (hf.made _ _ hpq).1
  exact hne (this x hw hx)

/-- The element is emptied. -/
theorem emptied_spec {h : Dom} (hf : Forest h) {v : ℕ} (hv : v < h.size) :
    OnlyAt v h (h.emptied v) ∧ (h.emptied v).bare v = .tag (h.bare v).name (h.bare v).attrs [] ∧
      (h.emptied v).node v = .tag (h.bare v).name (h.bare v).attrs [] :=
  ⟨onlyAt_rewrite hf hv _ _ _, bare_rewrite hf hv _ _ _, (rewrite_spec hf hv _ _ _).2.1⟩

/-- What `timelinePut` does, if the value put there isn't around the timeline's. -/
theorem timelinePut_spec {F : Fl} {ctx : Ctx} {h : Dom} (hf : Forest h) {v x : ℕ} (hv : v < h.size)
    (hvt : (h.bare v).isTag = true) (hx : x < h.size) (hin : ¬ Within h v x) (t : T) (b a : Str) :
    let n := if (h.node v).name = "animated" then h.node v else startAnimation ((h.node v).setKids [])
    let p : Node × Res Unit := match Sang.waypoints F ctx n with
      | .error e => (n, .error e)
      | .ok ws => if zeroClash t ws then (n, .error .value)
        else setWaypoints F ctx (putWp ⟨t, b, a, h.node x⟩ ws) n
    OnlyAt v h (h.timelinePut F ctx v t b a x).1 ∧
      (h.timelinePut F ctx v t b a x).1.node v = p.1 ∧ (h.timelinePut F ctx v t b a x).2 = p.2 ∧
      (p.2 = .ok () → ¬ Within (h.timelinePut F ctx v t b a x).1 x v) := by
  intro n p
  have hxv : x ≠ v := fun e => hin (e ▸ .refl)
  -- the element once it is animated
  set h1 : Dom := if (h.bare v).name = "animated" then h
    else h.rewrite v "animated" [("type", .str (h.bare v).name.toList)] [] with hh1
  obtain ⟨s, at', ks, ev⟩ : ∃ s at' ks, h.node v = .tag s at' ks := by
    cases e : h.lbl v with
    | text s => rw [bare, e] at hvt; cases hvt
    | tag n a => exact ⟨n, a, _, node_tag hf e⟩
  have hname : (h.bare v).name = s := by rw [← name_node hf, ev]; rfl
  have o1 : OnlyAt v h h1 := by
    rw [hh1]; split
    · exact OnlyAt.refl hf v
    · exact onlyAt_rewrite hf hv _ _ _
  have n1 : h1.node v = n := by
    show _ = if (h.node v).name = "animated" then h.node v else startAnimation ((h.node v).setKids [])
    rw [hh1, name_node hf]
    by_cases e : (h.bare v).name = "animated"
    · rw [if_pos e, if_pos e]
    · rw [if_neg e, if_neg e, (rewrite_spec hf hv _ _ _).2.1, ev, hname]
      rw [hname] at e
      simp [Node.setKids, startAnimation, Node.name, e, Node.setAttrs, Node.setName]
  have nn : n.name = "animated" := by
    show (if (h.node v).name = "animated" then h.node v else startAnimation ((h.node v).setKids [])).name = _
    split
    · assumption
    · rename_i e
      rw [ev] at e ⊢
      simp only [Node.name] at e
      simp [Node.setKids, startAnimation, Node.name, e, Node.setAttrs, Node.setName]
  have nt : ∃ A K, n = .tag "animated" A K := by
    cases e : n with
    | text s => rw [e] at nn; simp [Node.name] at nn
    | tag m A K => rw [e] at nn; simp only [Node.name] at nn; subst nn; exact ⟨A, K, rfl⟩
  obtain ⟨A, K, en⟩ := nt
  have hv1 : v < h1.size := hv.trans_le o1.size
  have hx1 : x < h1.size := hx.trans_le o1.size
  have b1 : (h1.bare v).name = "animated" ∧ (h1.bare v).attrs = A := by
    rw [← name_node o1.forest, ← attrs_node o1.forest, n1, en]; exact ⟨rfl, rfl⟩
  obtain ⟨o2, b2, n2⟩ := emptied_spec o1.forest hv1
  rw [b1.1, b1.2] at b2 n2
  have x2 : (h1.emptied v).node x = h.node x := (o1.trans o2).node hf hx hin
  have hv2 : v < (h1.emptied v).size := hv1.trans_le o2.size
  have hx2 : x < (h1.emptied v).size := hx1.trans_le o2.size
  have eq : h.timelinePut F ctx v t b a x = match Sang.waypoints F ctx n with
      | .error e => (h1, .error e)
      | .ok ws => if zeroClash t ws then (h1, .error .value)
        else if rateClash (putWp ⟨t, b, a, h.node x⟩ ws) then (h1.emptied v, .error .value)
        else ((h1.emptied v).rewrite v "animated" A
          (withNewlines ((sortWps (putWp ⟨t, b, a, h.node x⟩ ws)).map Waypoint.tag)), .ok ()) := by
    rw [timelinePut]
    simp only []
    rw [← hh1, n1]
    cases Sang.waypoints F ctx n with
    | error e => rfl
    | ok ws =>
      simp only []
      rw [x2, b2]
      simp only [Node.name, Node.attrs]
  have ep : p = match Sang.waypoints F ctx n with
      | .error e => (n, .error e)
      | .ok ws => if zeroClash t ws then (n, .error .value)
        else setWaypoints F ctx (putWp ⟨t, b, a, h.node x⟩ ws) n := rfl
  clear_value p
  subst ep
  rw [eq]
  cases hw : Sang.waypoints F ctx n with
  | error e => exact ⟨o1, n1, rfl, fun h => by cases h⟩
  | ok ws =>
    simp only []
    by_cases hz : zeroClash t ws = true
    · rw [if_pos hz, if_pos hz]
      exact ⟨o1, n1, rfl, fun h => by cases h⟩
    · have hne : putWp ⟨t, b, a, h.node x⟩ ws ≠ [] := putWp_ne_nil _ _
      rw [if_neg hz, if_neg hz]
      simp only [setWaypoints, if_neg hne]
      have sa : startAnimation n = n := by rw [startAnimation, if_pos nn]
      rw [sa]
      by_cases hr : rateClash (putWp ⟨t, b, a, h.node x⟩ ws) = true
      · rw [if_pos hr, if_pos hr]
        refine ⟨o1.trans o2, ?_, rfl, fun h => by cases h⟩
        show (h1.emptied v).node v = n.setKids []
        rw [n2, en]; rfl
      · rw [if_neg hr, if_neg hr]
        refine ⟨(o1.trans o2).trans (onlyAt_rewrite o2.forest hv2 _ _ _), ?_, rfl, fun _ => ?_⟩
        · show ((h1.emptied v).rewrite v "animated" A _).node v = n.setKids _
          rw [(rewrite_spec o2.forest hv2 _ _ _).2.1, en]; rfl
        · exact not_within_rewritten o2.forest hv2 hx2 hxv _ _ _

/-- C159, what holds. Assigning to a time of a timeline the object for any value that isn't the timeline's own (and
doesn't have that inside it): the element of the timeline becomes what it should, with the value as it is now; the value and
everything else that the timeline's value isn't in look as they did; and from then on, whatever is set or animated through
the one object doesn't show in the other. Missing: the value itself, where it fails (`c159_own_value_is_lost`). -/
theorem c159_copied_partial {F : Fl} {ctx : Ctx} {c : VCls} {h : Dom} (hf : Forest h) {v x : ℕ} (hv : v < h.size)
    (hvt : (h.bare v).isTag = true) (hx : x < h.size) (hin : ¬ Within h v x) (t : TimeArg) :
    ∃ h' r, h.timelineSet F ctx v t x = (h', r) ∧
      setItem F ctx c t (.py (.val c none (h.node x))) (h.node v) = (h'.node v, r) ∧
      h'.node x = h.node x ∧ (∀ y, y < h.size → ¬ Within h v y → h'.node y = h.node y) ∧
      (r = .ok () → ∀ n a ks, (h'.rewrite x n a ks).node v = h'.node v ∧
        (h'.rewrite v n a ks).node x = h'.node x) := by
  rw [setItem, timelineSet]
  cases ht : ensureFps F ctx t with
  | error e => exact ⟨h, _, rfl, rfl, rfl, fun _ _ _ => rfl, fun h => by cases h⟩
  | ok tt =>
    simp only []
    by_cases ha : (h.bare x).name = "animated"
    · rw [if_pos ha]
      have : makeWp F ctx c tt (.py (.val c none (h.node x))) = .error .value := by
        simp only [makeWp, if_true, Waypoint.new, name_node hf, ha]
      rw [this]
      exact ⟨h, _, rfl, rfl, rfl, fun _ _ _ => rfl, fun h => by cases h⟩
    · rw [if_neg ha]
      have : makeWp F ctx c tt (.py (.val c none (h.node x))) =
          .ok ⟨tt, "clamped".toList, "clamped".toList, h.node x⟩ := by
        have hc : checkInterp "clamped".toList = .ok "clamped".toList := by decide +kernel
        simp only [makeWp, if_true, Waypoint.new, name_node hf, ha, if_false, hc]
      rw [this]
      obtain ⟨o, e1, e2, e3⟩ := timelinePut_spec (F := F) (ctx := ctx) hf hv hvt hx hin tt "clamped".toList
        "clamped".toList
      refine ⟨_, _, rfl, ?_, o.node hf hx hin, fun y hy hn => o.node hf hy hn, fun hr n a ks => ?_⟩
      · exact Prod.ext e1.symm e2.symm
      · have hw := e3 (e2.symm.trans hr)
        have hw' : ¬ Within (h.timelinePut F ctx v tt "clamped".toList "clamped".toList x).1 v x := fun hw =>
          hin (o.outside hf hv hw)
        exact ⟨(c144_set o.forest (hx.trans_le o.size) n a ks).2 v (hv.trans_le o.size) hw,
          (c144_set o.forest (hv.trans_le o.size) n a ks).2 x (hx.trans_le o.size) hw'⟩

/-- What an element looks like in which a value of type `ty` has been put on its own timeline: the only waypoint holds
another animated value, with nothing on its timeline. -/
def LostAt (ty : String) (time : T) (before after : Str) (n : Node) : Prop :=
  n = .tag "animated" [("type", .str ty.toList)] [.tag "waypoint"
    [("time", .t time), ("before", .str before), ("after", .str after)]
    [.tag "animated" [("type", .str ty.toList)] []]]

/-- Nothing can be read from the timeline or changed on it, and the value can't be made static again. -/
def Unusable (n : Node) : Prop :=
  ∀ F ctx, (∃ e, waypoints F ctx n = .error e) ∧ (∀ k, ∃ e, getItem F ctx k n = .error e) ∧
    (∀ c t a, ∃ e, setItem F ctx c t a n = (n, .error e)) ∧ (∀ t, ∃ e, delItem F ctx t n = (n, .error e)) ∧
    ∃ e, unAnimate F ctx n = (n, .error e)

theorem lost_unusable {ty : String} {time : T} {b a : Str} {n : Node} (h : LostAt ty time b a n) : Unusable n := by
  intro F ctx
  have hw : ∃ e, waypoints F ctx n = .error e := by
    subst h
    set w : Node := .tag "waypoint" [("time", .t time), ("before", .str b), ("after", .str a)]
      [.tag "animated" [("type", .str ty.toList)] []] with hwd
    have h1 : waypointTags (.tag "animated" [("type", .str ty.toList)] [w]) = [w] := by
      rw [waypointTags]
      exact (if_neg (not_not.2 rfl)).trans rfl
    have h2 : strAttr (.tag "animated" [("type", .str ty.toList)] [w]) "type" = .ok ty.toList := rfl
    have h3 : ∃ e, Waypoint.fromTag F ctx.root ty.toList w = .error e := by
      cases hT : T.new F ctx.root (AttrV.t time).toTArg with
      | error e =>
        refine ⟨e, ?_⟩
        have hn : w.name = "waypoint" := rfl
        have ha : w.attrs.get "time" = some (.t time) := rfl
        rw [Waypoint.fromTag, if_neg (not_not.2 hn), ha]
        simp only [hT]
      | ok t => exact ⟨.value, c41_read_refuses (n := w) rfl rfl hT rfl (.inl rfl)⟩
    obtain ⟨e, he⟩ := h3
    refine ⟨e, ?_⟩
    rw [waypoints, h1, h2]
    simp only [mapRes, he, if_neg (List.cons_ne_nil w [])]
  have hn : n.name = "animated" := by rw [h]; rfl
  obtain ⟨e, he⟩ := hw
  refine ⟨⟨e, he⟩, fun k => ?_, fun c t x => ?_, fun t => ?_, ?_⟩
  · rw [getItem]
    split
    · exact ⟨_, rfl⟩
    · rw [he]; exact ⟨_, rfl⟩
  · rw [setItem]
    cases ensureFps F ctx t with
    | error e => exact ⟨e, rfl⟩
    | ok t =>
      simp only []
      cases makeWp F ctx c t x with
      | error e => exact ⟨e, rfl⟩
      | ok w =>
        simp only [hn, if_true, he]
        exact ⟨_, rfl⟩
  · rw [delItem]
    cases delKey F ctx t with
    | error e => exact ⟨e, rfl⟩
    | ok k => rw [he]; exact ⟨_, rfl⟩
  · rw [unAnimate, if_neg (by simp [hn]), he]
    exact ⟨_, rfl⟩

theorem rateClash_one (w : Waypoint) : rateClash [w] = false := by
  simp only [rateClash, List.any_cons, List.any_nil, Bool.or_false, T.fpsDiffer]
  split <;> simp_all

/-- C159 fails for a value's own timeline, always: `value.timeline[t] = value`, and `layer.radius.timeline[t] =
layer.radius`, for any static value and any time. No exception is raised; what the value was is gone, the only waypoint
holds an animated value, and nothing more can be done with the timeline. -/
theorem c159_own_value_is_lost {F : Fl} {ctx : Ctx} {h : Dom} (hf : Forest h) {v : ℕ} (hv : v < h.size)
    (hst : (h.bare v).name ≠ "animated") {f : Option ℚ}
    (hr : readFps F ctx.root = .ok f) {t : TimeArg} {q : ℚ} (ht : Denotes F ctx t q) :
    ∃ h', h.timelineSet F ctx v t v = (h', .ok ()) ∧
      LostAt (h.bare v).name ⟨q, f⟩ "clamped".toList "clamped".toList (h'.node v) ∧ Unusable (h'.node v) := by
  rw [timelineSet, (denotes_spec hr ht).1]
  simp only [if_neg hst, timelinePut]
  obtain ⟨r1, r2, r3, r4, _⟩ := rewrite_spec hf hv "animated" [("type", .str (h.bare v).name.toList)] []
  have b1 := bare_rewrite hf hv "animated" [("type", .str (h.bare v).name.toList)] []
  set h1 := h.rewrite v "animated" [("type", .str (h.bare v).name.toList)] [] with hh1
  have hv1 : v < h1.size := hv.trans_le r4
  obtain ⟨o2, b2, n2⟩ := emptied_spec r1 hv1
  rw [b1] at b2 n2
  have hv2 : v < (h1.emptied v).size := hv1.trans_le o2.size
  rw [r2]
  have hw : waypoints F ctx (.tag "animated" [("type", .str (h.bare v).name.toList)] []) = .ok [] := by
    simp [waypoints, waypointTags, Node.tagKids, Node.name, Node.kids]
  rw [hw]
  simp only [zeroClash, List.any_nil, Bool.false_eq_true, and_false, decide_false, if_false, putWp, n2, b2, Node.name,
    Node.attrs]
  simp only [rateClash_one, Bool.false_eq_true, if_false]
  have key : LostAt (h.bare v).name ⟨q, f⟩ "clamped".toList "clamped".toList
      (((h1.emptied v).rewrite v "animated" [("type", .str (h.bare v).name.toList)]
        (withNewlines ((sortWps [⟨⟨q, f⟩, "clamped".toList, "clamped".toList,
          .tag "animated" [("type", .str (h.bare v).name.toList)] []⟩]).map Waypoint.tag))).node v) := by
    rw [(rewrite_spec o2.forest hv2 _ _ _).2.1]
    rfl
  exact ⟨_, rfl, key, lost_unusable key⟩

/-- Assigning to a subscript of an animated value gives its element other contents, if it changes anything. -/
theorem setItem_shape (F : Fl) (ctx : Ctx) (c : VCls) (t : TimeArg) (x : SetArg) {n : Node} (hn : n.name = "animated") :
    (setItem F ctx c t x n).1 = n ∨ ∃ ks, (setItem F ctx c t x n).1 = n.setKids ks := by
  rw [setItem]
  cases ensureFps F ctx t with
  | error e => exact .inl rfl
  | ok t =>
    simp only []
    cases makeWp F ctx c t x with
    | error e => exact .inl rfl
    | ok w =>
      simp only [hn, if_true]
      cases waypoints F ctx n with
      | error e => exact .inl rfl
      | ok ws =>
        simp only []
        have sa : startAnimation n = n := by rw [startAnimation, if_pos hn]
        split
        · exact .inl rfl
        · rw [setWaypoints, if_neg (putWp_ne_nil _ _), sa]
          split
          · exact .inr ⟨_, rfl⟩
          · exact .inr ⟨_, rfl⟩

/-- What animating makes of a static value's element. -/
theorem animate_shape (F : Fl) (ctx : Ctx) (c : VCls) {s : String} {A : Attrs} {K : List Node} (hs : s ≠ "animated") :
    (animate F ctx c (.tag s A K)).1 = .tag s A K ∧ (animate F ctx c (.tag s A K)).2 ≠ .ok () ∨
      ∃ ks, (animate F ctx c (.tag s A K)).1 = .tag "animated" [("type", .str s.toList)] ks := by
  rw [animate, if_neg (show ¬ (Node.tag s A K).name = "animated" from hs)]
  cases getValue F ctx.root c (.tag s A K) with
  | error e => exact .inl ⟨rfl, by simp⟩
  | ok x =>
    simp only []
    have e : (startAnimation (.tag s A K)).setKids [] = .tag "animated" [("type", .str s.toList)] [] := by
      rw [startAnimation, if_neg (show ¬ (Node.tag s A K).name = "animated" from hs)]; rfl
    rw [e]
    rcases setItem_shape F ctx c (.num 0) (.py x) (n := .tag "animated" [("type", .str s.toList)] []) rfl with h | ⟨ks, h⟩
    · exact .inr ⟨[], h⟩
    · exact .inr ⟨ks, h⟩

/-- C159 fails for a value's own timeline also when the value is put into a waypoint which is then added:
`value.timeline.add(Waypoint(t, value))`, for any static value that can be animated, and any time and interpolations. -/
theorem c159_own_waypoint_is_lost {F : Fl} {ctx : Ctx} {c : VCls} {h : Dom} (hf : Forest h) {v : ℕ} (hv : v < h.size)
    (hvt : (h.bare v).isTag = true) (hst : (h.bare v).name ≠ "animated") {m : Node}
    (han : animate F ctx c (h.node v) = (m, .ok ())) (t : T) (b a : Str) (overwrite : Bool) :
    ∃ h', h.timelineAdd F ctx c v t b a v overwrite = (h', .ok ()) ∧
      LostAt (h.bare v).name t b a (h'.node v) ∧ Unusable (h'.node v) := by
  obtain ⟨s, A, K, ev⟩ : ∃ s A K, h.node v = .tag s A K := by
    cases e : h.lbl v with
    | text s => rw [bare, e] at hvt; cases hvt
    | tag n a => exact ⟨n, a, _, node_tag hf e⟩
  have hname : (h.bare v).name = s := by rw [← name_node hf, ev]; rfl
  rw [hname] at hst ⊢
  have hw : waypoints F ctx (h.node v) = .ok [] := by
    rw [waypoints, waypointTags, if_pos (show (h.node v).name ≠ "animated" by rw [ev]; exact hst), if_pos rfl]
  obtain ⟨ks, em⟩ : ∃ ks, m = .tag "animated" [("type", .str s.toList)] ks := by
    rcases animate_shape F ctx c (A := A) (K := K) hst with ⟨_, h2⟩ | ⟨ks, hk⟩
    · rw [← ev, han] at h2; exact absurd rfl h2
    · rw [← ev, han] at hk; exact ⟨ks, hk⟩
  have hmv : m ≠ h.node v := by
    rw [em, ev]; intro e; injection e with e; exact hst e.symm
  rw [timelineAdd, hw]
  simp only [List.any_nil, Bool.false_eq_true, if_false, clashes, List.flatMap_nil, delClashes, if_true, ite_self, han,
    if_neg hmv]
  subst em
  simp only [Node.name, Node.attrs, Node.kids]
  obtain ⟨r1, r2, r3, r4, _⟩ := rewrite_spec hf hv "animated" [("type", .str s.toList)] ks
  have b1 := bare_rewrite hf hv "animated" [("type", .str s.toList)] ks
  set h1 := h.rewrite v "animated" [("type", .str s.toList)] ks with hh1
  have hv1 : v < h1.size := hv.trans_le r4
  obtain ⟨o2, b2, n2⟩ := emptied_spec r1 hv1
  rw [b1] at b2 n2
  simp only [Node.name, Node.attrs] at b2 n2
  have hv2 : v < (h1.emptied v).size := hv1.trans_le o2.size
  rw [n2, b2]
  simp only [putWp, rateClash_one, Bool.false_eq_true, if_false]
  have key : LostAt s t b a (((h1.emptied v).rewrite v "animated" [("type", .str s.toList)]
        ((sortWps [⟨t, b, a, .tag "animated" [("type", .str s.toList)] []⟩]).map Waypoint.tag)).node v) := by
    rw [(rewrite_spec o2.forest hv2 _ _ _).2.1]
    rfl
  exact ⟨_, rfl, key, lost_unusable key⟩

/-- C159, what holds of `add`: for a waypoint whose value isn't the timeline's own (and doesn't have that inside it), the
element becomes what it should, with the value as it is now; and from then on, whatever is set or animated through the one
object doesn't show in the other. -/
theorem c159_added_copied_partial {F : Fl} {ctx : Ctx} {c : VCls} {h : Dom} (hf : Forest h) {v x : ℕ} (hv : v < h.size)
    (hvt : (h.bare v).isTag = true) (hx : x < h.size) (hin : ¬ Within h v x) (t : T) (b a : Str) (overwrite : Bool) :
    ∃ h' r, h.timelineAdd F ctx c v t b a x overwrite = (h', r) ∧
      addWaypoints F ctx c [⟨t, b, a, h.node x⟩] overwrite (h.node v) = (h'.node v, r) ∧
      h'.node x = h.node x ∧ (∀ y, y < h.size → ¬ Within h v y → h'.node y = h.node y) ∧
      (r = .ok () → ∀ n a ks, (h'.rewrite x n a ks).node v = h'.node v ∧
        (h'.rewrite v n a ks).node x = h'.node x) := by
  have hxv : x ≠ v := fun e => hin (e ▸ .refl)
  rw [addWaypoints, timelineAdd]
  cases waypoints F ctx (h.node v) with
  | error e => exact ⟨h, _, rfl, rfl, rfl, fun _ _ _ => rfl, fun h => by cases h⟩
  | ok existing =>
    simp only [List.any_cons, List.any_nil, Bool.or_false]
    split
    · exact ⟨h, _, rfl, rfl, rfl, fun _ _ _ => rfl, fun h => by cases h⟩
    · generalize (if overwrite = true then delClashes (clashes existing [⟨t, b, a, h.node x⟩]) existing
        else if clashes existing [⟨t, b, a, h.node x⟩] = [] then Except.ok existing else Except.error Err.value) = kr
      cases kr with
      | error e => exact ⟨h, _, rfl, rfl, rfl, fun _ _ _ => rfl, fun h => by cases h⟩
      | ok kept =>
        obtain ⟨m, o, hr⟩ : ∃ m o, animate F ctx c (h.node v) = (m, o) := ⟨_, _, rfl⟩
        rw [hr]
        simp only []
        set h1 : Dom := if m = h.node v then h else h.rewrite v m.name m.attrs m.kids with hh1
        obtain ⟨s, A, K, ev⟩ : ∃ s A K, h.node v = .tag s A K := by
          cases e : h.lbl v with
          | text s => rw [bare, e] at hvt; cases hvt
          | tag n a => exact ⟨n, a, _, node_tag hf e⟩
        have rt : ∃ s' A' K', m = .tag s' A' K' := by
          by_cases hs : s = "animated"
          · refine ⟨s, A, K, ?_⟩
            rw [animate, if_pos (by rw [ev]; exact hs), ev] at hr
            injection hr with hr _
            exact hr.symm
          · rcases animate_shape F ctx c (A := A) (K := K) hs with ⟨h1, _⟩ | ⟨ks, hk⟩
            · rw [← ev, hr, ev] at h1; exact ⟨s, A, K, h1⟩
            · rw [← ev, hr] at hk; exact ⟨_, _, ks, hk⟩
        obtain ⟨s', A', K', er⟩ := rt
        have o1 : OnlyAt v h h1 := by
          rw [hh1]; split
          · exact OnlyAt.refl hf v
          · exact onlyAt_rewrite hf hv _ _ _
        have n1 : h1.node v = m := by
          rw [hh1]; split
          · rename_i e; exact e.symm
          · rw [(rewrite_spec hf hv _ _ _).2.1, er]; rfl
        have hv1 : v < h1.size := hv.trans_le o1.size
        have b1 : (h1.bare v).name = s' ∧ (h1.bare v).attrs = A' := by
          rw [← name_node o1.forest, ← attrs_node o1.forest, n1, er]; exact ⟨rfl, rfl⟩
        obtain ⟨o2, b2, n2⟩ := emptied_spec o1.forest hv1
        rw [b1.1, b1.2] at b2 n2
        have o12 := o1.trans o2
        have x2 : (h1.emptied v).node x = h.node x := o12.node hf hx hin
        have hv2 : v < (h1.emptied v).size := hv1.trans_le o2.size
        have hx2 : x < (h1.emptied v).size := hx.trans_le o12.size
        have zc : zeroClash t [⟨t, b, a, h.node x⟩] = false := by
          have : t.fpsDiffer t = false := by rw [T.fpsDiffer]; split <;> simp_all
          simp [zeroClash, this]
        cases h2 : o with
        | error e =>
          simp only []
          exact ⟨h1, _, rfl, by rw [n1], o1.node hf hx hin, fun y hy hn => o1.node hf hy hn, fun h => by cases h⟩
        | ok u =>
          simp only [List.foldl_cons, List.foldl_nil, putWp, zc, Bool.false_eq_true, if_false, x2, b2, Node.name,
            Node.attrs]
          by_cases rc : rateClash (putWp ⟨t, b, a, h.node x⟩ kept) = true
          · simp only [if_pos rc]
            refine ⟨h1.emptied v, _, rfl, ?_, x2, fun y hy hn => o12.node hf hy hn, fun h => by cases h⟩
            rw [n2, er]; exact (if_pos rc).trans rfl
          · simp only [if_neg rc]
            have o3 := o12.trans (onlyAt_rewrite o2.forest hv2 s' A'
              ((sortWps (putWp ⟨t, b, a, h.node x⟩ kept)).map Waypoint.tag))
            refine ⟨_, _, rfl, ?_, o3.node hf hx hin, fun y hy hn => o3.node hf hy hn, fun _ n a ks => ?_⟩
            · rw [(rewrite_spec o2.forest hv2 _ _ _).2.1, er]; exact (if_neg rc).trans rfl
            · exact ⟨(c144_set o3.forest (hx.trans_le o3.size) n a ks).2 v (hv.trans_le o3.size)
                  (not_within_rewritten o2.forest hv2 hx2 hxv _ _ _),
                (c144_set o3.forest (hv.trans_le o3.size) n a ks).2 x (hx.trans_le o3.size)
                  fun hw => hin (o3.outside hf hv hw)⟩

/-! ## Concrete cases -/

/-- An animation of 24 frames per second, around `exDom`. -/
def exHome : Ctx := ⟨some [("fps", .str "24".toList)], true⟩

/-- The circle's depth is given the star's at one second; then the star's is changed. -/
example : ∃ h', exDom.timelineSet double exHome 7 (.num 24) 12 = (h', .ok ()) ∧
    h'.node 7 = .tag "animated" [("type", .str "real".toList)] [.tag "waypoint" [("time", .t ⟨24, some 24⟩),
      ("before", .str "clamped".toList), ("after", .str "clamped".toList)] [exRealTag "2.0"]] ∧
    (h'.rewrite 12 "real" [("value", .str "5.0".toList)] []).node 7 = h'.node 7 := by
  obtain ⟨h', r, h1, h2, _, _, h5⟩ := c159_copied_partial (F := double) (ctx := exHome) (c := .real) exDom_forest
    (v := 7) (x := 12) (by decide +kernel) (by decide +kernel) (by decide +kernel) (exDom_outside (by decide +kernel))
    (.num 24)
  have e : setItem double exHome .real (.num 24) (.py (.val .real none (exDom.node 12))) (exDom.node 7) =
      (.tag "animated" [("type", .str "real".toList)] [.tag "waypoint" [("time", .t ⟨24, some 24⟩),
      ("before", .str "clamped".toList), ("after", .str "clamped".toList)] [exRealTag "2.0"]], .ok ()) := by
    decide +kernel
  rw [e] at h2
  injection h2 with h2 h3
  subst h3
  exact ⟨h', h1, h2.symm, (h5 rfl _ _ _).1⟩

/-- The circle's depth is put on its own timeline. -/
example : ∃ h', exDom.timelineSet double exHome 7 (.num 0) 7 = (h', .ok ()) ∧
    LostAt "real" ⟨0, some 24⟩ "clamped".toList "clamped".toList (h'.node 7) := by
  have := c159_own_value_is_lost (F := double) (ctx := exHome) exDom_forest (v := 7) (by decide +kernel)
    (by decide +kernel) (f := some 24) (by decide +kernel) (t := .num 0) (q := 0)
    (.num (f := some 24) (by decide +kernel) le_rfl)
  obtain ⟨h', h1, h2, _⟩ := this
  exact ⟨h', h1, by rwa [show (exDom.bare 7).name = "real" by decide +kernel] at h2⟩

/-- The same through a waypoint. -/
example : ∃ h', exDom.timelineAdd double exHome .real 7 ⟨12, none⟩ "linear".toList "ease".toList 7 false = (h', .ok ()) ∧
    LostAt "real" ⟨12, none⟩ "linear".toList "ease".toList (h'.node 7) := by
  obtain ⟨h', h1, h2, _⟩ := c159_own_waypoint_is_lost (F := double) (ctx := exHome) (c := .real) exDom_forest (v := 7)
    (by decide +kernel) (by decide +kernel) (by decide +kernel)
    (m := (animate double exHome .real (exDom.node 7)).1) (by decide +kernel) ⟨12, none⟩ "linear".toList "ease".toList false
  exact ⟨h', h1, by rwa [show (exDom.bare 7).name = "real" by decide +kernel] at h2⟩

/-- A waypoint with the star's depth is added to the circle's timeline. -/
example : ∃ h' r, exDom.timelineAdd double exHome .real 7 ⟨12, none⟩ "linear".toList "ease".toList 12 false = (h', r) ∧
    r = .ok () ∧ h'.node 12 = exRealTag "2.0" := by
  obtain ⟨h', r, h1, h2, h3, _⟩ := c159_added_copied_partial (F := double) (ctx := exHome) (c := .real) exDom_forest
    (v := 7) (x := 12) (by decide +kernel) (by decide +kernel) (by decide +kernel) (exDom_outside (by decide +kernel))
    ⟨12, none⟩ "linear".toList "ease".toList false
  have e : (addWaypoints double exHome .real [⟨⟨12, none⟩, "linear".toList, "ease".toList, exDom.node 12⟩] false
      (exDom.node 7)).2 = .ok () := by decide +kernel
  exact ⟨h', r, h1, by rw [h2] at e; exact e, h3.trans (by decide +kernel)⟩

end Sang
