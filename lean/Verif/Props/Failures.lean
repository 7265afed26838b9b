import Verif.Props.Waypoints
import Verif.Props.WaypointRules

/-! # Changes to a timeline that raise: C113 -/

namespace Sang
open Spec

/-- All the waypoints that are read have the rate of the animation. -/
theorem waypoints_fps {F : Fl} {ctx : Ctx} {f : Option ℚ} {n : Node} {ws : List Waypoint}
    (hf : readFps F ctx.root = .ok f) (h : waypoints F ctx n = .ok ws) : AllFps f ws := by
  by_cases he : waypointTags n = []
  · simp only [waypoints, he, if_true, Except.ok.injEq] at h
    subst h
    simp [AllFps]
  · have hty : ∃ ty, ourType n = .ok ty := by
      have hn : n.name = "animated" := by
        by_contra hn
        exact he (by simp [waypointTags, hn])
      simp only [waypoints, he, if_false] at h
      simp only [ourType, hn, if_true]
      cases hs : strAttr n "type" with
      | error e => simp [hs] at h
      | ok ty => exact ⟨ty, rfl⟩
    obtain ⟨ty, hty⟩ := hty
    exact (waypoints_inv hf hty h).1

theorem delWp_subset {t : T} {ws ws' : List Waypoint} (h : delWp t ws = .ok ws') {x : Waypoint}
    (hx : x ∈ ws') : x ∈ ws := by
  induction ws generalizing ws' with
  | nil => simp [delWp] at h
  | cons y r ih =>
    simp only [delWp] at h
    split at h
    · injection h with h; subst h; exact List.mem_cons_of_mem _ hx
    · cases hr : delWp t r with
      | error e => simp [hr] at h
      | ok r' =>
        simp only [hr, Except.ok.injEq] at h
        subst h
        rcases List.mem_cons.1 hx with rfl | hx
        · simp
        · exact List.mem_cons_of_mem _ (ih hr hx)

theorem delClashes_subset {ts : List T} {ws ws' : List Waypoint} (h : delClashes ts ws = .ok ws')
    {x : Waypoint} (hx : x ∈ ws') : x ∈ ws := by
  induction ts generalizing ws with
  | nil => simp only [delClashes, Except.ok.injEq] at h; rw [h]; exact hx
  | cons t r ih =>
    simp only [delClashes] at h
    cases hr : delWp t ws with
    | error e => simp [hr] at h
    | ok r' =>
      simp only [hr] at h
      exact delWp_subset hr (ih h)

/-- A time which isn't from another animation: not a `T`, or one with no rate or with this rate. -/
def NotForeign (f : Option ℚ) : TimeArg → Prop
  | .t v => v.fps = none ∨ v.fps = f
  | _ => True

theorem ensureFps_native {F : Fl} {ctx : Ctx} {f : Option ℚ} (hf : readFps F ctx.root = .ok f)
    {t : TimeArg} (ht : NotForeign f t) {v : T} (h : ensureFps F ctx t = .ok v) : v.fps = f := by
  cases t with
  | num q => simp only [ensureFps] at h; exact new_fps hf h
  | str s => simp only [ensureFps] at h; exact new_fps hf h
  | other => simp [ensureFps] at h
  | t u =>
    simp only [ensureFps] at h
    cases hu : u.fps with
    | none => rw [hu] at h; exact new_fps hf h
    | some r =>
      rw [hu] at h
      simp only [Except.ok.injEq] at h
      subst h
      rcases ht with h | h
      · rw [hu] at h; cases h
      · exact h

/-- C113, the part that holds: if `timeline[t] = v` raises, and `t` isn't from another animation, then
the value is as it was. -/
theorem c113_set_fails_partial {F : Fl} {ctx : Ctx} {f : Option ℚ} (hf : readFps F ctx.root = .ok f)
    (c : VCls) (t : TimeArg) (ht : NotForeign f t) (v : SetArg) (n : Node) (hn : n.isTag = true) (e : Err)
    (h : (setItem F ctx c t v n).2 = .error e) : (setItem F ctx c t v n).1 = n := by
  simp only [setItem] at h ⊢
  cases h1 : ensureFps F ctx t with
  | error e => rfl
  | ok τ =>
    simp only [h1] at h ⊢
    cases h2 : makeWp F ctx c τ v with
    | error e => rfl
    | ok w =>
      simp only [h2] at h ⊢
      have hw : w.time.fps = f := by rw [makeWp_time h2]; exact ensureFps_native hf ht h1
      have hτ : τ.fps = f := ensureFps_native hf ht h1
      by_cases ha : n.name = "animated"
      · simp only [ha, if_true] at h ⊢
        cases h3 : waypoints F ctx n with
        | error e => rfl
        | ok ws =>
          simp only [h3] at h ⊢
          have hall := waypoints_fps hf h3
          rw [zeroClash_same hτ hall] at h ⊢
          simp only [Bool.false_eq_true, if_false, setWaypoints, if_neg (putWp_ne_nil w ws),
            rateClash_same (allFps_putWp hw hall)] at h
          cases h
      · exfalso
        simp only [ha, if_false] at h
        have hk : (startAnimation (n.setKids [])).kids = [] := by
          rw [startAnimation_kids, setKids_kids hn]
        rw [waypoints_empty F ctx hk] at h
        have hz : zeroClash τ [] = false := by simp [zeroClash]
        have hrc : rateClash [w] = false := rateClash_same (f := w.time.fps) (by simp [AllFps])
        simp only [hz, Bool.false_eq_true, if_false, setWaypoints, putWp, hrc, List.cons_ne_nil] at h
        cases h

/-- C113, the part that holds: if `del timeline[t]` raises, and the value is in a layer, then the
value is as it was. -/
theorem c113_delete_fails_partial {F : Fl} {ctx : Ctx} {f : Option ℚ} (hf : readFps F ctx.root = .ok f)
    (hp : ctx.hasParent = true) (t : TimeArg) (n : Node) (e : Err)
    (h : (delItem F ctx t n).2 = .error e) : (delItem F ctx t n).1 = n := by
  simp only [delItem] at h ⊢
  cases h1 : delKey F ctx t with
  | error e => rfl
  | ok key =>
    simp only [h1] at h ⊢
    cases h2 : waypoints F ctx n with
    | error e => rfl
    | ok ws =>
      simp only [h2] at h ⊢
      cases key with
      | none => rfl
      | some τ =>
        simp only at h ⊢
        cases hz : zeroClash τ ws with
        | true => rfl
        | false =>
          simp only [hz, Bool.false_eq_true, if_false] at h ⊢
          cases h3 : delWp τ ws with
          | error e => rfl
          | ok ws' =>
            simp only [h3] at h ⊢
            have hall := waypoints_fps hf h2
            have hall' : AllFps f ws' := fun x hx => hall x (delWp_subset h3 hx)
            simp only [setWaypoints] at h ⊢
            split at h
            · next he =>
              rw [if_pos he]
              simp only [unAnimate] at h ⊢
              split at h
              · cases h
              · next hn =>
                simp only [hn, if_false, h2] at h ⊢
                cases ws with
                | nil => rfl
                | cons w r => simp at h
            · simp only [rateClash_same hall', Bool.false_eq_true, if_false] at h
              cases h

/-- C113, the part that holds: if `timeline.add(waypoints)` raises, the value was animated, and the
times aren't from another animation, then the value is as it was. -/
theorem c113_add_fails_partial {F : Fl} {ctx : Ctx} {f : Option ℚ} (hf : readFps F ctx.root = .ok f)
    (c : VCls) (new : List Waypoint) (hnew : ∀ w ∈ new, w.time.fps = f) (over : Bool) (n : Node)
    (ha : n.name = "animated") (e : Err) (h : (addWaypoints F ctx c new over n).2 = .error e) :
    (addWaypoints F ctx c new over n).1 = n := by
  simp only [addWaypoints] at h ⊢
  cases h1 : waypoints F ctx n with
  | error e => rfl
  | ok ws =>
    have hall := waypoints_fps hf h1
    simp only [h1, no_differ hall hnew, Bool.false_eq_true, if_false] at h ⊢
    generalize hk : (if over = true then delClashes (clashes ws new) ws
      else if clashes ws new = [] then Except.ok ws else Except.error Err.value) = kept at h ⊢
    cases kept with
    | error e => rfl
    | ok kept =>
      have hkept : AllFps f kept := by
        intro x hx
        split at hk
        · exact hall x (delClashes_subset hk hx)
        · split at hk
          · injection hk with hk; rw [← hk] at hx; exact hall x hx
          · cases hk
      exfalso
      have hfold : ∀ (l : List Waypoint) (d : List Waypoint), AllFps f d → AllFps f l →
          AllFps f (l.foldl (fun d w => putWp w d) d) := by
        intro l
        induction l with
        | nil => intro d hd _; exact hd
        | cons w r ih =>
          intro d hd hl
          exact ih _ (allFps_putWp (hl w (by simp)) hd) (fun x hx => hl x (by simp [hx]))
      have hnew' := hfold new [] (by simp [AllFps]) hnew
      have hmerged := hfold _ kept hkept hnew'
      simp only [animate, ha, if_true, no_zeroClash hnew, rateClash_same hmerged,
        Bool.false_eq_true, if_false] at h
      cases h

theorem foreign_time_destroys {F : Fl} {ctx : Ctx} {r : ℚ} (hf : readFps F ctx.root = .ok (some r))
    (c : VCls) (q k : ℚ) (hk : k ≠ r) (hq : q ≠ 0) (v : SetArg) (n : Node) (hn : n.isTag = true)
    (w : Waypoint) (ws : List Waypoint) (hw : waypoints F ctx n = .ok (w :: ws)) (x : Waypoint)
    (hv : makeWp F ctx c ⟨q, some k⟩ v = .ok x) :
    (setItem F ctx c (.t ⟨q, some k⟩) v n).2 = .error .value ∧
    (setItem F ctx c (.t ⟨q, some k⟩) v n).1.name = "animated" ∧
    (setItem F ctx c (.t ⟨q, some k⟩) v n).1.kids = [] ∧
    waypoints F ctx (setItem F ctx c (.t ⟨q, some k⟩) v n).1 = .ok [] := by
  have ha : n.name = "animated" := by
    by_contra ha
    simp [waypoints, waypointTags, ha] at hw
  have hall := waypoints_fps hf hw
  have hx := makeWp_time hv
  have hput : putWp x (w :: ws) = (w :: ws) ++ [x] := by
    have : ∀ l : List Waypoint, AllFps (some r) l → putWp x l = l ++ [x] := by
      intro l
      induction l with
      | nil => intro _; rfl
      | cons y l ih =>
        intro h
        have hy : y.time.sameKey x.time = false := by
          have h1 : y.time.fps = some r := h y (by simp)
          simp only [T.sameKey, hx, decide_eq_false_iff_not, not_or, hq, and_false, not_false_eq_true,
            true_and]
          intro e
          rw [e] at h1
          simp only [Option.some.injEq] at h1
          exact hk h1
        simp only [putWp, hy, Bool.false_eq_true, if_false, List.cons_append,
          ih (fun z hz => h z (by simp [hz]))]
    exact this _ hall
  have hrc : rateClash ((w :: ws) ++ [x]) = true := by
    simp only [rateClash, List.any_eq_true]
    refine ⟨w, by simp, x, by simp, ?_⟩
    have h1 : w.time.fps = some r := hall w (by simp)
    simp [T.fpsDiffer, h1, hx, Ne.symm hk]
  have hz : zeroClash ⟨q, some k⟩ (w :: ws) = false := by simp [zeroClash, hq]
  have key : setItem F ctx c (.t ⟨q, some k⟩) v n = ((startAnimation n).setKids [], .error .value) := by
    simp only [setItem, ensureFps, hv, ha, if_true, hw, hz, Bool.false_eq_true, if_false, setWaypoints,
      hput, hrc]
    simp
  have ht := startAnimation_tag hn
  rw [key]
  refine ⟨rfl, ?_, ?_, ?_⟩
  · simp only [setKids_name, startAnimation_name hn]
  · simp only [setKids_kids ht]
  · exact waypoints_empty F ctx (setKids_kids ht [])

theorem foreign_zero_refused {F : Fl} {ctx : Ctx} {r : ℚ} (hf : readFps F ctx.root = .ok (some r))
    (c : VCls) (k : ℚ) (hk : k ≠ r) (v : SetArg) (n : Node)
    (w : Waypoint) (ws : List Waypoint) (hw : waypoints F ctx n = .ok ws) (hmem : w ∈ ws)
    (h0 : w.time.frames = 0) (x : Waypoint) (hv : makeWp F ctx c ⟨0, some k⟩ v = .ok x) :
    setItem F ctx c (.t ⟨0, some k⟩) v n = (n, .error .value) ∧
    delItem F ctx (.t ⟨0, some k⟩) n = (n, .error .value) := by
  have ha : n.name = "animated" := by
    by_contra ha
    simp only [waypoints, waypointTags, ne_eq, ha, not_false_eq_true, if_true, Except.ok.injEq] at hw
    subst hw
    simp at hmem
  have hz : zeroClash ⟨0, some k⟩ ws = true := by
    simp only [zeroClash, true_and, decide_eq_true_eq, List.any_eq_true]
    refine ⟨w, hmem, h0, ?_⟩
    simp [T.fpsDiffer, waypoints_fps hf hw w hmem, hk]
  constructor
  · simp only [setItem, ensureFps, hv, ha, if_true, hw, hz]
  · simp only [delItem, delKey, ensureFps, hw, hz, if_true]

/-- C113, violated: assigning at a time from another animation, with another rate, raises
`ValueError`; and all the waypoints the value had are lost. (This is so unless both are at zero.) -/
theorem c113_foreign_time_destroys {F : Fl} {ctx : Ctx} {r : ℚ} (hf : readFps F ctx.root = .ok (some r))
    (c : VCls) (q k : ℚ) (hk : k ≠ r) (hq : q ≠ 0) (n : Node) (hn : n.isTag = true)
    (w : Waypoint) (ws : List Waypoint) (hw : waypoints F ctx n = .ok (w :: ws))
    {ty : Str} {v : SetArg} {e : Entry} (hv : Puts F c ty v e) :
    (setItem F ctx c (.t ⟨q, some k⟩) v n).2 = .error .value ∧
    (setItem F ctx c (.t ⟨q, some k⟩) v n).1.name = "animated" ∧
    (setItem F ctx c (.t ⟨q, some k⟩) v n).1.kids = [] ∧
    waypoints F ctx (setItem F ctx c (.t ⟨q, some k⟩) v n).1 = .ok [] := by
  obtain ⟨x, hx, _⟩ := puts_spec (ctx := ctx) hv ⟨q, some k⟩
  exact foreign_time_destroys hf c q k hk hq v n hn w ws hw x hx

/-- C113. Assigning or deleting at zero of another animation, with another rate, when there is a
waypoint at zero, raises `ValueError` and changes nothing. -/
theorem c113_foreign_zero_refused {F : Fl} {ctx : Ctx} {r : ℚ} (hf : readFps F ctx.root = .ok (some r))
    (c : VCls) (k : ℚ) (hk : k ≠ r) (n : Node)
    (w : Waypoint) (ws : List Waypoint) (hw : waypoints F ctx n = .ok ws) (hmem : w ∈ ws)
    (h0 : w.time.frames = 0) {ty : Str} {v : SetArg} {e : Entry} (hv : Puts F c ty v e) :
    setItem F ctx c (.t ⟨0, some k⟩) v n = (n, .error .value) ∧
    delItem F ctx (.t ⟨0, some k⟩) n = (n, .error .value) := by
  obtain ⟨x, hx, _⟩ := puts_spec (ctx := ctx) hv ⟨0, some k⟩
  exact foreign_zero_refused hf c k hk v n w ws hw hmem h0 x hx

/-- C113, violated: deleting the only waypoint of a value which isn't in a layer raises `ValueError`,
and the waypoint is lost. -/
theorem c113_detached_delete_destroys {F : Fl} {root : Option Attrs} (t : TimeArg) (τ : T)
    (ht : t ≠ .other) (hτ : ensureFps F ⟨root, false⟩ t = .ok τ) (n : Node) (hn : n.isTag = true)
    (w : Waypoint) (hw : waypoints F ⟨root, false⟩ n = .ok [w]) (he : w.time = τ) :
    (delItem F ⟨root, false⟩ t n).2 = .error .value ∧ (delItem F ⟨root, false⟩ t n).1.kids = [] := by
  have ha : n.name = "animated" := by
    by_contra ha
    simp [waypoints, waypointTags, ha] at hw
  have hkey : delKey F ⟨root, false⟩ t = .ok (some τ) := by
    cases t <;> simp_all [delKey]
  have hz : zeroClash τ [w] = false := by
    subst he
    have : w.time.fpsDiffer w.time = false := fpsDiffer_same rfl rfl
    simp [zeroClash, this]
  have hd : delWp τ [w] = .ok [] := by simp [delWp, T.sameKey, he]
  simp only [delItem, hkey, hw, hz, Bool.false_eq_true, if_false, hd, setWaypoints, if_true, unAnimate,
    ha, ne_eq, not_true_eq_false]
  simp [setKids_kids hn]

/-- C113's hypotheses are met: five frames at thirty per second, in an animation at 24. -/
example : exTimeline.isTag = true ∧
    (∃ x, makeWp double ⟨some exRoot, true⟩ .real ⟨5, some 30⟩ (.py (.float 1)) = .ok x) ∧
    waypoints double ⟨some exRoot, true⟩ exTimeline = .ok exWps ∧
    (setItem double ⟨some exRoot, true⟩ .real (.t ⟨5, some 30⟩) (.py (.float 1)) exTimeline) =
      (.tag "animated" [("type", .str "real".toList)] [], .error .value) := by
  refine ⟨rfl, ⟨_, rfl⟩, by decide +kernel, by decide +kernel⟩

/-- C113's hypotheses are met: the timeline has a waypoint at zero. -/
example : ∃ w ∈ exWps, w.time.frames = 0 := ⟨_, .head _, rfl⟩

/-- C113's hypotheses are met: failures that change nothing. -/
example : (setItem double ⟨some exRoot, true⟩ .real (.num 5) (.py (.str "x".toList)) exTimeline).2 =
      .error .value ∧
    (delItem double ⟨some exRoot, true⟩ (.num 5) exTimeline).2 = .error .key ∧
    (addWaypoints double ⟨some exRoot, true⟩ .real exWps false exTimeline).2 = .error .value := by
  refine ⟨by decide +kernel, by decide +kernel, by decide +kernel⟩

end Sang
