import Verif.Timeline
import Verif.Spec.Timeline

/-! Helper lemmas about timelines. -/

namespace Sang

open Spec

theorem mapRes_mem {α β : Type} {f : α → Res β} {l : List α} {r : List β} (h : mapRes f l = .ok r)
    {y : β} (hy : y ∈ r) : ∃ x ∈ l, f x = .ok y := by
  induction l generalizing r with
  | nil => simp [mapRes] at h; subst h; simp at hy
  | cons a l ih =>
    simp only [mapRes] at h
    cases ha : f a with
    | error e => simp [ha] at h
    | ok b =>
      simp only [ha] at h
      cases hr : mapRes f l with
      | error e => simp [hr] at h
      | ok r' =>
        simp only [hr] at h
        injection h with h; subst h
        rcases List.mem_cons.1 hy with rfl | hy
        · exact ⟨a, by simp, ha⟩
        · obtain ⟨x, hx, hfx⟩ := ih hr hy
          exact ⟨x, by simp [hx], hfx⟩

theorem mapRes_map_ok {α β : Type} {f : α → Res β} {g : β → α} {l : List β}
    (h : ∀ y ∈ l, f (g y) = .ok y) : mapRes f (l.map g) = .ok l := by
  induction l with
  | nil => rfl
  | cons a l ih =>
    simp only [List.map_cons, mapRes, h a (by simp), ih fun y hy => h y (by simp [hy])]

/-! ## Dicts of waypoints with one rate -/

/-- All the times have the rate `f`. -/
def AllFps (f : Option ℚ) (ws : List Waypoint) : Prop := ∀ w ∈ ws, w.time.fps = f

/-- No two are at the same time. -/
def Apart (ws : List Waypoint) : Prop := ws.Pairwise fun a b => a.time.frames ≠ b.time.frames

theorem sameKey_iff {a b : T} {f : Option ℚ} (ha : a.fps = f) (hb : b.fps = f) :
    a.sameKey b = true ↔ a.frames = b.frames := by
  cases a; cases b
  simp only [T.sameKey, decide_eq_true_eq, T.mk.injEq] at *
  subst ha hb
  constructor
  · rintro (⟨h, h'⟩ | ⟨h, _⟩) <;> simp_all
  · intro h; exact Or.inr ⟨h, rfl⟩

theorem fpsDiffer_same {a b : T} {f : Option ℚ} (ha : a.fps = f) (hb : b.fps = f) :
    a.fpsDiffer b = false := by
  simp only [T.fpsDiffer, ha, hb]
  cases f <;> simp

theorem rateClash_same {ws : List Waypoint} {f : Option ℚ} (h : AllFps f ws) :
    rateClash ws = false := by
  simp only [rateClash, List.any_eq_false, Bool.not_eq_true]
  intro a ha b hb
  exact fpsDiffer_same (h a ha) (h b hb)

theorem zeroClash_same {ws : List Waypoint} {f : Option ℚ} {t : T} (ht : t.fps = f)
    (h : AllFps f ws) : zeroClash t ws = false := by
  simp only [zeroClash, decide_eq_false_iff_not]
  rintro ⟨-, hany⟩
  obtain ⟨x, hx, hd⟩ := List.any_eq_true.1 hany
  rw [decide_eq_true_eq, fpsDiffer_same ht (h x hx)] at hd
  simp at hd

theorem mem_putWp {ws : List Waypoint} {f : Option ℚ} {w x : Waypoint} (hw : w.time.fps = f)
    (h : AllFps f ws) (ha : Apart ws) :
    x ∈ putWp w ws ↔ x = w ∨ (x ∈ ws ∧ x.time.frames ≠ w.time.frames) := by
  induction ws with
  | nil => simp [putWp]
  | cons y r ih =>
    have hy := h y (by simp)
    have hr : AllFps f r := fun z hz => h z (by simp [hz])
    have ha' := List.pairwise_cons.1 ha
    simp only [putWp]
    split
    · next hk =>
      rw [sameKey_iff hy hw] at hk
      simp only [List.mem_cons]
      constructor
      · rintro (h | h)
        · exact Or.inl h
        · exact Or.inr ⟨Or.inr h, by rw [← hk]; exact (ha'.1 x h).symm⟩
      · rintro (h | ⟨h | h, hne⟩)
        · exact Or.inl h
        · subst h; exact absurd hk hne
        · exact Or.inr h
    · next hk =>
      rw [sameKey_iff hy hw] at hk
      simp only [List.mem_cons, ih hr ha'.2]
      constructor
      · rintro (rfl | rfl | ⟨h1, h2⟩)
        · exact Or.inr ⟨Or.inl rfl, hk⟩
        · exact Or.inl rfl
        · exact Or.inr ⟨Or.inr h1, h2⟩
      · rintro (rfl | ⟨rfl | h1, h2⟩)
        · exact Or.inr (Or.inl rfl)
        · exact Or.inl rfl
        · exact Or.inr (Or.inr ⟨h1, h2⟩)

theorem allFps_putWp {ws : List Waypoint} {f : Option ℚ} {w : Waypoint} (hw : w.time.fps = f)
    (h : AllFps f ws) : AllFps f (putWp w ws) := by
  induction ws with
  | nil => simpa [putWp, AllFps] using hw
  | cons y r ih =>
    have hr : AllFps f r := fun z hz => h z (by simp [hz])
    simp only [putWp]
    split
    · intro x hx
      rcases List.mem_cons.1 hx with rfl | hx
      · exact hw
      · exact hr x hx
    · intro x hx
      rcases List.mem_cons.1 hx with rfl | hx
      · exact h _ (by simp)
      · exact ih hr x hx

theorem apart_putWp {ws : List Waypoint} {f : Option ℚ} {w : Waypoint} (hw : w.time.fps = f)
    (h : AllFps f ws) (ha : Apart ws) : Apart (putWp w ws) := by
  induction ws with
  | nil => simp [putWp, Apart]
  | cons y r ih =>
    have hy := h y (by simp)
    have hr : AllFps f r := fun z hz => h z (by simp [hz])
    have ha' := List.pairwise_cons.1 ha
    simp only [putWp]
    split
    · next hk =>
      rw [sameKey_iff hy hw] at hk
      exact List.pairwise_cons.2 ⟨fun z hz => hk ▸ ha'.1 z hz, ha'.2⟩
    · next hk =>
      rw [sameKey_iff hy hw] at hk
      refine List.pairwise_cons.2 ⟨fun z hz => ?_, ih hr ha'.2⟩
      rcases (mem_putWp hw hr ha'.2).1 hz with rfl | ⟨hz, _⟩
      · exact hk
      · exact ha'.1 z hz

theorem putWp_ne_nil (w : Waypoint) (ws : List Waypoint) : putWp w ws ≠ [] := by
  cases ws with
  | nil => simp [putWp]
  | cons y r => simp only [putWp]; split <;> simp

/-- Putting in waypoints at new times: they go at the end. -/
theorem foldl_putWp_apart {f : Option ℚ} (ws acc : List Waypoint) (h : AllFps f (acc ++ ws))
    (ha : Apart (acc ++ ws)) : ws.foldl (fun d w => putWp w d) acc = acc ++ ws := by
  induction ws generalizing acc with
  | nil => simp
  | cons w r ih =>
    have hput : putWp w acc = acc ++ [w] := by
      have hall : ∀ x ∈ acc, x.time.sameKey w.time = false := by
        intro x hx
        rw [Bool.eq_false_iff, Ne, sameKey_iff (h x (by simp [hx])) (h w (by simp))]
        exact (List.pairwise_append.1 ha).2.2 x hx w (by simp)
      clear ih h ha
      induction acc with
      | nil => rfl
      | cons y q ihq =>
        simp only [putWp, hall y (by simp), Bool.false_eq_true, if_false, List.cons_append]
        rw [ihq fun x hx => hall x (by simp [hx])]
    simp only [List.foldl_cons, hput]
    rw [ih (acc ++ [w]) (by simpa using h) (by simpa using ha)]
    simp

theorem foldl_putWp_inv {f : Option ℚ} (ws acc : List Waypoint) (h : AllFps f ws) (hacc : AllFps f acc)
    (ha : Apart acc) :
    AllFps f (ws.foldl (fun d w => putWp w d) acc) ∧ Apart (ws.foldl (fun d w => putWp w d) acc) ∧
    ∀ x ∈ ws.foldl (fun d w => putWp w d) acc, x ∈ acc ∨ x ∈ ws := by
  induction ws generalizing acc with
  | nil => exact ⟨hacc, ha, fun x hx => Or.inl hx⟩
  | cons w r ih =>
    have hw := h w (by simp)
    obtain ⟨h1, h2, h3⟩ := ih (putWp w acc) (fun x hx => h x (by simp [hx])) (allFps_putWp hw hacc)
      (apart_putWp hw hacc ha)
    refine ⟨h1, h2, fun x hx => ?_⟩
    rcases h3 x hx with hx | hx
    · rcases (mem_putWp hw hacc ha).1 hx with rfl | ⟨hx, _⟩
      · simp
      · exact Or.inl hx
    · simp [hx]

theorem delWp_ok {ws : List Waypoint} {f : Option ℚ} {t : T} (ht : t.fps = f) (h : AllFps f ws)
    (ha : Apart ws) (hex : ∃ w ∈ ws, w.time.frames = t.frames) :
    ∃ ws', delWp t ws = .ok ws' ∧ AllFps f ws' ∧ Apart ws' ∧
      ∀ x, x ∈ ws' ↔ x ∈ ws ∧ x.time.frames ≠ t.frames := by
  induction ws with
  | nil => simp at hex
  | cons y r ih =>
    have hy := h y (by simp)
    have hr : AllFps f r := fun z hz => h z (by simp [hz])
    have ha' := List.pairwise_cons.1 ha
    simp only [delWp]
    by_cases hk : y.time.frames = t.frames
    · rw [if_pos ((sameKey_iff hy ht).2 hk)]
      refine ⟨r, rfl, hr, ha'.2, fun x => ?_⟩
      simp only [List.mem_cons]
      constructor
      · intro hx; exact ⟨Or.inr hx, fun e => ha'.1 x hx (hk.trans e.symm)⟩
      · rintro ⟨rfl | hx, hne⟩
        · exact absurd hk hne
        · exact hx
    · rw [if_neg (by rw [sameKey_iff hy ht]; exact hk)]
      obtain ⟨w, hw, hwt⟩ := hex
      have hw' : w ∈ r := by
        rcases List.mem_cons.1 hw with rfl | hw
        · exact absurd hwt hk
        · exact hw
      obtain ⟨ws', e1, e2, e3, e4⟩ := ih hr ha'.2 ⟨w, hw', hwt⟩
      rw [e1]
      refine ⟨y :: ws', rfl, ?_, ?_, ?_⟩
      · intro x hx
        rcases List.mem_cons.1 hx with rfl | hx
        · exact hy
        · exact e2 x hx
      · exact List.pairwise_cons.2 ⟨fun z hz => ha'.1 z ((e4 z).1 hz).1, e3⟩
      · intro x
        simp only [List.mem_cons, e4]
        constructor
        · rintro (rfl | ⟨h1, h2⟩)
          · exact ⟨Or.inl rfl, hk⟩
          · exact ⟨Or.inr h1, h2⟩
        · rintro ⟨rfl | h1, h2⟩
          · exact Or.inl rfl
          · exact Or.inr ⟨h1, h2⟩

theorem delWp_absent {ws : List Waypoint} {f : Option ℚ} {t : T} (ht : t.fps = f) (h : AllFps f ws)
    (hno : ∀ w ∈ ws, w.time.frames ≠ t.frames) : delWp t ws = .error .key := by
  induction ws with
  | nil => rfl
  | cons y r ih =>
    simp only [delWp]
    rw [if_neg (by rw [sameKey_iff (h y (by simp)) ht]; exact hno y (by simp)),
      ih (fun z hz => h z (by simp [hz])) fun z hz => hno z (by simp [hz])]

/-! ## Sorting -/

theorem mem_sortWps {ws : List Waypoint} {x : Waypoint} : x ∈ sortWps ws ↔ x ∈ ws :=
  (List.perm_insertionSort _ ws).mem_iff

theorem sortWps_ne_nil {ws : List Waypoint} (h : ws ≠ []) : sortWps ws ≠ [] := by
  intro e
  have := (List.perm_insertionSort (fun a b : Waypoint => a.time.frames ≤ b.time.frames) ws).length_eq
  rw [show List.insertionSort _ ws = [] from e] at this
  exact h (List.length_eq_zero_iff.1 this.symm)

/-- In order of time, no two at the same time. -/
def Ascending (ws : List Waypoint) : Prop := ws.Pairwise fun a b => a.time.frames < b.time.frames

theorem sortWps_le (ws : List Waypoint) :
    (sortWps ws).Pairwise fun a b => a.time.frames ≤ b.time.frames := by
  have : Std.Total fun a b : Waypoint => a.time.frames ≤ b.time.frames :=
    ⟨fun a b => le_total _ _⟩
  have : IsTrans Waypoint fun a b : Waypoint => a.time.frames ≤ b.time.frames :=
    ⟨fun a b c h1 h2 => le_trans h1 h2⟩
  exact List.pairwise_insertionSort _ ws

theorem apart_sortWps {ws : List Waypoint} (h : Apart ws) : Apart (sortWps ws) :=
  (List.perm_insertionSort (fun a b : Waypoint => a.time.frames ≤ b.time.frames) ws).symm.pairwise
    h fun h => h.symm

theorem ascending_sortWps {ws : List Waypoint} (h : Apart ws) : Ascending (sortWps ws) := by
  have h1 := sortWps_le ws
  have h2 := apart_sortWps h
  exact (h1.and h2).imp fun h => lt_of_le_of_ne h.1 h.2

theorem Ascending.apart {ws : List Waypoint} (h : Ascending ws) : Apart ws := h.imp fun h => ne_of_lt h

/-! ## Reading what was written -/

/-- A value that can be in a waypoint of a timeline of type `ty`: an element of that name, not
`animated`, which one of the value classes recognises. -/
def Legal (ty : Str) (v : Node) : Prop :=
  v.isTag = true ∧ v.name ≠ "animated" ∧ v.name.toList = ty ∧ ∃ c, fromTag v = .ok c

/-- A waypoint that reads back as itself. -/
def Readable (F : Fl) (root : Option Attrs) (ty : Str) (w : Waypoint) : Prop :=
  T.new F root (.t w.time) = .ok w.time ∧ checkInterp w.before = .ok w.before ∧
  checkInterp w.after = .ok w.after ∧ Legal ty w.val

theorem new_t_nonneg {F : Fl} {root : Option Attrs} {f : Option ℚ} (hf : readFps F root = .ok f)
    {t : T} (ht : t.fps = f) (h0 : 0 ≤ t.frames) : T.new F root (.t t) = .ok t := by
  cases t with
  | mk x g =>
    simp only [T.new, hf, framesOfNumber] at *
    rw [if_neg (not_lt.2 h0)]
    simp [ht]

theorem new_fps {F : Fl} {root : Option Attrs} {f : Option ℚ} (hf : readFps F root = .ok f)
    {a : TArg} {t : T} (h : T.new F root a = .ok t) : t.fps = f := by
  simp only [T.new, hf] at h
  split at h
  · simp at h
  · injection h with h; rw [← h]

theorem tagKids_tag (n : String) (a : Attrs) (k : List Node) :
    (Node.tag n a k).tagKids = k.filter Node.isTag := rfl

theorem fromTag_tag {F : Fl} {root : Option Attrs} {ty : Str} {w : Waypoint}
    (h : Readable F root ty w) : Waypoint.fromTag F root ty w.tag = .ok w := by
  obtain ⟨h1, h2, h3, h4, h5, h6, c, h7⟩ := h
  have hk : w.tag.tagKids = [w.val] := by
    simp [Waypoint.tag, tagKids_tag, h4]
  have hb : strAttr w.tag "before" = .ok w.before := rfl
  have ha : strAttr w.tag "after" = .ok w.after := rfl
  have ht : w.tag.attrs.get "time" = some (.t w.time) := rfl
  have hn : w.tag.name = "waypoint" := rfl
  simp only [Waypoint.fromTag, hn, ne_eq, not_true_eq_false, if_false, ht, AttrV.toTArg, h1, hk, h5, h6,
    h7, hb, ha, h2, h3]

/-- The outcomes of checking an interpolation. -/
theorem checkInterp_ok {s t : Str} (h : checkInterp s = .ok t) : checkInterp t = .ok t := by
  simp only [checkInterp] at h
  split at h
  · simp at h
  · next h1 =>
    split at h
    · next h2 =>
      injection h with h; subst h
      simp only [checkInterp, if_neg h1, if_pos h2]
    · split at h
      · next u hu =>
        injection h with h; subst h
        have := List.lookup_eq_some_iff.1 hu
        obtain ⟨l1, l2, hl, _⟩ := this
        have hm : (s, u) ∈ interpolationSynonyms.map fun p => (p.1.toList, p.2.toList) := by
          rw [hl]; simp
        obtain ⟨p, hp, hpe⟩ := List.mem_map.1 hm
        have key : ∀ p ∈ interpolationSynonyms, checkInterp p.2.toList = .ok p.2.toList := by
          decide +kernel
        injection hpe with _ hpe
        rw [← hpe]; exact key p hp
      · simp at h

/-- What is known of a waypoint that was read. -/
theorem fromTag_inv {F : Fl} {root : Option Attrs} {ty : Str} {n : Node} {w : Waypoint}
    (h : Waypoint.fromTag F root ty n = .ok w) :
    (∃ a, T.new F root a = .ok w.time) ∧ checkInterp w.before = .ok w.before ∧
    checkInterp w.after = .ok w.after ∧ Legal ty w.val := by
  simp only [Waypoint.fromTag] at h
  split at h
  · simp at h
  split at h
  · simp at h
  next a _ =>
  split at h
  · simp at h
  next t ht =>
  split at h
  · next v hv =>
    split at h
    · simp at h
    next hna =>
    split at h
    · simp at h
    next hty =>
    split at h
    · simp at h
    next c hc =>
    split at h
    · simp at h
    split at h
    · simp at h
    split at h
    · simp at h
    next b hb =>
    split at h
    · simp at h
    next a' ha' =>
    injection h with h; subst h
    refine ⟨⟨_, ht⟩, checkInterp_ok hb, checkInterp_ok ha', ?_, hna, ?_, c, hc⟩
    · have : v ∈ n.tagKids := by rw [hv]; simp
      exact (List.mem_filter.1 this).2
    · simpa using hty
  · simp at h

theorem filter_withNewlines (l : List Node) (h : ∀ x ∈ l, x.isTag = true) :
    (withNewlines l).filter Node.isTag = l := by
  induction l with
  | nil => rfl
  | cons x r ih =>
    have hx := h x (by simp)
    have hr := ih fun y hy => h y (by simp [hy])
    cases r with
    | nil => simp [withNewlines, hx]
    | cons y r =>
      simp only [withNewlines]
      rw [List.filter_cons_of_pos (by simpa using hx), List.filter_cons_of_neg (by simp [Node.isTag]), hr]

theorem tag_isTag (w : Waypoint) : w.tag.isTag = true := rfl

/-- A timeline whose elements are those of readable waypoints at different times is read as those
waypoints. -/
theorem waypoints_written {F : Fl} {ctx : Ctx} {f : Option ℚ} {ty : Str} {n : Node}
    {ws : List Waypoint} (hn : n.name = "animated") (hty : strAttr n "type" = .ok ty)
    (hk : n.tagKids = ws.map Waypoint.tag) (hr : ∀ w ∈ ws, Readable F ctx.root ty w)
    (hf : AllFps f ws) (ha : Apart ws) : waypoints F ctx n = .ok ws := by
  have hwt : waypointTags n = ws.map Waypoint.tag := by simp [waypointTags, hn, hk]
  simp only [waypoints, hwt, hty]
  split
  · next h => simp at h; simp [h]
  · rw [mapRes_map_ok fun w hw => fromTag_tag (hr w hw)]
    simp only
    rw [foldl_putWp_apart (f := f) ws [] (by simpa using hf) (by simpa using ha)]
    simp

/-- What is known of waypoints that were read. -/
theorem waypoints_inv {F : Fl} {ctx : Ctx} {f : Option ℚ} {ty : Str} {n : Node} {ws : List Waypoint}
    (hf : readFps F ctx.root = .ok f) (hty : ourType n = .ok ty)
    (h : waypoints F ctx n = .ok ws) :
    AllFps f ws ∧ Apart ws ∧ ∀ w ∈ ws, checkInterp w.before = .ok w.before ∧
      checkInterp w.after = .ok w.after ∧ Legal ty w.val := by
  simp only [waypoints] at h
  split at h
  · injection h with h; subst h; simp [AllFps, Apart]
  next hne =>
  have hn : n.name = "animated" := by
    by_contra hn
    simp [waypointTags, hn] at hne
  simp only [ourType, if_pos hn] at hty
  simp only [hty] at h
  split at h
  · simp at h
  next l hl =>
  injection h with h
  have hall : ∀ w ∈ l, w.time.fps = f ∧ checkInterp w.before = .ok w.before ∧
      checkInterp w.after = .ok w.after ∧ Legal ty w.val := by
    intro w hw
    obtain ⟨x, _, hx⟩ := mapRes_mem hl hw
    obtain ⟨⟨a, h1⟩, h2⟩ := fromTag_inv hx
    exact ⟨new_fps hf h1, h2⟩
  obtain ⟨h1, h2, h3⟩ := foldl_putWp_inv (f := f) l [] (fun w hw => (hall w hw).1)
    (by simp [AllFps]) (by simp [Apart])
  rw [h] at h1 h2 h3
  refine ⟨h1, h2, fun w hw => ?_⟩
  rcases h3 w hw with hx | hx
  · simp at hx
  · exact (hall w hx).2

end Sang
