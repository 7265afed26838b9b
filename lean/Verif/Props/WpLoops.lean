import Verif.WpLoop
import Verif.Props.Waypoints

/-!
# C173: loops over a timeline
-/

namespace Sang

open Spec

/-! ## What a waypoint that was read says -/

theorem denotes_own {F : Fl} {ctx : Ctx} {r : ℚ} (hf : readFps F ctx.root = .ok (some r)) {t : T} (ht : t.fps = some r)
    (h0 : 0 ≤ t.frames) : Denotes F ctx (.t t) t.frames := by
  obtain ⟨x, g⟩ := t
  simp only at ht h0 ⊢
  subst ht
  exact .withFps hf h0

/-- What is known of the waypoints of a timeline. -/
theorem timelineIs_list {F : Fl} {ctx : Ctx} {c : VCls} {r : ℚ} {ty : Str} {n : Node} {m : TMap}
    (hf : readFps F ctx.root = .ok (some r)) (hn : TimelineIs F ctx ty n m) :
    ∃ l, iterTimeline F ctx n = .ok l ∧ Ascending l ∧ Lists l m ∧
      ∀ w ∈ l, Denotes F ctx (.t w.time) w.time.frames ∧ Puts F c ty (.wp w) w.entry := by
  obtain ⟨-, hty, ws, hr, h0, hl⟩ := hn
  obtain ⟨i1, i2, i3⟩ := waypoints_inv hf hty hr
  refine ⟨sortWps ws, by rw [iterTimeline, hr], ascending_sortWps i2, lists_sort hl, fun w hw => ?_⟩
  rw [mem_sortWps] at hw
  obtain ⟨j1, j2, j3⟩ := i3 w hw
  exact ⟨denotes_own hf (i1 w hw) (h0 w hw), .waypoint (legalInterp_iff.2 j1) (legalInterp_iff.2 j2) j3⟩

/-! ## Deleting them all -/

theorem delEach {F : Fl} {ctx : Ctx} {r : ℚ} {ty : Str} (hf : readFps F ctx.root = .ok (some r)) (hp : ctx.hasParent = true) :
    ∀ (l : List Waypoint) (n : Node) (m : TMap) (z : Waypoint), TimelineIs F ctx ty n m → Ascending (l ++ [z]) →
      Lists (l ++ [z]) m → (∀ w ∈ l ++ [z], Denotes F ctx (.t w.time) w.time.frames) →
      forEachWp (delHere F ctx) (l ++ [z]) n = (z.val, .ok ()) ∧ z.val.name ≠ "animated"
  | [], n, m, z, hn, _, hl, hd => by
    have hm : m z.time.frames = some z.entry := (hl _ _).2 ⟨z, by simp, rfl, rfl⟩
    have honly : ∀ q ≠ z.time.frames, m q = none := by
      intro q hq
      cases hmq : m q with
      | none => rfl
      | some e =>
        obtain ⟨w, hw, h1, -⟩ := (hl q e).1 hmq
        rw [List.nil_append, List.mem_singleton] at hw
        exact absurd (hw ▸ h1.symm) hq
    obtain ⟨h1, h2⟩ := c35_delete_last hf hp hn (hd z (by simp)) hm honly
    refine ⟨?_, h2⟩
    rw [List.nil_append, forEachWp, delHere, h1]
    rfl
  | w :: l, n, m, z, hn, ha, hl, hd => by
    have hm : m w.time.frames = some w.entry := (hl _ _).2 ⟨w, by simp, rfl, rfl⟩
    obtain ⟨e1, e2⟩ := denotes_spec hf (hd w (by simp))
    obtain ⟨d1, d2, -, -⟩ := delItem_present hf hp hn e1 rfl hm
    rw [List.cons_append] at ha hl
    obtain ⟨ha1, ha2⟩ := List.pairwise_cons.1 ha
    have hl' : Lists (l ++ [z]) (m.erase w.time.frames) := by
      intro q e
      simp only [TMap.erase]
      split
      · next hq =>
        simp only [reduceCtorEq, false_iff]
        rintro ⟨v, hv, hvq, -⟩
        have := ha1 v hv
        rw [hvq, hq] at this
        exact lt_irrefl _ this
      · next hq =>
        rw [hl q e]
        constructor
        · rintro ⟨v, hv, hvq, hve⟩
          rcases List.mem_cons.1 hv with rfl | hv
          · exact absurd hvq.symm hq
          · exact ⟨v, hv, hvq, hve⟩
        · rintro ⟨v, hv, h⟩
          exact ⟨v, List.mem_cons_of_mem _ hv, h⟩
    have ih := delEach hf hp l _ _ z d2 ha2 hl' (fun v hv => hd v (by simp only [List.cons_append, List.mem_cons]; exact Or.inr hv))
    rw [List.cons_append, forEachWp, delHere]
    rw [show delItem F ctx (.t w.time) n = ((delItem F ctx (.t w.time) n).1, .ok ()) from Prod.ext rfl d1]
    exact ih

/-- C173. `for w in value.timeline: del value.timeline[w.time]`, on a timeline with waypoints: nothing is raised, and then the
value isn't animated and is what it was at its last waypoint. -/
theorem c173_delete_all {F : Fl} {ctx : Ctx} {r : ℚ} {ty : Str} {n : Node} {m : TMap}
    (hf : readFps F ctx.root = .ok (some r)) (hp : ctx.hasParent = true) (hn : TimelineIs F ctx ty n m) {q : ℚ} {e : Entry}
    (hq : m q = some e) (hlast : ∀ q' > q, m q' = none) :
    forTimeline F ctx (delHere F ctx) n = (e.value, .ok ()) ∧ e.value.name ≠ "animated" := by
  obtain ⟨l, h1, h2, h3, h4⟩ := timelineIs_list (c := .real) hf hn
  rw [forTimeline, h1]
  dsimp only
  obtain ⟨w, hw, hwq, hwe⟩ := (h3 q e).1 hq
  have hne : l ≠ [] := List.ne_nil_of_mem hw
  rw [← List.dropLast_append_getLast hne] at h2 h3 h4 ⊢
  have hz : l.getLast hne = w := by
    rw [← List.dropLast_append_getLast hne] at hw
    rcases List.mem_append.1 hw with hw | hw
    · have hlt := (List.pairwise_append.1 h2).2.2 w hw _ (List.mem_singleton_self _)
      have := (h3 (l.getLast hne).time.frames (l.getLast hne).entry).2 ⟨_, by simp, rfl, rfl⟩
      rw [hlast _ (by rw [← hwq]; exact hlt)] at this
      exact absurd this (by simp)
    · exact (List.mem_singleton.1 hw).symm
  have := delEach hf hp l.dropLast n m (l.getLast hne) hn h2 h3 (fun w hw => (h4 w hw).1)
  rw [hz, show w.val = e.value from by rw [← hwe]; rfl] at this
  rw [hz]
  exact this

/-! ## Moving them all -/

/-- One turn. -/
theorem moveTo_spec {F : Fl} {ctx : Ctx} {c : VCls} {r : ℚ} {ty : Str} {n : Node} {m : TMap}
    (hf : readFps F ctx.root = .ok (some r)) (hp : ctx.hasParent = true) (hn : TimelineIs F ctx ty n m) {dest : Waypoint → TimeArg}
    {w : Waypoint} {q : ℚ} (hd : Denotes F ctx (.t w.time) w.time.frames) (hpw : Puts F c ty (.wp w) w.entry)
    (ht : Denotes F ctx (dest w) q) {e : Entry} (hm : m w.time.frames = some e) :
    ∃ n', moveTo F ctx c dest w n = (n', .ok ()) ∧ TimelineIs F ctx ty n' ((m.erase w.time.frames).set q w.entry) := by
  obtain ⟨e1, e2⟩ := denotes_spec hf hd
  obtain ⟨d1, d2, -, -⟩ := delItem_present hf hp hn e1 rfl hm
  obtain ⟨s1, s2, -⟩ := run_spec hf hp d2 (Means.set ht hpw)
  refine ⟨_, ?_, s2⟩
  rw [moveTo, show delItem F ctx (.t w.time) n = ((delItem F ctx (.t w.time) n).1, .ok ()) from Prod.ext rfl d1]
  exact Prod.ext rfl s1

/-- All the turns: `G P` is the map once those in `P` have been moved. -/
theorem moveEach {F : Fl} {ctx : Ctx} {c : VCls} {r : ℚ} {ty : Str} {dest : Waypoint → TimeArg} {d : ℚ} {m : TMap}
    (hf : readFps F ctx.root = .ok (some r)) (hp : ctx.hasParent = true) (O : List Waypoint → Prop)
    (G : List Waypoint → TMap)
    (hG : ∀ P w R, Lists (P ++ w :: R) m → O (P ++ w :: R) →
      (∃ e, G P w.time.frames = some e) ∧
      G (P ++ [w]) = ((G P).erase w.time.frames).set (w.time.frames + d) w.entry) :
    ∀ (R P : List Waypoint) (n : Node), TimelineIs F ctx ty n (G P) → Lists (P ++ R) m →
      O (P ++ R) →
      (∀ w ∈ R, Denotes F ctx (.t w.time) w.time.frames ∧ Puts F c ty (.wp w) w.entry ∧
        Denotes F ctx (dest w) (w.time.frames + d)) →
      ∃ n', forEachWp (moveTo F ctx c dest) R n = (n', .ok ()) ∧ TimelineIs F ctx ty n' (G (P ++ R))
  | [], P, n, hn, _, _, _ => ⟨n, rfl, by rw [List.append_nil]; exact hn⟩
  | w :: R, P, n, hn, hl, ha, hd => by
    obtain ⟨⟨e, he⟩, hG'⟩ := hG P w R hl ha
    obtain ⟨d1, d2, d3⟩ := hd w (by simp)
    obtain ⟨n1, h1, h2⟩ := moveTo_spec hf hp hn d1 d2 d3 he
    rw [← hG'] at h2
    have hPR : P ++ w :: R = P ++ [w] ++ R := by simp
    rw [hPR] at hl ha ⊢
    obtain ⟨n2, h3, h4⟩ := moveEach hf hp O G hG R (P ++ [w]) n1 h2 hl ha (fun v hv => hd v (by simp [hv]))
    refine ⟨n2, ?_, h4⟩
    rw [forEachWp, h1]
    exact h3

/-- The times of some waypoints. -/
def timesOf (P : List Waypoint) : List ℚ := P.map fun w => w.time.frames

theorem timesOf_append (P : List Waypoint) (w : Waypoint) (q : ℚ) :
    q ∈ timesOf (P ++ [w]) ↔ q ∈ timesOf P ∨ q = w.time.frames := by
  simp only [timesOf, List.map_append, List.map_cons, List.map_nil, List.mem_append, List.mem_singleton]

theorem mem_timesOf {P : List Waypoint} {q : ℚ} : q ∈ timesOf P ↔ ∃ w ∈ P, w.time.frames = q := by
  simp only [timesOf, List.mem_map]

theorem lists_times {l : List Waypoint} {m : TMap} (hl : Lists l m) (q : ℚ) : q ∈ timesOf l ↔ (m q).isSome := by
  rw [mem_timesOf]
  constructor
  · rintro ⟨w, hw, rfl⟩
    rw [(hl _ _).2 ⟨w, hw, rfl, rfl⟩]; rfl
  · intro h
    obtain ⟨e, he⟩ := Option.isSome_iff_exists.1 h
    obtain ⟨w, hw, hq, -⟩ := (hl q e).1 he
    exact ⟨w, hw, hq⟩

/-- Moved one after another, away from those which haven't been moved yet. -/
def movedAway (m : TMap) (d : ℚ) (P : List Waypoint) : TMap := fun x =>
  if x - d ∈ timesOf P then m (x - d) else if x ∈ timesOf P then none else m x

/-- Moved one after another, towards those which haven't been moved yet. -/
def movedOnto (m : TMap) (d : ℚ) (P : List Waypoint) : TMap := fun x =>
  if x ∈ timesOf P then none else if x - d ∈ timesOf P then m (x - d) else m x

theorem movedAway_step {m : TMap} {d : ℚ} {P R : List Waypoint} {w : Waypoint} (hl : Lists (P ++ w :: R) m)
    (h : w.time.frames - d ∉ timesOf P) (h' : w.time.frames ∉ timesOf P) :
    (∃ e, movedAway m d P w.time.frames = some e) ∧
    movedAway m d (P ++ [w]) = ((movedAway m d P).erase w.time.frames).set (w.time.frames + d) w.entry := by
  have hm : m w.time.frames = some w.entry := (hl _ _).2 ⟨w, by simp, rfl, rfl⟩
  refine ⟨⟨w.entry, by rw [movedAway, if_neg h, if_neg h', hm]⟩, ?_⟩
  funext x
  simp only [movedAway, TMap.set, TMap.erase, timesOf_append]
  by_cases hx : x = w.time.frames + d
  · subst hx
    rw [if_pos rfl, add_sub_cancel_right, if_pos (Or.inr rfl), hm]
  · have hx' : x - d ≠ w.time.frames := fun h => hx (by rw [← h]; ring)
    rw [if_neg hx]
    by_cases hw : x = w.time.frames
    · subst hw
      rw [if_pos rfl, if_neg (by rintro (h1 | h1); exacts [h h1, hx' h1]), if_pos (Or.inr rfl)]
    · rw [if_neg hw]
      simp only [hx', hw, or_false]

theorem movedOnto_step {m : TMap} {d : ℚ} (hd : d ≠ 0) {P R : List Waypoint} {w : Waypoint} (hl : Lists (P ++ w :: R) m)
    (h : w.time.frames + d ∉ timesOf P) (h' : w.time.frames ∉ timesOf P) :
    (∃ e, movedOnto m d P w.time.frames = some e) ∧
    movedOnto m d (P ++ [w]) = ((movedOnto m d P).erase w.time.frames).set (w.time.frames + d) w.entry := by
  have hm : m w.time.frames = some w.entry := (hl _ _).2 ⟨w, by simp, rfl, rfl⟩
  constructor
  · rw [movedOnto, if_neg h']
    split
    · next hp =>
      obtain ⟨v, hv, hvq⟩ := mem_timesOf.1 hp
      exact ⟨v.entry, (hl _ _).2 ⟨v, by simp [hv], hvq, rfl⟩⟩
    · exact ⟨_, hm⟩
  funext x
  simp only [movedOnto, TMap.set, TMap.erase, timesOf_append]
  by_cases hx : x = w.time.frames + d
  · subst hx
    rw [if_pos rfl, if_neg (by rintro (h1 | h1); exacts [h h1, hd (by linarith)]), add_sub_cancel_right, if_pos (Or.inr rfl), hm]
  · have hx' : x - d ≠ w.time.frames := fun h => hx (by rw [← h]; ring)
    rw [if_neg hx]
    by_cases hw : x = w.time.frames
    · rw [if_pos (Or.inr hw), if_pos hw]
    · rw [if_neg hw]
      simp only [hx', hw, or_false]

theorem moved_none (m : TMap) (d : ℚ) : movedAway m d [] = m ∧ movedOnto m d [] = m := by
  constructor <;> · funext x; simp [movedAway, movedOnto, timesOf]

/-- Everything in the map, `d` later. -/
theorem movedAway_all {m : TMap} {d : ℚ} {l : List Waypoint} (hl : Lists l m) : movedAway m d l = fun x => m (x - d) := by
  funext x
  simp only [movedAway, lists_times hl]
  split
  · rfl
  · next h =>
    rw [Option.not_isSome_iff_eq_none.1 h]
    split
    · rfl
    · next h' => exact Option.not_isSome_iff_eq_none.1 h'

theorem movedOnto_all {m : TMap} {d : ℚ} {l : List Waypoint} (hl : Lists l m) :
    movedOnto m d l = fun x => if (m x).isSome then none else m (x - d) := by
  funext x
  simp only [movedOnto, lists_times hl]
  split
  · rfl
  · next h =>
    rw [Option.not_isSome_iff_eq_none.1 h]
    split
    · rfl
    · next h' => exact (Option.not_isSome_iff_eq_none.1 h').symm

theorem before_of_ascending {P R : List Waypoint} {w : Waypoint} (h : Ascending (P ++ w :: R)) {q : ℚ} (hq : q ∈ timesOf P) :
    q < w.time.frames := by
  obtain ⟨v, hv, rfl⟩ := mem_timesOf.1 hq
  exact (List.pairwise_append.1 h).2.2 v hv w (by simp)

theorem after_of_descending {P R : List Waypoint} {w : Waypoint} (h : Ascending (P ++ w :: R).reverse) {q : ℚ}
    (hq : q ∈ timesOf P) : w.time.frames < q := by
  obtain ⟨v, hv, rfl⟩ := mem_timesOf.1 hq
  rw [Ascending, List.pairwise_reverse] at h
  exact (List.pairwise_append.1 h).2.2 v hv w (by simp)

/-- C173. `for w in timeline: del timeline[w.time]; timeline[w.time.frames + d] = w`, when `d` is negative and nothing would be
put before the start: nothing is raised, and all the waypoints are moved by `d`. The time can be given in any way; the other
things about the waypoints stay as they are. -/
theorem c173_earlier {F : Fl} {ctx : Ctx} {c : VCls} {r : ℚ} {ty : Str} {n : Node} {m : TMap}
    (hf : readFps F ctx.root = .ok (some r)) (hp : ctx.hasParent = true) (hn : TimelineIs F ctx ty n m) {d : ℚ} (hd : d < 0)
    {dest : Waypoint → TimeArg} (hdest : ∀ w, (m w.time.frames).isSome → Denotes F ctx (dest w) (w.time.frames + d)) :
    ∃ n', forTimeline F ctx (moveTo F ctx c dest) n = (n', .ok ()) ∧ TimelineIs F ctx ty n' (fun x => m (x - d)) := by
  obtain ⟨l, h1, h2, h3, h4⟩ := timelineIs_list (c := c) hf hn
  obtain ⟨n', h5, h6⟩ := moveEach (d := d) (m := m) (dest := dest) (c := c) hf hp Ascending (movedAway m d)
    (fun P w R hl ha => movedAway_step hl (fun h => by linarith [before_of_ascending ha h])
      (fun h => lt_irrefl _ (before_of_ascending ha h)))
    l [] n (by rw [(moved_none m d).1]; exact hn) h3 h2
    (fun w hw => ⟨(h4 w hw).1, (h4 w hw).2, hdest w ((lists_times h3 _).1 (mem_timesOf.2 ⟨w, hw, rfl⟩))⟩)
  rw [List.nil_append, movedAway_all h3] at h6
  exact ⟨n', by rw [forTimeline, h1]; exact h5, h6⟩

/-- C173. When `d` is positive, and the loop goes through the timeline backwards: all the waypoints are moved by `d`. -/
theorem c173_later {F : Fl} {ctx : Ctx} {c : VCls} {r : ℚ} {ty : Str} {n : Node} {m : TMap}
    (hf : readFps F ctx.root = .ok (some r)) (hp : ctx.hasParent = true) (hn : TimelineIs F ctx ty n m) {d : ℚ} (hd : 0 < d)
    {dest : Waypoint → TimeArg} (hdest : ∀ w, (m w.time.frames).isSome → Denotes F ctx (dest w) (w.time.frames + d)) :
    ∃ n', forReversed F ctx (moveTo F ctx c dest) n = (n', .ok ()) ∧ TimelineIs F ctx ty n' (fun x => m (x - d)) := by
  obtain ⟨l, h1, h2, h3, h4⟩ := timelineIs_list (c := c) hf hn
  have h3' : Lists l.reverse m := fun q e => by rw [h3 q e]; simp only [List.mem_reverse]
  obtain ⟨n', h5, h6⟩ := moveEach (d := d) (m := m) (dest := dest) (c := c) hf hp (fun l => Ascending l.reverse) (movedAway m d)
    (fun P w R hl ha => movedAway_step hl (fun h => by linarith [after_of_descending ha h])
      (fun h => lt_irrefl _ (after_of_descending ha h)))
    l.reverse [] n (by rw [(moved_none m d).1]; exact hn) h3' (by rw [List.nil_append, List.reverse_reverse]; exact h2)
    (fun w hw => by
      rw [List.mem_reverse] at hw
      exact ⟨(h4 w hw).1, (h4 w hw).2, hdest w ((lists_times h3 _).1 (mem_timesOf.2 ⟨w, hw, rfl⟩))⟩)
  rw [List.nil_append, movedAway_all h3'] at h6
  exact ⟨n', by rw [forReversed, h1]; exact h5, h6⟩

/-- C173. When `d` is positive, and the loop goes through the timeline forwards: nothing is raised, but a waypoint that is put
where there was another is lost. The rest are moved by `d`. -/
theorem c173_forwards {F : Fl} {ctx : Ctx} {c : VCls} {r : ℚ} {ty : Str} {n : Node} {m : TMap}
    (hf : readFps F ctx.root = .ok (some r)) (hp : ctx.hasParent = true) (hn : TimelineIs F ctx ty n m) {d : ℚ} (hd : 0 < d)
    {dest : Waypoint → TimeArg} (hdest : ∀ w, (m w.time.frames).isSome → Denotes F ctx (dest w) (w.time.frames + d)) :
    ∃ n', forTimeline F ctx (moveTo F ctx c dest) n = (n', .ok ()) ∧
      TimelineIs F ctx ty n' (fun x => if (m x).isSome then none else m (x - d)) := by
  obtain ⟨l, h1, h2, h3, h4⟩ := timelineIs_list (c := c) hf hn
  obtain ⟨n', h5, h6⟩ := moveEach (d := d) (m := m) (dest := dest) (c := c) hf hp Ascending (movedOnto m d)
    (fun P w R hl ha => movedOnto_step hd.ne' hl (fun h => by linarith [before_of_ascending ha h])
      (fun h => lt_irrefl _ (before_of_ascending ha h)))
    l [] n (by rw [(moved_none m d).2]; exact hn) h3 h2
    (fun w hw => ⟨(h4 w hw).1, (h4 w hw).2, hdest w ((lists_times h3 _).1 (mem_timesOf.2 ⟨w, hw, rfl⟩))⟩)
  rw [List.nil_append, movedOnto_all h3] at h6
  exact ⟨n', by rw [forTimeline, h1]; exact h5, h6⟩

/-- C173 is false of loops that go forwards: whenever two waypoints are `d` apart, the timeline doesn't end up as it was but for
the times. -/
theorem c173_forwards_loses {F : Fl} {ctx : Ctx} {c : VCls} {r : ℚ} {ty : Str} {n : Node} {m : TMap}
    (hf : readFps F ctx.root = .ok (some r)) (hp : ctx.hasParent = true) (hn : TimelineIs F ctx ty n m) {d : ℚ} (hd : 0 < d)
    {dest : Waypoint → TimeArg} (hdest : ∀ w, (m w.time.frames).isSome → Denotes F ctx (dest w) (w.time.frames + d))
    {q : ℚ} (hq : (m q).isSome) (hq' : (m (q + d)).isSome) :
    ¬ TimelineIs F ctx ty (forTimeline F ctx (moveTo F ctx c dest) n).1 (fun x => m (x - d)) := by
  obtain ⟨n', h1, h2⟩ := c173_forwards (c := c) hf hp hn hd hdest
  rw [h1]
  intro h3
  obtain ⟨-, -, ws, h4, -, h5⟩ := h2
  obtain ⟨-, -, ws', h4', -, h5'⟩ := h3
  rw [h4] at h4'
  injection h4' with h4'
  subst h4'
  have := congrFun (lists_ext h5 h5') (q + d)
  simp only [hq', if_true, add_sub_cancel_right] at this
  rw [← this] at hq
  exact absurd hq (by simp)

/-! ## Examples -/

/-- The time two seconds later, or earlier. -/
def exDest (d : ℚ) (w : Waypoint) : TimeArg := .num (w.time.frames + d)

theorem exDest_denotes (d : ℚ) (hd : d = 48) (w : Waypoint) (h : (exMap w.time.frames).isSome) :
    Denotes double ⟨some exRoot, true⟩ (exDest d w) (w.time.frames + d) := by
  subst hd
  have : w.time.frames = 0 ∨ w.time.frames = 48 := by
    by_contra hc
    push Not at hc
    simp only [exMap, TMap.set, TMap.empty, if_neg hc.1, if_neg hc.2, Option.isSome_none, Bool.false_eq_true] at h
  rcases this with h | h
  · rw [exDest, h]
    exact .num (f := some 24) (by decide +kernel) (by norm_num)
  · rw [exDest, h]
    exact .num (f := some 24) (by decide +kernel) (by norm_num)

/-- The hypotheses hold for `exTimeline`, and moving it by the time between its waypoints loses one or not. -/
example : ∃ n', forReversed double ⟨some exRoot, true⟩ (moveTo double ⟨some exRoot, true⟩ .real (exDest 48)) exTimeline =
    (n', .ok ()) ∧ TimelineIs double ⟨some exRoot, true⟩ "real".toList n' (fun x => exMap (x - 48)) :=
  c173_later (r := 24) (by decide +kernel) rfl exTimeline_is (by norm_num) (exDest_denotes 48 rfl)

/-- And back again. -/
example : ∃ n' n'', forReversed double ⟨some exRoot, true⟩ (moveTo double ⟨some exRoot, true⟩ .real (exDest 48)) exTimeline =
    (n', .ok ()) ∧ forTimeline double ⟨some exRoot, true⟩ (moveTo double ⟨some exRoot, true⟩ .real (exDest (-48))) n' =
    (n'', .ok ()) ∧ TimelineIs double ⟨some exRoot, true⟩ "real".toList n'' exMap := by
  obtain ⟨n', h1, h2⟩ := c173_later (c := .real) (r := 24) (by decide +kernel) rfl exTimeline_is (by norm_num)
    (exDest_denotes 48 rfl)
  obtain ⟨n'', h3, h4⟩ := c173_earlier (c := .real) (d := -48) (dest := exDest (-48)) (r := 24) (by decide +kernel) rfl h2
    (by norm_num) (by
      intro w h
      have : w.time.frames = 48 ∨ w.time.frames = 96 := by
        by_contra hc
        push Not at hc
        have h1 : w.time.frames - 48 ≠ 0 := fun h => hc.1 (by linarith)
        have h2 : w.time.frames - 48 ≠ 48 := fun h => hc.2 (by linarith)
        simp only [exMap, TMap.set, TMap.empty, if_neg h1, if_neg h2, Option.isSome_none, Bool.false_eq_true] at h
      rcases this with h | h
      · rw [exDest, h]
        exact .num (f := some 24) (by decide +kernel) (by norm_num)
      · rw [exDest, h]
        exact .num (f := some 24) (by decide +kernel) (by norm_num))
  refine ⟨n', n'', h1, h3, ?_⟩
  rw [show (fun x => exMap (x - -48 - 48)) = exMap from funext fun x => by congr 1; ring] at h4
  exact h4

example : ¬ TimelineIs double ⟨some exRoot, true⟩ "real".toList (forTimeline double ⟨some exRoot, true⟩
    (moveTo double ⟨some exRoot, true⟩ .real (exDest 48)) exTimeline).1 (fun x => exMap (x - 48)) :=
  c173_forwards_loses (r := 24) (q := 0) (by decide +kernel) rfl exTimeline_is (by norm_num)
    (exDest_denotes 48 rfl) (by decide +kernel) (by decide +kernel)

example : lenTimeline double ⟨some exRoot, true⟩ (forReversed double ⟨some exRoot, true⟩
      (moveTo double ⟨some exRoot, true⟩ .real (exDest 48)) exTimeline).1 = .ok 2 ∧
    lenTimeline double ⟨some exRoot, true⟩ (forTimeline double ⟨some exRoot, true⟩
      (moveTo double ⟨some exRoot, true⟩ .real (exDest 48)) exTimeline).1 = .ok 1 ∧
    forTimeline double ⟨some exRoot, true⟩ (delHere double ⟨some exRoot, true⟩) exTimeline = (exReal "10.0", .ok ()) := by
  decide +kernel

end Sang
