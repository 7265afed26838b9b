import Verif.Views
import Verif.Props.Compare
import Verif.Props.Reading

/-! # C135: values as dictionaries -/

namespace Sang

open Spec

theorem lookup_iff_mem {κ α : Type} [DecidableEq κ] {l : List (κ × α)} (h : (l.map Prod.fst).Nodup) (k : κ)
    (v : α) : l.lookup k = some v ↔ (k, v) ∈ l := by
  refine ⟨fun hl => ?_, lookup_of_nodup h⟩
  induction l with
  | nil => simp at hl
  | cons p l ih =>
    obtain ⟨k', v'⟩ := p
    rw [List.lookup_cons] at hl
    split at hl
    · next he =>
      rw [beq_iff_eq] at he
      subst he
      simp only [Option.some.injEq] at hl
      subst hl
      simp
    · simp only [List.map_cons, List.nodup_cons] at h
      exact List.mem_cons_of_mem _ (ih h.2 hl)

theorem filter_name {l : List Node} (hnd : (l.map Node.name).Nodup) {x : Node} (hx : x ∈ l) :
    l.filter (fun y => y.name = x.name) = [x] := by
  obtain ⟨a, b, hab⟩ := List.append_of_mem hx
  rw [hab] at hnd ⊢
  simp only [List.map_append, List.map_cons, List.nodup_append, List.nodup_cons] at hnd
  rw [List.filter_append, List.filter_cons, if_pos (by simp), List.filter_eq_nil_iff.2, List.filter_eq_nil_iff.2]
  · rfl
  · intro y hy
    simp only [decide_eq_true_eq]
    exact fun hyk => hnd.2.1.1 (by rw [← hyk]; exact List.mem_map_of_mem hy)
  · intro y hy
    simp only [decide_eq_true_eq]
    exact fun hyk => hnd.2.2 y.name (List.mem_map_of_mem hy) x.name (by simp) hyk

/-! ## Gradients -/

/-- C135. All ways of looking at a gradient agree: its items are its positions with their colours, each position
once, in the order of `keys()`; `gradient[pos]` is what they say, and `KeyError` for any other position; `len` is
their number. If one of them raises, so do all, alike. -/
theorem c135_gradient (F : Fl) (ctx : Ctx) (n : Node) :
    (∀ l, gradientItems F n = .ok l →
      (l.map Prod.fst).Nodup ∧ gradientKeys F n = .ok (l.map Prod.fst) ∧ gradientValues F n = .ok (l.map Prod.snd) ∧
      valueLen F ctx .gradient n = .ok l.length ∧
      (∀ p c, gradientGet F n p = .ok c ↔ (p, c) ∈ l) ∧
      ∀ p, p ∉ l.map Prod.fst → gradientGet F n p = .error .key) ∧
    ∀ e, gradientItems F n = .error e → gradientKeys F n = .error e ∧ gradientValues F n = .error e ∧
      valueLen F ctx .gradient n = .error e ∧ ∀ p, gradientGet F n p = .error e := by
  refine ⟨fun l h => ?_, fun e h => ?_⟩
  · rw [gradientItems] at h
    have hnd := gradientStops_nodup h
    refine ⟨hnd, by simp [gradientKeys, h], by simp [gradientValues, h], by simp [valueLen, h], ?_, ?_⟩
    · intro p c
      rw [← lookup_iff_mem hnd, gradientGet, h]
      dsimp only
      cases l.lookup p <;> simp
    · intro p hp
      rw [gradientGet, h]
      dsimp only
      cases hl : l.lookup p with
      | none => rfl
      | some c => exact absurd (List.mem_map_of_mem ((lookup_iff_mem hnd p c).1 hl)) hp
  · rw [gradientItems] at h
    simp [gradientKeys, gradientValues, valueLen, gradientGet, h]

/-! ## Transformations -/

theorem compositeGet_of_mem {n : Node} {l : List (String × VCls × Node)}
    (h : mapRes compositeField n.tagKids = .ok l) (hnd : (n.tagKids.map Node.name).Nodup) {k : String}
    {p : VCls × Node} (hp : (k, p) ∈ l) : compositeGet n k = .ok p := by
  obtain ⟨x, hx, e⟩ := mapRes_mem h hp
  have hk : x.name = k := by
    rw [compositeField] at e
    split at e
    · cases e
    · split at e
      · split at e
        · cases e
        · simp only [Except.ok.injEq, Prod.mk.injEq] at e
          exact e.1
      · cases e
  have hf := filter_name hnd hx
  rw [hk] at hf
  rw [compositeGet, hf]
  dsimp only
  rw [compositeField] at e
  split at e
  · cases e
  · split at e
    · next v hv =>
      rw [hv]
      dsimp only
      split at e
      · cases e
      · next c hc =>
        simp only [Except.ok.injEq, Prod.mk.injEq] at e
        rw [e.2]
    · cases e

/-- C135. The same for transformations that have each part once. Subscripts and attributes give the parts; they
differ only in what they raise. -/
theorem c135_transformation_partial (F : Fl) (ctx : Ctx) (n : Node) (hnd : (n.tagKids.map Node.name).Nodup)
    (l : List (String × VCls × Node)) (h : compositeItems n = .ok l) :
    (l.map Prod.fst).Nodup ∧ compositeKeys n = l.map Prod.fst ∧ compositeValues n = .ok (l.map Prod.snd) ∧
    valueLen F ctx .composite n = .ok l.length ∧
    (∀ k p, compositeGet n k = .ok p ↔ (k, p) ∈ l) ∧ (∀ k p, compositeAttr n k = .ok p ↔ (k, p) ∈ l) ∧
    ∀ k, k ∉ l.map Prod.fst → compositeGet n k = .error .key ∧ compositeAttr n k = .error .attr := by
  have hv : compositeValues n = .ok (l.map Prod.snd) := by rw [compositeItems] at h; simp [compositeValues, h]
  rw [compositeItems, compositeDict] at h
  cases hm : mapRes compositeField n.tagKids with
  | error e => simp [hm] at h
  | ok r =>
    have hr := mapRes_compositeField hm
    simp only [hm] at h
    have hfold := foldl_dictSet_nodup r [] (by simpa [hr] using hnd)
    rw [hfold, List.nil_append] at h
    split at h
    · simp only [Except.ok.injEq] at h
      subst h
      have hget : ∀ k p, (k, p) ∈ r → compositeGet n k = .ok p := fun k p hp => compositeGet_of_mem hm hnd hp
      have hmiss : ∀ k, k ∉ r.map Prod.fst → compositeGet n k = .error .key := by
        intro k hk
        have : n.tagKids.filter (fun y => y.name = k) = [] := by
          rw [List.filter_eq_nil_iff]
          intro y hy
          simp only [decide_eq_true_eq]
          rintro rfl
          exact hk (by rw [hr]; exact List.mem_map_of_mem hy)
        rw [compositeGet, this]
      have hiff : ∀ k p, compositeGet n k = .ok p ↔ (k, p) ∈ r := by
        intro k p
        refine ⟨fun he => ?_, hget k p⟩
        by_cases hk : k ∈ r.map Prod.fst
        · obtain ⟨q, hq, rfl⟩ := List.mem_map.1 hk
          have := hget q.1 q.2 hq
          rw [this] at he
          injection he with he
          rw [← he]
          exact hq
        · rw [hmiss k hk] at he
          cases he
      refine ⟨by rw [hr]; exact hnd, by rw [compositeKeys, hr], hv, ?_, hiff, ?_, ?_⟩
      · rw [valueLen, ← mapRes_length hm]
      · intro k p
        rw [← hiff, compositeAttr]
        split
        · next he => rw [compositeGet, he]; simp
        · next f he =>
          split
          · next hf => rw [compositeGet, he]; simp [hf]
          · rfl
        · next h0 h1 =>
          rw [compositeGet]
          split
          · next he => exact absurd he h0
          · next f he => exact absurd he (h1 f)
          · simp
      · intro k hk
        have : n.tagKids.filter (fun y => y.name = k) = [] := by
          rw [List.filter_eq_nil_iff]
          intro y hy
          simp only [decide_eq_true_eq]
          rintro rfl
          exact hk (by rw [hr]; exact List.mem_map_of_mem hy)
        rw [compositeAttr, hmiss k hk, this]
        exact ⟨rfl, rfl⟩
    · cases h

/-- C135, violated otherwise: if there are two parts of one name, `keys()` has it twice and `len` counts both, but
the items have it once, and the subscript raises `ValueError`. -/
theorem c135_part_twice (F : Fl) (ctx : Ctx) (n : Node) (hnd : ¬ (n.tagKids.map Node.name).Nodup)
    (l : List (String × VCls × Node)) (h : compositeItems n = .ok l) :
    (l.map Prod.fst).Nodup ∧ ¬ (compositeKeys n).Nodup ∧
    (∃ k ∈ compositeKeys n, k ∈ l.map Prod.fst ∧ compositeGet n k = .error .value) ∧
    valueLen F ctx .composite n ≠ .ok l.length := by
  rw [compositeItems, compositeDict] at h
  cases hm : mapRes compositeField n.tagKids with
  | error e => simp [hm] at h
  | ok r =>
    have hr := mapRes_compositeField hm
    have hkeys := foldl_dictSet_keys r [] (by simp)
    simp only [hm] at h
    split at h
    · simp only [Except.ok.injEq] at h
      subst h
      refine ⟨hkeys.1, hnd, ?_, ?_⟩
      · rw [List.nodup_iff_sublist] at hnd
        push Not at hnd
        obtain ⟨k, hk⟩ := hnd
        have hmem : k ∈ n.tagKids.map Node.name := hk.subset (by simp)
        refine ⟨k, hmem, ?_, ?_⟩
        · rw [hkeys.2, hr]
          exact Or.inl hmem
        · have hlen : 2 ≤ (n.tagKids.filter (fun y => y.name = k)).length := by
            have h1 := hk.filter (fun y => decide (y = k))
            have h2 := h1.length_le
            rw [List.filter_map, List.length_map] at h2
            simpa [Function.comp_def] using h2
          rw [compositeGet]
          split
          · next he => rw [he] at hlen; simp at hlen
          · next he => rw [he] at hlen; simp at hlen
          · rfl
      · intro he
        simp only [valueLen, Except.ok.injEq] at he
        apply hnd
        -- as many distinct names as there are parts
        have hsub : (r.foldl (fun d p => dictSet p.1 p.2 d) []).map Prod.fst ⊆ n.tagKids.map Node.name := by
          intro k hk
          rw [hkeys.2, hr] at hk
          simpa using hk
        have hp : ((r.foldl (fun d p => dictSet p.1 p.2 d) []).map Prod.fst).Perm (n.tagKids.map Node.name) :=
          (List.subperm_of_subset hkeys.1 hsub).perm_of_length_le (by rw [List.length_map, List.length_map, he])
        exact hp.nodup_iff.1 hkeys.1
    · cases h

/-! ## Vectors -/

theorem vectorItems_ok {F : Fl} {n : Node} {l : List (String × ℚ)} (h : vectorItems F n = .ok l) :
    (vectorDict n).map Prod.fst = l.map Prod.fst ∧
    mapRes (fun p => floatOpt F p.2) (vectorDict n) = .ok (l.map Prod.snd) := by
  rw [vectorItems] at h
  generalize vectorDict n = d at h ⊢
  induction d generalizing l with
  | nil => simp only [mapRes, Except.ok.injEq] at h; subst h; exact ⟨rfl, rfl⟩
  | cons p d ih =>
    simp only [mapRes] at h ⊢
    cases hp : floatOpt F p.2 with
    | error e => simp [hp] at h
    | ok q =>
      simp only [hp] at h
      split at h
      · cases h
      · next l' hl =>
        simp only [Except.ok.injEq] at h
        subst h
        obtain ⟨a, b⟩ := ih hl
        simp [a, b]

theorem vectorDict_once {n : Node} (hnd : (n.tagKids.map Node.name).Nodup) :
    vectorDict n = n.tagKids.map fun x => (x.name, x.string?) := by
  have := foldl_dictSet_nodup (n.tagKids.map fun x => (x.name, x.string?)) []
    (by simpa [List.map_map, Function.comp_def] using hnd)
  rw [List.foldl_map, List.nil_append] at this
  exact this

/-- C135. Vectors that aren't animated and have each coordinate once: `items()`, `values()`, iterating, `len` and
subscripts agree; but `keys()` is sorted. -/
theorem c135_vector_partial (F : Fl) (ctx : Ctx) (n : Node) (hn : n.name ≠ "animated")
    (hnd : (n.tagKids.map Node.name).Nodup) (l : List (String × ℚ)) (h : vectorItems F n = .ok l) :
    (l.map Prod.fst).Nodup ∧ vectorValues F n = .ok (some (l.map Prod.snd)) ∧
    vectorIter F n = .ok (l.map Prod.snd) ∧ valueLen F ctx .vector n = .ok l.length ∧
    (∀ k q, vectorGet F n k = .ok q ↔ (k, q) ∈ l) ∧
    (∀ k, k ∉ l.map Prod.fst → vectorGet F n k = .error .key) ∧
    (vectorKeys n).Perm (l.map Prod.fst) ∧ (vectorKeys n).Pairwise (· ≤ ·) := by
  obtain ⟨h1, h2⟩ := vectorItems_ok h
  have hd := vectorDict_once hnd
  have hk : l.map Prod.fst = n.tagKids.map Node.name := by
    rw [← h1, hd, List.map_map]; rfl
  have hkn : (l.map Prod.fst).Nodup := by rw [hk]; exact hnd
  have hget : ∀ k q, (k, q) ∈ l → vectorGet F n k = .ok q := by
    intro k q hm
    rw [vectorItems] at h
    obtain ⟨p, hp, e⟩ := mapRes_mem h hm
    rw [hd] at hp
    obtain ⟨x, hx, rfl⟩ := List.mem_map.1 hp
    dsimp only at e
    split at e
    · cases e
    · next r hr =>
      simp only [Except.ok.injEq, Prod.mk.injEq] at e
      obtain ⟨rfl, rfl⟩ := e
      rw [vectorGet, filter_name hnd hx]
      exact hr
  have hmiss : ∀ k, k ∉ l.map Prod.fst → vectorGet F n k = .error .key := by
    intro k hk'
    have : n.tagKids.filter (fun y => y.name = k) = [] := by
      rw [List.filter_eq_nil_iff]
      intro y hy
      simp only [decide_eq_true_eq]
      rintro rfl
      exact hk' (by rw [hk]; exact List.mem_map_of_mem hy)
    rw [vectorGet, this]
  have hperm : (vectorKeys n).Perm (l.map Prod.fst) := by
    rw [← h1]; exact List.perm_insertionSort _ _
  refine ⟨hkn, by simp [vectorValues, hn, h2], by simp [vectorIter, hn, h2], ?_, ?_, hmiss, hperm, ?_⟩
  · rw [valueLen]
    have := congrArg List.length h1
    simpa using this
  · intro k q
    refine ⟨fun he => ?_, hget k q⟩
    by_cases hk' : k ∈ l.map Prod.fst
    · obtain ⟨p, hp, rfl⟩ := List.mem_map.1 hk'
      rw [hget p.1 p.2 hp] at he
      injection he with he
      rw [← he]
      exact hp
    · rw [hmiss k hk'] at he
      cases he
  · exact List.pairwise_insertionSort _ _

/-- C135, violated: so if y comes before x in the file, `zip(v.keys(), v.values())` mixes them up. -/
theorem c135_vector_order (F : Fl) (n : Node) (a b : ℚ) (hn : n.name ≠ "animated")
    (hnd : (n.tagKids.map Node.name).Nodup) (h : vectorItems F n = .ok [("y", b), ("x", a)]) :
    vectorKeys n = ["x", "y"] ∧ vectorValues F n = .ok (some [b, a]) ∧
    vectorGet F n "x" = .ok a ∧ vectorGet F n "y" = .ok b := by
  obtain ⟨-, h1, -, -, h2, -, -, -⟩ := c135_vector_partial F ⟨none, true⟩ n hn hnd _ h
  refine ⟨?_, h1, (h2 _ _).2 (by simp), (h2 _ _).2 (by simp)⟩
  rw [vectorKeys, (vectorItems_ok h).1]
  exact (by decide : sortNames ["y", "x"] = ["x", "y"])

/-- C135, violated: a vector that is animated has the one key `'waypoint'`, whatever its timeline, and no
values. -/
theorem c135_vector_animated (F : Fl) (ctx : Ctx) (n w : Node) (ks : List Node) (hn : n.name = "animated")
    (hk : n.tagKids = w :: ks) (hw : ∀ x ∈ w :: ks, x.name = "waypoint") :
    vectorKeys n = ["waypoint"] ∧ vectorValues F n = .ok none ∧ vectorIter F n = .error .type ∧
    valueLen F ctx .vector n = .ok 1 := by
  have hd : ∃ s, vectorDict n = [("waypoint", s)] := by
    rw [vectorDict, hk, List.foldl_cons, hw w (by simp)]
    have : ∀ (ks : List Node), (∀ x ∈ ks, x.name = "waypoint") → ∀ s : Option Str,
        ∃ t, ks.foldl (fun d x => dictSet x.name x.string? d) [("waypoint", s)] = [("waypoint", t)] := by
      intro ks hks
      induction ks with
      | nil => exact fun s => ⟨s, rfl⟩
      | cons y ks ih =>
        intro s
        rw [List.foldl_cons, hks y (by simp)]
        exact ih (fun x hx => hks x (by simp [hx])) _
    exact this ks (fun x hx => hw x (by simp [hx])) _
  obtain ⟨s, hd⟩ := hd
  refine ⟨by rw [vectorKeys, hd]; rfl, by simp [vectorValues, hn], by simp [vectorIter, hn], ?_⟩
  rw [valueLen, hd]
  rfl

/-! ## Timelines -/

/-- C135. Timelines: `items()`, `keys()` and `values()` are in the order of the file, each waypoint under its own
time; `list(timeline)` has the values in the order of their times. -/
theorem c135_timeline {F : Fl} {ctx : Ctx} {ty : Str} {n : Node} {ws : List Waypoint}
    (hn : n.name = "animated") (ht : n.attrs.get "type" = some (.str ty))
    (hw : List.Forall₂ (WpElement F ctx.root ty) n.tagKids ws)
    (hd : ws.Pairwise fun a b => a.time.frames ≠ b.time.frames) :
    timelineValues F ctx n = .ok ws ∧ timelineKeys F ctx n = .ok (ws.map Waypoint.time) ∧
    timelineItems F ctx n = .ok (ws.map fun w => (w.time, w)) ∧ lenTimeline F ctx n = .ok ws.length ∧
    ∃ l, iterTimeline F ctx n = .ok l ∧ l.Perm ws ∧ l.Pairwise fun a b => a.time.frames < b.time.frames := by
  have hws := waypoints_of_elements hn ht hw hd
  obtain ⟨l, h1, h2, h3, h4⟩ := c118_list hn ht hw hd
  refine ⟨hws, by rw [timelineKeys, hws], by rw [timelineItems, hws], ?_, l, h1, h2, h3⟩
  rw [h4, hw.length_eq]

/-! ## That the hypotheses are met -/

/-- A gradient as Synfig writes it. -/
def exViewStop (pos r : String) : Node :=
  .tag "color" [("pos", .str pos.toList)] [.tag "r" [] [.text r.toList], .tag "g" [] [.text "0.0".toList],
    .tag "b" [] [.text "0.0".toList], .tag "a" [] [.text "1.0".toList]]

example : gradientItems double (.tag "gradient" [] [exViewStop "0.5" "1.0", .text ['\n'], exViewStop "0.0" "0.2"]) =
    .ok [(1/2, exViewStop "0.5" "1.0"), (0, exViewStop "0.0" "0.2")] := by decide +kernel

/-- A transformation as Synfig writes it, with or without its angle a second time. -/
def exViewParts (more : List Node) : Node :=
  .tag "composite" [("type", .str "transformation".toList)]
    ([.tag "offset" [] [.tag "vector" [] [coordTag "x" 3, coordTag "y" 4]],
      .tag "angle" [] [.tag "angle" [("value", .str "30".toList)] []],
      .tag "skew_angle" [] [.tag "angle" [("value", .str "0".toList)] []],
      .tag "scale" [] [.tag "vector" [] [coordTag "x" 1, coordTag "y" 1]]] ++ more)

example : (∃ l, compositeItems (exViewParts []) = .ok l) ∧ ((exViewParts []).tagKids.map Node.name).Nodup ∧
    (let m := exViewParts [.tag "angle" [] [.tag "angle" [("value", .str "45".toList)] []]]
    (∃ l, compositeItems m = .ok l) ∧ ¬ (m.tagKids.map Node.name).Nodup) := by
  have h : ∀ {α : Type} (r : Res α), r.toOption.isSome = true → ∃ l, r = .ok l := by
    intro α r hr
    cases r with
    | error e => cases hr
    | ok l => exact ⟨l, rfl⟩
  exact ⟨h _ (by decide +kernel), by decide +kernel, h _ (by decide +kernel), by decide +kernel⟩

/-- Vectors, either way round; and an animated one. (For timelines see C118.) -/
example : vectorItems double (.tag "vector" [] [coordTag "x" 3, coordTag "y" 4]) = .ok [("x", 3), ("y", 4)] ∧
    vectorItems double (.tag "vector" [] [coordTag "y" 4, coordTag "x" 3]) = .ok [("y", 4), ("x", 3)] ∧
    (let m := Node.tag "animated" [("type", .str "vector".toList)] [.tag "waypoint" [("time", .str "0s".toList)]
      [.tag "vector" [] [coordTag "x" 3, coordTag "y" 4]]]
    m.tagKids ≠ [] ∧ ∀ x ∈ m.tagKids, x.name = "waypoint") := by
  refine ⟨by decide +kernel, by decide +kernel, by decide +kernel, by decide +kernel⟩

end Sang
