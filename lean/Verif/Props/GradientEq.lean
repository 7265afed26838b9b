import Verif.Props.Compare
import Verif.Lemmas.Legal
import Verif.Lemmas.Timeline

/-! # C167: when two gradients are equal -/

namespace Sang

open Spec

/-- All stops of the one are in the other with an equal colour. -/
theorem stopsEq_colors (F : Fl) (root : Option Attrs) (l : List (ℚ × Node)) (hnd : (l.map Prod.fst).Nodup)
    (hl : ∀ s ∈ l, ∃ t, colorHex F s.2 = .ok t) : ∀ a : List (ℚ × Node), (∀ s ∈ a, ∃ t, colorHex F s.2 = .ok t) →
    ∃ b, stopsEq F a (l.map fun p => (p.1, .val .color root p.2)) = .ok b ∧
      (b = true ↔ ∀ p c, (p, c) ∈ a → ∃ d, (p, d) ∈ l ∧ colorHex F c = colorHex F d) := by
  intro a
  induction a with
  | nil => exact fun _ => ⟨true, rfl, by simp⟩
  | cons x a ih =>
    intro ha
    obtain ⟨p, c⟩ := x
    obtain ⟨b, hb, hbi⟩ := ih fun s hs => ha s (List.mem_cons_of_mem _ hs)
    obtain ⟨t, ht⟩ := ha (p, c) List.mem_cons_self
    have hnd' : ((l.map fun p : ℚ × Node => (p.1, PV.val .color root p.2)).map Prod.fst).Nodup := by
      simpa [List.map_map, Function.comp_def] using hnd
    by_cases hp : ∃ d, (p, d) ∈ l
    · obtain ⟨d, hd⟩ := hp
      obtain ⟨u, hu⟩ := hl _ hd
      have hlk := lookup_of_nodup hnd' (List.mem_map.2 ⟨_, hd, rfl⟩)
      have huniq : ∀ e, (p, e) ∈ l → e = d := fun e he => by
        have h1 := lookup_of_nodup hnd he
        rw [lookup_of_nodup hnd hd] at h1
        exact (Option.some.inj h1).symm
      dsimp only at hlk ht hu
      by_cases htu : t = u
      · refine ⟨b, ?_, ?_⟩
        · simp only [stopsEq, hlk, colorEqAny, colorEq, ht, hu, htu, decide_true]
          exact hb
        · rw [hbi]
          constructor
          · intro h p' c' hm
            rcases List.mem_cons.1 hm with he | hm
            · cases he; exact ⟨d, hd, by rw [ht, hu, htu]⟩
            · exact h _ _ hm
          · exact fun h p' c' hm => h _ _ (List.mem_cons_of_mem _ hm)
      · refine ⟨false, ?_, ?_⟩
        · simp only [stopsEq, hlk, colorEqAny, colorEq, ht, hu, htu, decide_false]
        · simp only [Bool.false_eq_true, false_iff]
          intro h
          obtain ⟨e, he, hh⟩ := h p c List.mem_cons_self
          rw [huniq e he, ht, hu] at hh
          exact htu (Except.ok.inj hh)
    · refine ⟨false, ?_, ?_⟩
      · have : (l.map fun p : ℚ × Node => (p.1, PV.val .color root p.2)).lookup p = none := by
          rw [List.lookup_eq_none_iff]
          intro q hq
          obtain ⟨s, hs, rfl⟩ := List.mem_map.1 hq
          rw [bne_iff_ne]
          rintro rfl
          exact hp ⟨s.2, hs⟩
        simp only [stopsEq, this]
      · simp only [Bool.false_eq_true, false_iff]
        intro h
        obtain ⟨e, he, -⟩ := h p c List.mem_cons_self
        exact hp ⟨e, he⟩

/-- C167. Two gradients, of the same document or of different ones, whose colours can be read: whether they are equal can be
found out, and they are equal exactly if they have stops at the same positions, and at each position colours that are
written alike. -/
theorem c167_gradients (F : Fl) (root root' : Option Attrs) (n m : Node) (a l : List (ℚ × Node))
    (hn : gradientStops F n = .ok a) (hm : gradientStops F m = .ok l)
    (ha : ∀ s ∈ a, ∃ t, colorHex F s.2 = .ok t) (hl : ∀ s ∈ l, ∃ t, colorHex F s.2 = .ok t) :
    ∃ b, valueEq F root .gradient n (.val .gradient root' m) = .ok b ∧
      (b = true ↔ (∀ p, p ∈ a.map Prod.fst ↔ p ∈ l.map Prod.fst) ∧
        ∀ p c d, (p, c) ∈ a → (p, d) ∈ l → colorHex F c = colorHex F d) := by
  have hna := gradientStops_nodup hn
  have hnl := gradientStops_nodup hm
  have key : valueEq F root .gradient n (.val .gradient root' m) = if a.length ≠ l.length then .ok false else
      stopsEq F a (l.map fun p => (p.1, .val .color root' p.2)) := by
    simp only [valueEq, plainEq, gradientEq, hn, getValue, hm, List.length_map]
  rw [key]
  by_cases hlen : a.length = l.length
  · rw [if_neg (by simpa using hlen)]
    obtain ⟨b, hb, hbi⟩ := stopsEq_colors F root' l hnl hl a ha
    refine ⟨b, hb, hbi.trans ⟨fun h => ?_, fun h p c hc => ?_⟩⟩
    · have hsub : a.map Prod.fst ⊆ l.map Prod.fst := by
        intro p hp
        obtain ⟨⟨p, c⟩, hc, rfl⟩ := List.mem_map.1 hp
        obtain ⟨d, hd, -⟩ := h p c hc
        exact List.mem_map.2 ⟨_, hd, rfl⟩
      have hperm : (a.map Prod.fst).Perm (l.map Prod.fst) :=
        (List.subperm_of_subset hna hsub).perm_of_length_le (by simp [hlen])
      refine ⟨fun p => hperm.mem_iff, fun p c d hc hd => ?_⟩
      obtain ⟨e, he, hh⟩ := h p c hc
      have h1 := lookup_of_nodup hnl he
      rw [lookup_of_nodup hnl hd] at h1
      rw [hh, Option.some.inj h1]
    · obtain ⟨⟨p', d⟩, hd, hpe⟩ := List.mem_map.1 ((h.1 p).1 (List.mem_map.2 ⟨_, hc, rfl⟩))
      dsimp only at hpe
      subst hpe
      exact ⟨d, hd, h.2 _ _ _ hc hd⟩
  · rw [if_pos hlen]
    refine ⟨false, rfl, ?_⟩
    simp only [Bool.false_eq_true, false_iff]
    rintro ⟨h, -⟩
    have hperm : (a.map Prod.fst).Perm (l.map Prod.fst) := (List.perm_ext_iff_of_nodup hna hnl).2 h
    exact hlen (by simpa using hperm.length_eq)

/-- The colours of a gradient are elements of that name. -/
theorem gradientStops_color {F : Fl} {n : Node} {l : List (ℚ × Node)} (h : gradientStops F n = .ok l) :
    ∀ s ∈ l, s.2.name = "color" := by
  intro s hs
  simp only [gradientStops] at h
  split at h
  · cases h
  · cases hm : mapRes (stopOf F) (n.findAll "color") with
    | error e => simp [hm] at h
    | ok r =>
      simp only [hm, Except.ok.injEq] at h
      subst h
      rcases mem_foldl_dictSet hs with hs | hs
      · obtain ⟨c, hc, hcs⟩ := mapRes_mem hm hs
        have hn : c.name = "color" := by
          have := (List.mem_filter.1 hc).2
          simpa using this
        simp only [stopOf] at hcs
        split at hcs
        · cases hcs
        · split at hcs
          · cases hcs
          · cases hcs; exact hn
      · cases hs

/-- C167. A gradient that was set to a dict of at least two colours as hexadecimal digits, each with or without a hash, equals
that dict, if each position is the float nearest to a decimal of six digits. -/
theorem c167_equals_dict {F : Fl} (hF : F.Lawful) (root : Option Attrs) (l : List (ℚ × Bool × Str))
    (hd : ∀ s ∈ l, IsColorDigits s.2.2) (h2 : 2 ≤ l.length) (hnd : (l.map Prod.fst).Nodup)
    (hp : ∀ s ∈ l, F.rnd (six s.1) = s.1) (n : Node) (hn : n.isTag = true) :
    ∃ n', setValue F .gradient (.stops (l.map fun s => (s.1, .str (written s.2.1 s.2.2)))) n = (n', .ok ()) ∧
      valueEq F root .gradient n' (.stops (l.map fun s => (s.1, .str (written s.2.1 s.2.2)))) = .ok true := by
  set L : List (ℚ × PV) := l.map fun s => (s.1, .str (written s.2.1 s.2.2)) with hL
  have hnew : ∀ hash ds, IsColorDigits ds → ∃ m, newValue F .color (.str (written hash ds)) = .ok m ∧
      colorHex F m = .ok (canonical ds) := by
    intro hash ds hds
    obtain ⟨h1, h2, -⟩ := c23_hex_roundtrip hF (emptyTag .color) rfl ds hds hash
    refine ⟨(setValue F .color (.str (written hash ds)) (emptyTag .color)).1, ?_, h2⟩
    simp only [newValue, construct, h1]
  let col : PV → Node := fun v => match newValue F .color v with
    | .ok m => m
    | .error _ => .new "color"
  have hcol : ∀ p ∈ L, newValue F .color p.2 = .ok (col p.2) := by
    intro p hpL
    obtain ⟨s, hs, rfl⟩ := List.mem_map.1 hpL
    obtain ⟨m, hm, -⟩ := hnew s.2.1 s.2.2 (hd s hs)
    simp only [col, hm]
  have hLn : (L.map Prod.fst).Nodup := by simpa [hL, List.map_map, Function.comp_def] using hnd
  have hsix : (L.map fun p => six p.1).Nodup := by
    rw [hL, List.map_map]
    rw [List.Nodup, List.pairwise_map] at hnd ⊢
    refine hnd.imp_of_mem fun {a b} ha hb hne he => hne ?_
    dsimp only [Function.comp] at he
    rw [← hp a ha, ← hp b hb, he]
  obtain ⟨n', stops, hset, hst, -, hperm⟩ := c30_gradient_roundtrip hF L col hcol (by simpa [hL] using h2) hsix n hn
  refine ⟨n', hset, ?_⟩
  have hlen : stops.length = L.length := by simpa using hperm.length_eq
  have key : ∀ a : List (ℚ × Node), a ⊆ stops → stopsEq F a L = .ok true := by
    intro a ha
    induction a with
    | nil => rfl
    | cons x a ih =>
      obtain ⟨q, c⟩ := x
      have hx : (q, c) ∈ stops := ha List.mem_cons_self
      have hmem := hperm.mem_iff.1 (List.mem_map.2 ⟨_, hx, rfl⟩)
      obtain ⟨p, hpL, hpe⟩ := List.mem_map.1 hmem
      obtain ⟨s, hs, rfl⟩ := List.mem_map.1 hpL
      simp only [Prod.mk.injEq] at hpe
      rw [hp s hs] at hpe
      obtain ⟨m, hm, hh⟩ := hnew s.2.1 s.2.2 (hd s hs)
      have hcm : col (.str (written s.2.1 s.2.2)) = m := by simp only [col, hm]
      have hhex : colorHex F c = .ok (canonical s.2.2) := by
        rw [← hh, colorHex, colorHex, ← hpe.2, hcm]
      have hlk : L.lookup q = some (.str (written s.2.1 s.2.2)) := by
        rw [← hpe.1]; exact lookup_of_nodup hLn hpL
      have hnm : c.name ≠ "animated" := by rw [gradientStops_color hst _ hx]; decide
      simp only [stopsEq, hlk, colorEqAny, colorEqStr, colorStr, if_neg hnm, hhex,
        colorText_written _ _ (hd s hs), decide_true]
      exact ih fun y hy => ha (List.mem_cons_of_mem _ hy)
  simp only [valueEq, plainEq, gradientEq, hst]
  rw [if_neg (by simpa using hlen)]
  exact key stops fun _ h => h

/-- Three stops, out of order. -/
example : let l : List (ℚ × Bool × Str) := [(1, true, "FF0000".toList), (0, false, "00000080".toList), (1/2, true, "ffff00".toList)]
    (∀ s ∈ l, IsColorDigits s.2.2) ∧ (l.map Prod.fst).Nodup ∧ ∀ s ∈ l, double.rnd (six s.1) = s.1 := by
  refine ⟨?_, by decide +kernel, by decide +kernel⟩
  intro s hs
  simp only [List.mem_cons, List.not_mem_nil, or_false] at hs
  rcases hs with rfl | rfl | rfl <;> exact ⟨by decide +kernel, by decide +kernel⟩

/-- C167, violated: a third has more than six digits, so a gradient set to a dict with a stop there isn't equal to that. -/
theorem c167_fails_digits : let v : PV := .stops [(0, .str "#000000".toList), (double.rnd (1/3), .str "#ffffff".toList)]
    (setValue double .gradient v (.new "gradient")).2 = .ok () ∧
    valueEq double none .gradient (setValue double .gradient v (.new "gradient")).1 v = .ok false := by
  constructor <;> decide +kernel

/-- A gradient from black to a grey, with its stops in either order. -/
def exGradBW (grey : String) (swap : Bool) : Node :=
  let stop (pos c : String) : Node := .tag "color" [("pos", .str pos.toList)]
    [.tag "r" [] [.text c.toList], .tag "g" [] [.text c.toList], .tag "b" [] [.text c.toList], .tag "a" [] [.text ['1']]]
  .tag "gradient" [] (if swap then [stop "1.0" grey, stop "0.0" "0.0"] else [stop "0.0" "0.0", stop "1.0" grey])

/-- Gradients with the same stops in another order are equal; those with the same positions and other colours aren't. -/
example : (∀ g ∈ [exGradBW "1.0" false, exGradBW "1.0" true, exGradBW "0.5" false], ∃ l, gradientStops double g = .ok l ∧
      ∀ s ∈ l, ∃ t, colorHex double s.2 = .ok t) ∧
    valueEq double none .gradient (exGradBW "1.0" false) (.val .gradient none (exGradBW "1.0" true)) = .ok true ∧
    valueEq double none .gradient (exGradBW "1.0" false) (.val .gradient none (exGradBW "0.5" false)) = .ok false := by
  refine ⟨?_, by decide +kernel, by decide +kernel⟩
  have key : ∀ g : Node, (match gradientStops double g with
      | .error _ => false
      | .ok l => l.all fun s => match colorHex double s.2 with | .error _ => false | .ok _ => true) = true →
      ∃ l, gradientStops double g = .ok l ∧ ∀ s ∈ l, ∃ t, colorHex double s.2 = .ok t := by
    intro g hg
    cases h : gradientStops double g with
    | error e => rw [h] at hg; cases hg
    | ok l =>
      rw [h] at hg
      refine ⟨l, rfl, fun s hs => ?_⟩
      have h2 := List.all_eq_true.1 hg s hs
      cases h3 : colorHex double s.2 with
      | error e => rw [h3] at h2; cases h2
      | ok t => exact ⟨t, rfl⟩
  simp only [List.mem_cons, List.not_mem_nil, or_false, forall_eq_or_imp, forall_eq]
  exact ⟨key _ (by decide +kernel), key _ (by decide +kernel), key _ (by decide +kernel)⟩

end Sang
