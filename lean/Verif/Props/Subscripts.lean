import Verif.Props.Compare
import Verif.Props.ColorText

/-! # Subscripts of gradients and vectors: properties C108, C112 -/

namespace Sang

open Spec

theorem mem_of_lookup {κ α : Type} [DecidableEq κ] {l : List (κ × α)} {k : κ} {v : α}
    (h : l.lookup k = some v) : (k, v) ∈ l := by
  induction l with
  | nil => simp at h
  | cons p l ih =>
    obtain ⟨k', v'⟩ := p
    by_cases hk : k = k'
    · subst hk
      simp only [List.lookup, beq_self_eq_true, Option.some.injEq] at h
      simp [h]
    · simp only [List.lookup, beq_eq_false_iff_ne.2 hk] at h
      exact List.mem_cons_of_mem _ (ih h)

theorem lookup_some_iff {κ α : Type} [DecidableEq κ] {l : List (κ × α)}
    (h : (l.map Prod.fst).Nodup) (k : κ) (v : α) : l.lookup k = some v ↔ (k, v) ∈ l :=
  ⟨mem_of_lookup, lookup_of_nodup h⟩

theorem lookup_perm {κ α : Type} [DecidableEq κ] {l m : List (κ × α)}
    (h : (l.map Prod.fst).Nodup) (hp : l.Perm m) (k : κ) : l.lookup k = m.lookup k := by
  have hm : (m.map Prod.fst).Nodup := (hp.map Prod.fst).nodup_iff.1 h
  ext v
  rw [lookup_some_iff h, lookup_some_iff hm, hp.mem_iff]

theorem lookup_map_val {κ α β : Type} [DecidableEq κ] (f : α → β) (l : List (κ × α)) (k : κ) :
    (l.map fun p => (p.1, f p.2)).lookup k = (l.lookup k).map f := by
  induction l with
  | nil => rfl
  | cons p l ih =>
    obtain ⟨k', v⟩ := p
    by_cases h : k = k'
    · subst h; simp [List.lookup]
    · simp only [List.map_cons, List.lookup, beq_eq_false_iff_ne.2 h, ih]

/-! ## C108: assigning to one stop of a gradient -/

/-- What a user sees at a position of a gradient: nothing, if `gradient[pos]` raises, and otherwise
`gradient[pos].as_tuple()`. -/
def seenAt (F : Fl) (n : Node) (pos : ℚ) : Option (Res (List ℚ)) :=
  match gradientGet F n pos with
  | .error _ => none
  | .ok c => some (colorTuple F c)

/-- A position which six digits are enough for. -/
def SixDigits (F : Fl) (q : ℚ) : Prop := F.rnd (six q) = q

/-- A component which six decimals are enough for. -/
def SixDecimals (F : Fl) (q : ℚ) : Prop := F.rnd (dec 6 q) = q

/-- The components of the colour that a program gives: four numbers, or three and alpha is one; another colour; or six
or eight hexadecimal digits. -/
inductive Paint (F : Fl) : PV → List ℚ → Prop
  | rgba (r g b a : ℚ) : Paint F (.tuple [.float r, .float g, .float b, .float a]) [r, g, b, a]
  | rgb (r g b : ℚ) : Paint F (.tuple [.float r, .float g, .float b]) [r, g, b, 1]
  | color (root : Option Attrs) (m : Node) {l : List ℚ} (h : colorTuple F m = .ok l) : Paint F (.val .color root m) l
  | text (s : Str) {l : List ℤ} (hs : ∀ c ∈ s, c.toNat < 128) (h : channels s = some l) :
      Paint F (.str s) (l.map fun x : ℤ => F.rnd (dec 6 (F.rnd ((x:ℚ) / 255))))

theorem paint_arg {F : Fl} {v : PV} {l : List ℚ} (h : Paint F v l) : colorArg F v = .ok l := by
  cases h with
  | rgba r g b a => rfl
  | rgb r g b => rfl
  | color root m h => exact h
  | text s hs h =>
    rw [colorArg_text F s hs, h]
    rfl

/-- A gradient with at least two stops, whose positions and colours are as they were written by
this library (or by anything else that uses six digits). -/
def KeptGradient (F : Fl) (n : Node) : Prop :=
  n.isTag = true ∧ ∃ stops, gradientStops F n = .ok stops ∧ 2 ≤ stops.length ∧
    ∀ s ∈ stops, SixDigits F s.1 ∧
      ∃ r g b a, colorTuple F s.2 = .ok [r, g, b, a] ∧ SixDecimals F r ∧ SixDecimals F g ∧
        SixDecimals F b ∧ SixDecimals F a

theorem seenAt_stops {F : Fl} {n : Node} {stops : List (ℚ × Node)}
    (h : gradientStops F n = .ok stops) (q : ℚ) :
    seenAt F n q = (stops.lookup q).map (colorTuple F) := by
  simp only [seenAt, gradientGet, h]
  cases stops.lookup q <;> rfl

theorem dictSet_length_le {κ α : Type} [DecidableEq κ] (k : κ) (v : α) (d : List (κ × α)) :
    d.length ≤ (dictSet k v d).length := by
  induction d with
  | nil => simp [dictSet]
  | cons p d ih =>
    simp only [dictSet]
    split <;> simp [ih]

theorem mem_dictSet {κ α : Type} [DecidableEq κ] {k : κ} {v : α} {d : List (κ × α)}
    {p : κ × α} (h : p ∈ dictSet k v d) : p = (k, v) ∨ p ∈ d := by
  induction d with
  | nil => simpa [dictSet] using h
  | cons q d ih =>
    simp only [dictSet] at h
    split at h
    · rcases List.mem_cons.1 h with h | h
      · exact .inl h
      · exact .inr (by simp [h])
    · rcases List.mem_cons.1 h with h | h
      · exact .inr (by simp [h])
      · rcases ih h with h | h
        · exact .inl h
        · exact .inr (by simp [h])

/-- The colour that a value given for a colour makes. -/
def madeColor (F : Fl) (v : PV) : Node :=
  match newValue F .color v with
  | .ok c => c
  | .error _ => .text []

/-- C108. `gradient[pos] = colour`, for a position of six digits and a colour whose components are
floats, changes what is seen at that position, to that colour to six decimals, and nothing else;
and the gradient can go on being used this way. -/
theorem c108_assign_stop {F : Fl} (hF : F.Lawful) (n : Node) (hn : KeptGradient F n) (pos : ℚ)
    (hpos : SixDigits F pos) (v : PV) (r g b a : ℚ) (hv : Paint F v [r, g, b, a])
    (hr : F.rep r) (hg : F.rep g) (hb : F.rep b) (ha : F.rep a) :
    ∃ n', gradientSet F pos v n = (n', .ok ()) ∧ KeptGradient F n' ∧
      ∀ q, seenAt F n' q = if q = pos then
          some (.ok [F.rnd (dec 6 r), F.rnd (dec 6 g), F.rnd (dec 6 b), F.rnd (dec 6 a)])
        else seenAt F n q := by
  replace hv := paint_arg hv
  obtain ⟨hn, stops, hst, hlen, hkept⟩ := hn
  set base : List (ℚ × PV) := stops.map fun p => (p.1, .val .color none p.2) with hbase
  have hbk : (base.map Prod.fst).Nodup := by
    simpa [hbase, List.map_map, Function.comp_def] using gradientStops_nodup hst
  set l := dictSet pos v base with hl
  obtain ⟨hlk, -⟩ := dictSet_keys_nodup pos v base hbk
  rw [← hl] at hlk
  have hnew : newValue F .color v = .ok (colorNode r g b a) := by
    simp only [newValue, construct, setColor_ok (n := emptyTag .color) rfl hv]
  have hold : ∀ s ∈ stops, newValue F .color (.val .color none s.2) =
        .ok (madeColor F (.val .color none s.2)) ∧
      colorTuple F (madeColor F (.val .color none s.2)) = colorTuple F s.2 := by
    intro s hs
    obtain ⟨-, r, g, b, a, ht, h1, h2, h3, h4⟩ := hkept s hs
    have : newValue F .color (.val .color none s.2) = .ok (colorNode r g b a) := by
      simp only [newValue, construct, setColor_ok (F := F) (v := .val .color none s.2)
        (n := emptyTag .color) rfl ht]
    refine ⟨by simp only [madeColor, this], ?_⟩
    simp only [madeColor, this, colorTuple_node, ht]
    rw [h1, h2, h3, h4]
  have hcol : ∀ p ∈ l, newValue F .color p.2 = .ok (madeColor F p.2) := by
    intro p hp
    rcases mem_dictSet hp with rfl | hp
    · simp only [madeColor, hnew]
    · obtain ⟨s, hs, rfl⟩ := List.mem_map.1 hp
      exact (hold s hs).1
  have hdig : ∀ p ∈ l, SixDigits F p.1 := by
    intro p hp
    rcases mem_dictSet hp with rfl | hp
    · exact hpos
    · obtain ⟨s, hs, rfl⟩ := List.mem_map.1 hp
      exact (hkept s hs).1
  have hsix : (l.map fun p => six p.1).Nodup := by
    have : l.map Prod.fst = (l.map fun p => six p.1).map F.rnd := by
      rw [List.map_map]
      exact List.map_congr_left fun p hp => (hdig p hp).symm
    rw [this] at hlk
    exact hlk.of_map _
  have h2 : 2 ≤ l.length := by
    refine le_trans ?_ (dictSet_length_le pos v base)
    simpa [hbase] using hlen
  obtain ⟨n', stops', hset, hst', hlt, hperm⟩ := c30_gradient_roundtrip hF l (madeColor F) hcol h2
    hsix n hn
  have hmap : (l.map fun p => (F.rnd (six p.1), colorTuple F (madeColor F p.2))) =
      l.map fun p => (p.1, colorTuple F (madeColor F p.2)) :=
    List.map_congr_left fun p hp => by rw [hdig p hp]
  rw [hmap] at hperm
  refine ⟨n', by simp only [gradientSet, hst]; exact hset, ⟨?_, stops', hst', ?_, ?_⟩, ?_⟩
  · simp only [setValue, setGradient, gradientArg, if_neg (not_lt.2 h2)] at hset
    cases n with
    | text t => simp [Node.isTag] at hn
    | tag nm at' ks =>
      rw [Node.setKids, appendStops_ok F (sortStops l) (madeColor F)
        (fun p hp => hcol p ((List.perm_insertionSort _ _).mem_iff.1 hp))] at hset
      simp only [Prod.mk.injEq, and_true] at hset
      rw [← hset]; rfl
  · have := hperm.length_eq
    simp only [List.length_map] at this
    omega
  · intro s hs
    have hm : (s.1, colorTuple F s.2) ∈ l.map fun p => (p.1, colorTuple F (madeColor F p.2)) :=
      hperm.mem_iff.1 (List.mem_map.2 ⟨s, hs, rfl⟩)
    obtain ⟨p, hp, he⟩ := List.mem_map.1 hm
    simp only [Prod.mk.injEq] at he
    refine ⟨he.1 ▸ hdig p hp, ?_⟩
    rcases mem_dictSet hp with rfl | hp
    · have : madeColor F v = colorNode r g b a := by simp only [madeColor, hnew]
      rw [this, colorTuple_node] at he
      refine ⟨_, _, _, _, he.2.symm, ?_, ?_, ?_, ?_⟩
      · rw [SixDecimals, dec_stable_rep hF 6 hr]
      · rw [SixDecimals, dec_stable_rep hF 6 hg]
      · rw [SixDecimals, dec_stable_rep hF 6 hb]
      · rw [SixDecimals, dec_stable_rep hF 6 ha]
    · obtain ⟨s', hs', rfl⟩ := List.mem_map.1 hp
      rw [(hold s' hs').2] at he
      rw [← he.2]
      exact (hkept s' hs').2
  · intro q
    rw [seenAt_stops hst', seenAt_stops hst, ← lookup_map_val (colorTuple F),
      lookup_perm (by rw [List.map_map]; exact hlt.imp fun h => h.ne) hperm,
      lookup_map_val (fun v => colorTuple F (madeColor F v)), hl, lookup_dictSet]
    by_cases hq : q = pos
    · simp only [if_pos hq, Option.map_some, madeColor, hnew, colorTuple_node]
    · rw [if_neg hq, if_neg hq, hbase, lookup_map_val, Option.map_map]
      cases hq' : stops.lookup q with
      | none => rfl
      | some c =>
        have := (hold _ (mem_of_lookup hq')).2
        simp only [Option.map_some, Function.comp, this]

/-- What is seen after some assignments: the last one made at each position. -/
def afterAll (F : Fl) (m : ℚ → Option (Res (List ℚ))) :
    List (ℚ × PV × List ℚ) → ℚ → Option (Res (List ℚ))
  | [], q => m q
  | (pos, _, cs) :: r, q =>
    afterAll F (fun q => if q = pos then some (.ok (cs.map fun x => F.rnd (dec 6 x))) else m q) r q

/-- The gradient after some assignments. -/
def assignAll (F : Fl) : List (ℚ × PV × List ℚ) → Node → Node × Res Unit
  | [], n => (n, .ok ())
  | (pos, v, _) :: r, n => match gradientSet F pos v n with
    | (n', .error e) => (n', .error e)
    | (n', .ok ()) => assignAll F r n'

/-- C108, histories. After any number of assignments, each at a position of six digits, what is
seen at each position is what was last assigned there, or what was there at first. -/
theorem c108_history {F : Fl} (hF : F.Lawful) (ops : List (ℚ × PV × List ℚ)) (n : Node)
    (hn : KeptGradient F n)
    (h : ∀ o ∈ ops, SixDigits F o.1 ∧ Paint F o.2.1 o.2.2 ∧ ∀ x ∈ o.2.2, F.rep x) :
    ∃ n', assignAll F ops n = (n', .ok ()) ∧ KeptGradient F n' ∧
      ∀ q, seenAt F n' q = afterAll F (seenAt F n) ops q := by
  induction ops generalizing n with
  | nil => exact ⟨n, rfl, hn, fun q => rfl⟩
  | cons o ops ih =>
    obtain ⟨pos, v, cs⟩ := o
    obtain ⟨hp, hc, hrep⟩ := h (pos, v, cs) (by simp)
    simp only at hp hc hrep
    match cs, colorArg_four (paint_arg hc), hc, hrep with
    | [r, g, b, a], _, hc, hrep =>
      obtain ⟨n1, h1, hk, hs⟩ := c108_assign_stop hF n hn pos hp v r g b a hc (hrep r (by simp))
        (hrep g (by simp)) (hrep b (by simp)) (hrep a (by simp))
      obtain ⟨n', h2, hk', hs'⟩ := ih n1 hk (fun o ho => h o (by simp [ho]))
      refine ⟨n', by simp only [assignAll, h1, h2], hk', fun q => ?_⟩
      rw [hs', afterAll]
      congr 1
      funext q
      rw [hs q]
      rfl

/-- A gradient from black to white. -/
def exGradient : Node :=
  (setValue double .gradient (.stops [(0, .str "#000000".toList), (1, .str "#ffffff".toList)])
    (emptyTag .gradient)).1

/-- The stops of `exGradient`. -/
def exStops : List (ℚ × Node) :=
  [(0, stopNode 0 (colorNode 0 0 0 1)), (1, stopNode 1 (colorNode 1 1 1 1))]

/-- C108's hypotheses are met: a gradient from black to white, a position and a colour. -/
example : KeptGradient double exGradient ∧ SixDigits double (double.rnd (3 / 10)) ∧
    Paint double (.str "#ff0000".toList) [1, 0, 0, 1] := by
  refine ⟨⟨by decide, exStops, by decide +kernel, by decide, ?_⟩, by unfold SixDigits; decide +kernel, by
    have h := Paint.text (F := double) "#ff0000".toList (l := [255, 0, 0, 255]) (by decide) (by decide +kernel)
    have e : ([255, 0, 0, 255] : List ℤ).map (fun x : ℤ => double.rnd (dec 6 (double.rnd ((x:ℚ) / 255)))) = [1, 0, 0, 1] := by
      decide +kernel
    rwa [e] at h⟩
  intro s hs
  simp only [exStops, List.mem_cons, List.not_mem_nil, or_false] at hs
  rcases hs with rfl | rfl
  · exact ⟨by unfold SixDigits; decide +kernel, 0, 0, 0, 1, by decide +kernel,
      by unfold SixDecimals; decide +kernel, by unfold SixDecimals; decide +kernel,
      by unfold SixDecimals; decide +kernel, by unfold SixDecimals; decide +kernel⟩
  · exact ⟨by unfold SixDigits; decide +kernel, 1, 1, 1, 1, by decide +kernel,
      by unfold SixDecimals; decide +kernel, by unfold SixDecimals; decide +kernel,
      by unfold SixDecimals; decide +kernel, by unfold SixDecimals; decide +kernel⟩

/-- C108, violated: a colour assigned at a position which six digits aren't enough for isn't found
there again. (Whatever the gradient was: no gradient with kept positions has one there.) -/
theorem c108_other_positions_lost {F : Fl} (n : Node) (hn : KeptGradient F n) (pos : ℚ)
    (hpos : ¬ SixDigits F pos) : gradientGet F n pos = .error .key := by
  obtain ⟨-, stops, hst, -, hk⟩ := hn
  simp only [gradientGet, hst]
  cases h : stops.lookup pos with
  | none => rfl
  | some c => exact absurd (hk _ (mem_of_lookup h)).1 hpos

/-- C108 violated, concretely: after `g[1/3] = '#ff0000'`, `g[1/3]` raises `KeyError`. -/
example : (gradientSet double (double.rnd (1/3)) (.str "#ff0000".toList) exGradient).2 = .ok () ∧
    gradientGet double (gradientSet double (double.rnd (1/3)) (.str "#ff0000".toList)
      exGradient).1 (double.rnd (1/3)) = .error .key := by
  constructor <;> decide +kernel

/-! ## C112: subscripts of vectors -/

theorem vectorDict_nodup {n : Node} (h : (n.tagKids.map Node.name).Nodup) :
    vectorDict n = n.tagKids.map fun x => (x.name, x.string?) := by
  have := foldl_dictSet_nodup (n.tagKids.map fun x => (x.name, x.string?)) []
    (by simpa [List.map_map, Function.comp_def] using h)
  rw [List.nil_append, List.foldl_map] at this
  exact this

theorem vectorGet_lookup {F : Fl} {n : Node} (h : (n.tagKids.map Node.name).Nodup) {k : String}
    (hk : k ∈ (vectorDict n).map Prod.fst) :
    vectorGet F n k = floatOpt F (((vectorDict n).lookup k).getD none) := by
  have h1 : ∀ l : List Node, (l.map fun x => (x.name, x.string?)).lookup k =
      ((l.filter fun x => decide (x.name = k)).head?).map Node.string? := by
    intro l
    induction l with
    | nil => rfl
    | cons x l ih =>
      by_cases hx : x.name = k
      · rw [List.filter_cons_of_pos (by simpa using hx)]
        simp [hx]
      · rw [List.filter_cons_of_neg (by simpa using hx)]
        simp only [List.map_cons, List.lookup, beq_eq_false_iff_ne.2 (Ne.symm hx), ih]
  rw [vectorDict_nodup h] at hk ⊢
  rw [h1]
  simp only [vectorGet]
  cases hf : n.tagKids.filter fun x => decide (x.name = k) with
  | nil =>
    exfalso
    obtain ⟨p, hp, rfl⟩ := List.mem_map.1 hk
    obtain ⟨x, hx, rfl⟩ := List.mem_map.1 hp
    rw [List.filter_eq_nil_iff] at hf
    exact hf x hx (by simp)
  | cons x r => simp

theorem mapRes_get {α β : Type} {f : α → Res β} {l : List α} {r : List β}
    (h : mapRes f l = .ok r) (j : ℕ) (hj : j < r.length) :
    ∃ x, l[j]? = some x ∧ f x = .ok r[j] := by
  induction l generalizing r j with
  | nil => simp only [mapRes, Except.ok.injEq] at h; subst h; simp at hj
  | cons x l ih =>
    simp only [mapRes] at h
    cases h1 : f x with
    | error e => simp [h1] at h
    | ok y =>
      cases h2 : mapRes f l with
      | error e => simp [h1, h2] at h
      | ok ys =>
        simp only [h1, h2, Except.ok.injEq] at h
        subst h
        cases j with
        | zero => exact ⟨x, rfl, h1⟩
        | succ j => simpa using ih h2 j (by simpa using hj)

/-- C112, the part that holds: in a vector with each coordinate once, subscripts are those of the
tuple, from the front and from the back; and others raise `IndexError`. -/
theorem c112_index_partial (F : Fl) (n : Node) (h : (n.tagKids.map Node.name).Nodup) (l : List ℚ)
    (hl : vectorTuple F n = .ok l) :
    (∀ j (hj : j < l.length), vectorIndex F n j = .ok l[j] ∧
      vectorIndex F n (j - l.length) = .ok l[j]) ∧
    ∀ i : ℤ, i < -l.length ∨ l.length ≤ i → vectorIndex F n i = .error .index := by
  have hlen : (vectorKeys n).length = l.length := by
    simp only [vectorTuple] at hl
    rw [mapRes_length hl]; rfl
  have hget : ∀ j (hj : j < l.length), ∃ k, (vectorKeys n)[j]? = some k ∧
      vectorGet F n k = .ok l[j] := by
    intro j hj
    simp only [vectorTuple] at hl
    obtain ⟨k, h1, h2⟩ := mapRes_get hl j hj
    refine ⟨k, h1, ?_⟩
    rw [vectorGet_lookup h]
    · exact h2
    · have : k ∈ sortNames ((vectorDict n).map Prod.fst) := List.mem_of_getElem? h1
      exact (List.perm_insertionSort _ _).mem_iff.1 this
  refine ⟨?_, ?_⟩
  · intro j hj
    obtain ⟨k, h1, h2⟩ := hget j hj
    constructor
    · have : ¬ (j:ℤ) < 0 := by omega
      simp only [vectorIndex, pyIndex, if_neg this, Int.toNat_natCast, h1, h2]
    · have : (j:ℤ) - l.length < 0 := by omega
      have e : (j:ℤ) - l.length + l.length = j := by omega
      have : ¬ (j:ℤ) < 0 := by omega
      simp only [vectorIndex, pyIndex, hlen, e]
      simp only [*, if_true, if_false, Int.toNat_natCast]
  · intro i hi
    rcases hi with hi | hi
    · have h1 : i < 0 := by omega
      have h2 : i + l.length < 0 := by omega
      simp only [vectorIndex, pyIndex, hlen, if_pos h1, if_pos h2]
    · have h1 : ¬ i < 0 := by omega
      have h2 : (vectorKeys n)[i.toNat]? = none := by
        rw [List.getElem?_eq_none_iff, hlen]; omega
      simp only [vectorIndex, pyIndex, if_neg h1, h2]

/-- C112's hypotheses are met by a vector with y before x in the file. -/
example : let n : Node := .tag "vector" [] [coordTag "y" 4, coordTag "x" 3]
    (n.tagKids.map Node.name).Nodup ∧ vectorTuple double n = .ok [3, 4] ∧
    vectorIndex double n (-1) = .ok 4 := by
  refine ⟨by decide, ?_, ?_⟩ <;> decide +kernel

/-- C112, violated: after assigning a new value to a vector, subscripts give the old one (for the
same reason as in C27). -/
example : let n : Node := (setValue double .vector (.tuple [.float 5, .float 6])
      (.tag "vector" [] [coordTag "x" 3, coordTag "y" 4])).1
    vectorTuple double n = .ok [5, 6] ∧ vectorIndex double n 0 = .ok 3 := by
  constructor <;> decide +kernel

theorem dictSet_same_keys {κ α : Type} [DecidableEq κ] {k : κ} (v : α) {d : List (κ × α)}
    (h : k ∈ d.map Prod.fst) : (dictSet k v d).map Prod.fst = d.map Prod.fst := by
  induction d with
  | nil => simp at h
  | cons p d ih =>
    simp only [dictSet]
    by_cases hp : p.1 = k
    · simp [hp]
    · rw [if_neg hp, List.map_cons, List.map_cons, ih]
      simpa [Ne.symm hp] using h

/-- C112, violated, for every vector and every assignment to it: an index gives what it gave
before. -/
theorem c112_old_index_stays (F : Fl) (n : Node) (hn : n.isTag = true)
    (hx : ∃ t ∈ n.tagKids, t.name = "x") (hy : ∃ t ∈ n.tagKids, t.name = "y") (x y : ℚ) (i : ℤ) :
    vectorIndex F (setValue F .vector (.tuple [.float x, .float y]) n).1 i = vectorIndex F n i := by
  have hmem : ∀ k, k ∈ (vectorDict n).map Prod.fst ↔ ∃ t ∈ n.tagKids, t.name = k := by
    intro k
    have := (foldl_dictSet_keys (n.tagKids.map fun x => (x.name, x.string?)) [] (by simp)).2 k
    rw [List.foldl_map] at this
    simpa [vectorDict] using this
  have hkeys : vectorKeys (setValue F .vector (.tuple [.float x, .float y]) n).1 = vectorKeys n := by
    cases n with
    | text t => simp [Node.isTag] at hn
    | tag nm a ks =>
      rw [setVector_pair]
      have hd : vectorDict (.tag "vector" [] (ks ++ [coordTag "x" x, coordTag "y" y])) =
          dictSet "y" (some (fixed 10 y)) (dictSet "x" (some (fixed 10 x))
            (vectorDict (.tag nm a ks))) := by
        simp only [vectorDict, Node.tagKids, Node.kids, List.filter_append, List.foldl_append]
        rfl
      have h1 := dictSet_same_keys (some (fixed 10 x)) ((hmem "x").2 hx)
      have h2 : "y" ∈ (dictSet "x" (some (fixed 10 x)) (vectorDict (.tag nm a ks))).map Prod.fst := by
        rw [h1]; exact (hmem "y").2 hy
      simp only [vectorKeys, hd, dictSet_same_keys _ h2, h1]
  simp only [vectorIndex, hkeys]
  cases hp : pyIndex (vectorKeys n) i with
  | error e => rfl
  | ok k =>
    have hk : k ∈ vectorKeys n := by
      simp only [pyIndex] at hp
      generalize (if i < 0 then i + ((vectorKeys n).length : ℤ) else i) = j at hp
      split at hp
      · cases hp
      · split at hp
        · cases hp
        · rename_i k' hk'
          injection hp with hp
          subst hp
          exact List.mem_of_getElem? hk'
    have : k ∈ (vectorDict n).map Prod.fst := (List.perm_insertionSort _ _).mem_iff.1 hk
    exact (c27_old_coordinate_stays F n hn k ((hmem k).1 this) x y).2

end Sang
