import Verif.Props.Reading
import Verif.Props.Compare
import Verif.Props.Convert

/-!
# More of C105, C107, C118 and C119

Colours and transformations as they are in files, timelines with two waypoints at the same time, and which
exceptions texts raise that aren't numbers.
-/

namespace Sang
open Spec

/-! ## C105: colours and tuples -/

theorem isNumber_iff (v : PV) (q : ℚ) : IsNumber v q ↔ v.number? = some q := by
  constructor
  · rintro (_ | _ | b) <;> rfl
  · intro h
    cases v <;> simp only [PV.number?, Option.some.injEq, reduceCtorEq] at h
    · subst h; exact .float _
    · subst h; exact .int _
    · subst h; exact .bool _

theorem isNumbers (l : List PV) (m : List ℚ) : List.Forall₂ IsNumber l m ↔ l.map PV.number? = m.map some := by
  induction l generalizing m with
  | nil => cases m <;> simp
  | cons v l ih => cases m <;> simp [isNumber_iff, ih]

/-- C105. A colour that can be read equals a tuple exactly if the tuple's items are numbers and are the
colour's components, the fourth of which may be left out if it is 1. Comparing them never raises. -/
theorem c105_equals_iff (F : Fl) (root : Option Attrs) (n : Node) (r g b a : ℚ)
    (h : colorTuple F n = .ok [r, g, b, a]) (l : List PV) :
    ∃ res, valueEq F root .color n (.tuple l) = .ok res ∧
      (res = true ↔ List.Forall₂ IsNumber l [r, g, b, a] ∨
        (List.Forall₂ IsNumber l [r, g, b] ∧ a = 1)) := by
  rw [isNumbers, isNumbers]
  simp only [List.map_cons, List.map_nil]
  refine ⟨tupleEq [r, g, b, a] (if l.length = 3 then l ++ [.float 1] else l),
    by simp only [valueEq, plainEq, colorEqAny, colorEqTuple, h], ?_⟩
  match l with
  | [] => simp [tupleEq]
  | [_] => simp [tupleEq]
  | [_, _] => simp [tupleEq]
  | [x, y, z] =>
    have h1 : (PV.float 1).number? = some 1 := rfl
    simp [tupleEq, h1, and_assoc, eq_comm (a := a)]
  | [x, y, z, w] => simp [tupleEq]
  | x :: y :: z :: w :: v :: r => simp [tupleEq]

/-- C105 on a colour: white, whose alpha is given as the whole number 1, or as `True`, or isn't given. -/
example : ∃ n, n.isTag = true ∧ colorTuple double n = .ok [1, 1, 1, 1] ∧
    valueEq double none .color n (.tuple [.int 1, .float 1, .bool true]) = .ok true ∧
    valueEq double none .color n (.tuple [.int 1, .float 1, .bool true, .float 0]) = .ok false := by
  refine ⟨(setValue double .color (.str "#ffffff".toList) (.new "color")).1, ?_, ?_, ?_, ?_⟩ <;> decide +kernel

/-! ## C107: transformations as they are in files -/

theorem lookup_in {α : Type} {k : String} {v : α} : ∀ {d : List (String × α)}, d.lookup k = some v → (k, v) ∈ d
  | [], h => by simp at h
  | (k', v') :: d, h => by
    rw [List.lookup_cons] at h
    split at h
    · next he => simp only [beq_iff_eq] at he; cases h; subst he; exact List.mem_cons_self ..
    · exact List.mem_cons_of_mem _ (lookup_in h)

/-- C107. Two transformations in files, with their parts in whatever orders, are equal exactly if the parts of the
same name are. (Each part of the other is asked whether it equals the one of this.) -/
theorem c107_parts {F : Fl} {root root' : Option Attrs} {n n' : Node}
    {offset angle skew scale offset' angle' skew' scale' : Node}
    (h : HasParts n [("offset", offset), ("angle", angle), ("skew_angle", skew), ("scale", scale)])
    (h' : HasParts n' [("offset", offset'), ("angle", angle'), ("skew_angle", skew'), ("scale", scale')])
    {co ca ck cs co' ca' ck' cs' : VCls}
    (h1 : fromTag offset = .ok co) (h2 : fromTag angle = .ok ca) (h3 : fromTag skew = .ok ck)
    (h4 : fromTag scale = .ok cs)
    (h1' : fromTag offset' = .ok co') (h2' : fromTag angle' = .ok ca') (h3' : fromTag skew' = .ok ck')
    (h4' : fromTag scale' = .ok cs')
    (hc : ∀ c ∈ [co', ca', ck', cs'], c ≠ .composite) {b1 b2 b3 b4 : Bool}
    (e1 : valueEq F root' co' offset' (.val co root offset) = .ok b1)
    (e2 : valueEq F root' ca' angle' (.val ca root angle) = .ok b2)
    (e3 : valueEq F root' ck' skew' (.val ck root skew) = .ok b3)
    (e4 : valueEq F root' cs' scale' (.val cs root scale) = .ok b4) :
    valueEq F root .composite n (.val .composite root' n') = .ok (b1 && b2 && b3 && b4) := by
  obtain ⟨⟨_, _, _, _⟩, d, hd, hlen, l1, l2, l3, l4⟩ := c117_transformation h h1 h2 h3 h4
  obtain ⟨⟨g1, g2, g3, g4⟩, _⟩ := c117_transformation h' h1' h2' h3' h4'
  have count : ∀ {m : Node} {ps : List (String × Node)}, HasParts m ps → m.tagKids.length = ps.length := by
    rintro m ps ⟨qs, hp, hq⟩
    rw [hq.length_eq, hp.length_eq]
  have plain : ∀ {c : VCls} {m : Node} {v : PV} {b : Bool}, c ≠ .composite →
      valueEq F root' c m v = .ok b → plainEq F root' c m v = .ok b := by
    intro c m v b hne hv
    unfold valueEq at hv
    split at hv
    · exact absurd rfl hne
    · exact hv
  have hperm : d.Perm [("offset", co, offset), ("angle", ca, angle), ("skew_angle", ck, skew), ("scale", cs, scale)] := by
    refine (List.Subperm.perm_of_length_le (List.subperm_of_subset ?_ ?_) (by simp [hlen])).symm
    · simp
    · intro q hq
      simp only [List.mem_cons, List.not_mem_nil, or_false] at hq
      rcases hq with rfl | rfl | rfl | rfl
      · exact lookup_in l1
      · exact lookup_in l2
      · exact lookup_in l3
      · exact lookup_in l4
  let b : String → Bool := fun k =>
    if k = "offset" then b1 else if k = "angle" then b2 else if k = "skew_angle" then b3 else b4
  have hall : ∀ q ∈ d, ∃ a, partOf (.val .composite root' n') q.1 = .ok a ∧
      partEq F root a q.2.1 q.2.2 = .ok (b q.1) := by
    intro q hq
    have hq := hperm.mem_iff.1 hq
    simp only [List.mem_cons, List.not_mem_nil, or_false] at hq
    rcases hq with rfl | rfl | rfl | rfl
    · exact ⟨.val co' root' offset', by simp only [partOf, g1], plain (hc _ (by simp)) e1⟩
    · exact ⟨.val ca' root' angle', by simp only [partOf, g2], plain (hc _ (by simp)) e2⟩
    · exact ⟨.val ck' root' skew', by simp only [partOf, g3], plain (hc _ (by simp)) e3⟩
    · exact ⟨.val cs' root' scale', by simp only [partOf, g4], plain (hc _ (by simp)) e4⟩
  have hb : d.all (fun q => b q.1) = (b1 && b2 && b3 && b4) := by
    rw [Bool.eq_iff_iff, List.all_eq_true]
    constructor
    · intro hx
      have := fun q hq => hx q (hperm.mem_iff.2 hq)
      simp [b] at this
      simp [this]
    · intro hx q hq
      have hq := hperm.mem_iff.1 hq
      simp only [Bool.and_eq_true] at hx
      obtain ⟨⟨⟨rfl, rfl⟩, rfl⟩, rfl⟩ := hx
      simp [b]
  simp only [valueEq, compositeEq, count h, count h', hd, List.length_cons, List.length_nil, ne_eq, not_true,
    if_false]
  rw [partsEq_all (fun q => b q.1) d hall, hb]

/-- C107 on a transformation: it equals itself, and itself with another angle it doesn't. -/
example :
    valueEq double none .composite exTransformation (.val .composite none exTransformation) = .ok true ∧
    valueEq double none .composite exTransformation (.val .composite none (.tag "composite" []
      (.tag "angle" [] [.tag "angle" [("value", .str "0.25".toList)] []] :: exTransformation.kids.take 4))) =
      .ok false := by
  refine ⟨?_, ?_⟩ <;> decide +kernel

/-! ## C118: two waypoints at the same time -/

/-- `w` is in the list, and nothing after it is at the same time. -/
def LastAt (ws : List Waypoint) (w : Waypoint) : Prop :=
  ∃ a b, ws = a ++ w :: b ∧ ∀ x ∈ b, x.time.frames ≠ w.time.frames

theorem mem_foldl_putWp_iff {f : Option ℚ} {x : Waypoint} : ∀ (ws acc : List Waypoint), AllFps f ws → AllFps f acc →
    Apart acc → (x ∈ ws.foldl (fun d w => putWp w d) acc ↔
      LastAt ws x ∨ (x ∈ acc ∧ ∀ w ∈ ws, w.time.frames ≠ x.time.frames))
  | [], acc, _, _, _ => by simp [LastAt]
  | w :: ws, acc, h, hacc, ha => by
    have hw := h w (by simp)
    have hws : AllFps f ws := fun z hz => h z (by simp [hz])
    rw [List.foldl_cons, mem_foldl_putWp_iff ws _ hws (allFps_putWp hw hacc) (apart_putWp hw hacc ha),
      mem_putWp hw hacc ha]
    constructor
    · rintro (⟨a, b, rfl, hb⟩ | ⟨rfl | ⟨hx, hne⟩, hall⟩)
      · exact .inl ⟨w :: a, b, rfl, hb⟩
      · exact .inl ⟨[], ws, rfl, hall⟩
      · refine .inr ⟨hx, fun z hz => ?_⟩
        rcases List.mem_cons.1 hz with rfl | hz
        · exact Ne.symm hne
        · exact hall z hz
    · rintro (⟨a, b, he, hb⟩ | ⟨hx, hall⟩)
      · cases a with
        | nil =>
          rw [List.nil_append, List.cons.injEq] at he
          obtain ⟨rfl, rfl⟩ := he
          exact .inr ⟨.inl rfl, hb⟩
        | cons y a =>
          rw [List.cons_append, List.cons.injEq] at he
          obtain ⟨rfl, rfl⟩ := he
          exact .inl ⟨a, b, rfl, hb⟩
      · exact .inr ⟨.inr ⟨hx, fun e => hall w (by simp) e.symm⟩, fun z hz => hall z (by simp [hz])⟩

/-- The waypoints of a timeline in a file: read one by one, then put into a dict. -/
theorem waypoints_read {F : Fl} {ctx : Ctx} {ty : Str} {n : Node} {ws : List Waypoint}
    (hn : n.name = "animated") (ht : n.attrs.get "type" = some (.str ty))
    (hw : List.Forall₂ (WpElement F ctx.root ty) n.tagKids ws) :
    waypoints F ctx n = .ok (ws.foldl (fun d w => putWp w d) []) ∧ ∃ f, AllFps f ws := by
  have hlen := hw.length_eq
  have hm : mapRes (Waypoint.fromTag F ctx.root ty) n.tagKids = .ok ws := by
    generalize n.tagKids = ks at hw
    clear hlen
    induction hw with
    | nil => rfl
    | cons h _ ih => rw [mapRes, h.read, ih]
  have hall : ∀ w ∈ ws, ∃ s, T.new F ctx.root (.str s) = .ok w.time := by
    generalize n.tagKids = ks at hw
    clear hlen hm
    induction hw with
    | nil => simp
    | cons h _ ih =>
      intro w hw
      rcases List.mem_cons.mp hw with rfl | hw
      · obtain ⟨s, _, h⟩ := h.time; exact ⟨s, h⟩
      · exact ih w hw
  constructor
  · have htags : waypointTags n = n.tagKids := by rw [waypointTags, if_neg (by simp [hn])]
    rw [waypoints, htags]
    by_cases h : n.tagKids = []
    · rw [if_pos h]
      rw [h] at hlen
      cases ws
      · rfl
      · simp at hlen
    · rw [if_neg h]
      simp only [strAttr, ht, hm]
  · cases hr : readFps F ctx.root with
    | error e =>
      refine ⟨none, fun w hw => ?_⟩
      obtain ⟨s, hs⟩ := hall w hw
      simp [T.new, hr] at hs
    | ok f =>
      refine ⟨f, fun w hw => ?_⟩
      obtain ⟨s, hs⟩ := hall w hw
      exact new_fps hr hs

/-- C118. Any timeline in a file, even if several of its waypoints are at the same time: of those, the last in the
file is seen, and the others aren't; the ones seen come in order of time. -/
theorem c118_last_one_counts {F : Fl} {ctx : Ctx} {ty : Str} {n : Node} {ws : List Waypoint}
    (hn : n.name = "animated") (ht : n.attrs.get "type" = some (.str ty))
    (hw : List.Forall₂ (WpElement F ctx.root ty) n.tagKids ws) :
    ∃ l, iterTimeline F ctx n = .ok l ∧ (∀ w, w ∈ l ↔ LastAt ws w) ∧
      (l.Pairwise fun a b => a.time.frames < b.time.frames) ∧ lenTimeline F ctx n = .ok l.length ∧
      ∀ w ∈ ws, ∃ v ∈ l, v.time.frames = w.time.frames := by
  obtain ⟨h, f, hf⟩ := waypoints_read hn ht hw
  obtain ⟨_, hap, _⟩ := foldl_putWp_inv (f := f) ws [] hf (by simp [AllFps]) (by simp [Apart])
  have hmem : ∀ w, w ∈ ws.foldl (fun d w => putWp w d) [] ↔ LastAt ws w := fun w => by
    rw [mem_foldl_putWp_iff (f := f) ws [] hf (by simp [AllFps]) (by simp [Apart])]; simp
  refine ⟨sortWps (ws.foldl (fun d w => putWp w d) []), by rw [iterTimeline, h], ?_, ascending_sortWps hap, ?_, ?_⟩
  · intro w
    rw [mem_sortWps, hmem]
  · rw [lenTimeline, h]
    exact congrArg _ (List.perm_insertionSort _ _).length_eq.symm
  · have key : ∀ ws : List Waypoint, ∀ w ∈ ws, ∃ v, LastAt ws v ∧ v.time.frames = w.time.frames := by
      intro ws
      induction ws with
      | nil => simp
      | cons y r ih =>
        intro w hw
        by_cases hr : ∃ z ∈ r, z.time.frames = w.time.frames
        · obtain ⟨z, hz, he⟩ := hr
          obtain ⟨v, ⟨a, b, rfl, hb⟩, hv⟩ := ih z hz
          exact ⟨v, ⟨y :: a, b, rfl, hb⟩, hv.trans he⟩
        · push Not at hr
          rcases List.mem_cons.1 hw with rfl | hw
          · exact ⟨w, ⟨[], r, rfl, hr⟩, rfl⟩
          · exact absurd rfl (hr w hw)
    intro w hw
    obtain ⟨v, h1, h2⟩ := key ws w hw
    exact ⟨v, mem_sortWps.2 ((hmem v).2 h1), h2⟩

/-- C118 on a timeline with two waypoints at the start, after one at 2s: the second of the two is seen. -/
example :
    let wp (t v : String) := Node.tag "waypoint" [("time", .str t.toList), ("before", .str "clamped".toList),
      ("after", .str "clamped".toList)] [.tag "real" [("value", .str v.toList)] []]
    (iterTimeline double ⟨exRoot, false⟩ (.tag "animated" [("type", .str "real".toList)]
      [wp "2s" "1.0", wp "0s" "2.0", .text ['\n'], wp "0s" "3.0"])).map (List.map fun w => (w.time.frames, w.val)) =
    .ok [(0, .tag "real" [("value", .str "3.0".toList)] []),
      (double.rnd 48, .tag "real" [("value", .str "1.0".toList)] [])] := by
  decide +kernel

/-! ## C119: which exceptions -/

theorem mem_of_mem_strip {s : Str} {ch : Char} (h : ch ∈ strip s) : ch ∈ s := by
  rw [strip, List.mem_reverse] at h
  have := (List.dropWhile_sublist _).mem h
  rw [List.mem_reverse] at this
  exact (List.dropWhile_sublist _).mem this

/-- C119. Text of ordinary characters which isn't a number for `float()`, and isn't `inf` or `nan`, raises
`ValueError`, whatever it is. -/
theorem c119_real_value_error (F : Fl) (c : VCls) (hc : c = .real ∨ c = .angle) (n : Node) (s : Str)
    (h1 : ∀ ch ∈ s, ch.toNat < 128) (h2 : isNonFiniteWord (strip s) = false)
    (h3 : ∀ q, pyFloat F s ≠ .ok q) : setValue F c (.str s) n = (n, .error .value) := by
  refine (c119_real_refused F c hc n).1 s .value ?_
  have hany : ((strip s).any fun ch => decide (128 ≤ ch.toNat)) = false := by
    rw [List.any_eq_false]
    intro ch hch
    have := h1 ch (mem_of_mem_strip hch)
    simpa using this
  simp only [pyFloat, hany, h2] at h3 ⊢
  cases hd : dropUnderscores none (strip s) with
  | none => simp
  | some t =>
    rw [hd] at h3
    simp only [Bool.false_eq_true, if_false] at h3 ⊢
    cases hp : parseNumeral t with
    | none => rfl
    | some m => rw [hp] at h3; exact absurd rfl (h3 _)

/-- C119. The same for whole numbers and `int()`. -/
theorem c119_integer_value_error (F : Fl) (n : Node) (s : Str) (h1 : ∀ ch ∈ s, ch.toNat < 128)
    (h3 : ∀ i, pyInt s ≠ .ok i) : setValue F .integer (.str s) n = (n, .error .value) := by
  refine (c119_integer_refused F n).1 s .value ?_
  have hany : ((strip s).any fun ch => decide (128 ≤ ch.toNat)) = false := by
    rw [List.any_eq_false]
    intro ch hch
    have := h1 ch (mem_of_mem_strip hch)
    simpa using this
  simp only [pyInt, hany] at h3 ⊢
  cases hd : dropUnderscores none (strip s) with
  | none => simp
  | some t =>
    rw [hd] at h3
    simp only [Bool.false_eq_true, if_false] at h3 ⊢
    split
    · next hh => rw [if_pos hh] at h3; exact absurd rfl (h3 _)
    · rfl

example : setValue double .integer (.str "1.5".toList) (.new "integer") = (.new "integer", .error .value) :=
  c119_integer_value_error double _ _ (by decide) (by
    intro i hi
    have : pyInt "1.5".toList = .error .value := by decide +kernel
    rw [this] at hi; cases hi)

end Sang
