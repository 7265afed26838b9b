import Verif.SignedZero
import Verif.Props.Simple
import Verif.Props.Colors

/-!
# C19 and C24, with negative zero
-/

namespace Sang

open Spec

/-- Whether a float has a minus sign. -/
def SFl.minus (x : SFl) : Bool := decide (x.q < 0) || (decide (x.q = 0) && x.neg)

theorem strip_fixedNN (k : ℕ) (q : ℚ) : strip (fixedNN k q) = fixedNN k q :=
  strip_noSpace fun c hc => numCh_not_space (fixedNN_numCh k q c hc)

theorem strip_neg_fixedNN (k : ℕ) (q : ℚ) : strip ('-' :: fixedNN k q) = '-' :: fixedNN k q := by
  refine strip_noSpace fun c hc => ?_
  rcases List.mem_cons.1 hc with rfl | hc
  · rfl
  · exact numCh_not_space (fixedNN_numCh k q c hc)

/-- Reading what was written. -/
theorem signedFloat_fixed {F : Fl} (hF : F.Lawful) (k : ℕ) (hk : k ≠ 0) (x : SFl) :
    signedFloat F (x.fixed k) = .ok ⟨F.rnd (dec k x.q), x.minus⟩ := by
  unfold SFl.fixed SFl.minus
  split
  · next h =>
    have hp : pyFloat F ('-' :: fixedNN k 0) = .ok 0 := by
      obtain ⟨n, hn, hv⟩ := fixedNN_parse k hk 0 true ('-' :: fixedNN k 0) rfl
      have hz : rhe ((0:ℚ) * 10 ^ k) = 0 := by rw [zero_mul]; exact_mod_cast rhe_int 0
      rw [pyFloat_plain, hn]
      · simp only [hv, hz]
        norm_num
        exact hF.zero
      · intro c hc
        rcases List.mem_cons.1 hc with rfl | hc
        · rfl
        · exact fixedNN_numCh k 0 c hc
    have hd : F.rnd (dec k x.q) = 0 := by
      have hz : rhe ((0:ℚ) * 10 ^ k) = 0 := by rw [zero_mul]; exact_mod_cast rhe_int 0
      rw [h.1, dec, hz]; simpa using hF.zero
    simp only [signedFloat, hp, strip_neg_fixedNN, takeSign, hd]
    simp [h.1, h.2]
  · next h =>
    simp only [signedFloat, pyFloat_fixed F k hk, Except.ok.injEq, SFl.mk.injEq, true_and]
    unfold Sang.fixed
    split
    · next hq => simp [strip_neg_fixedNN, takeSign, hq]
    · next hq =>
      rw [strip_fixedNN, fixedNN_takeSign]
      simp only [not_and, Bool.not_eq_true] at h
      by_cases h0 : x.q = 0
      · simp [h0, h h0]
      · simp [h0, hq]

/-- Writing what was read from what was written. -/
theorem fixed_signed_stable {F : Fl} (hF : F.Lawful) (k : ℕ) {x : SFl} (hx : F.rep x.q) :
    SFl.fixed k ⟨F.rnd (dec k x.q), x.minus⟩ = x.fixed k := by
  have hz : rhe ((0:ℚ) * 10 ^ k) = 0 := by rw [zero_mul]; exact_mod_cast rhe_int 0
  have hs := fixed_stable_rep hF k hx
  unfold SFl.fixed SFl.minus
  dsimp only
  rcases lt_trichotomy x.q 0 with hq | hq | hq
  · rw [if_neg (fun h : x.q = 0 ∧ x.neg = true => hq.ne h.1)]
    by_cases h0 : F.rnd (dec k x.q) = 0
    · rw [if_pos ⟨h0, by simp [hq]⟩, Sang.fixed, if_pos hq]
      congr 1
      apply fixedNN_congr
      rw [h0] at hs
      rw [neg_mul, rhe_neg, ← hs, hz]; rfl
    · rw [if_neg (fun h => h0 h.1)]
      exact fixed_text_stable hF k hx (.inr h0)
  · have hd : F.rnd (dec k x.q) = 0 := by rw [hq, dec, hz]; simpa using hF.zero
    rw [hd]; simp [hq]
  · rw [if_neg (fun h : x.q = 0 ∧ x.neg = true => hq.ne' h.1), if_neg (fun h => by simp [hq.not_gt, hq.ne'] at h)]
    exact fixed_text_stable hF k hx (.inl hq.le)

/-! ## C19 -/

/-- C19. For floats other than the negative zero, and when only the numbers are looked at, this is the model that
`c19_real_roundtrip` is about. -/
theorem c19_signed_agrees (F : Fl) (x : SFl) (hx : ¬ (x.q = 0 ∧ x.neg = true)) (n : Node) (hn : n.isTag = true) :
    setValue F .real (.float x.q) n = (setRealS x n, .ok ()) ∧ getFloat F n = (getRealS F n).map SFl.q := by
  constructor
  · rw [setReal_ok hn]
    cases n with
    | text s => cases hn
    | tag nm as ks => simp only [setRealS, SFl.fixed, if_neg hx]; rfl
  · unfold getFloat getRealS signedFloat
    cases simpleText n with
    | error e => rfl
    | ok s => cases h : pyFloat F s <;> simp [Except.map, h]

/-- C19. A real number is read back with its sign; and storing what was read changes nothing in the document, for every finite
float, also those that are rounded to a zero of either sign. -/
theorem c19_signed_stable {F : Fl} (hF : F.Lawful) (n : Node) (hn : n.isTag = true) (x : SFl) (hx : F.rep x.q) :
    ∃ y, getRealS F (setRealS x n) = .ok y ∧ y.neg = x.minus ∧
      |y.q - x.q| ≤ 1 / (2 * 10 ^ 10) + (|x.q| + 1 / (2 * 10 ^ 10)) / 2 ^ 53 ∧
      setRealS y (setRealS x n) = setRealS x n := by
  cases n with
  | text s => cases hn
  | tag nm as ks =>
    refine ⟨⟨F.rnd (dec 10 x.q), x.minus⟩, ?_, rfl, fixed_read_err hF 10 x.q, ?_⟩
    · have : simpleText (setRealS x (.tag nm as ks)) = .ok (x.fixed 10) := rfl
      rw [getRealS, this]
      exact signedFloat_fixed hF 10 (by norm_num) x
    · simp only [setRealS, fixed_signed_stable hF 10 hx]; rfl

/-- A small negative number, which is written as a negative zero; it is read as that, and written as that again. -/
example : (setRealS ⟨-1 / 10 ^ 12, false⟩ (.new "real")).attrs = [("value", .str "-0.0000000000".toList)] ∧
    (getRealS double (setRealS ⟨-1 / 10 ^ 12, false⟩ (.new "real"))).map (fun y => (y.q, y.neg)) = .ok (0, true) ∧
    (setRealS ⟨0, true⟩ (.new "real")).attrs = [("value", .str "-0.0000000000".toList)] := by
  refine ⟨?_, ?_, ?_⟩ <;> decide +kernel

/-! ## C24 -/

theorem setColorS_tag (r g b a : SFl) {n : Node} (hn : n.isTag = true) : setColorS r g b a n =
    .tag "color" [] [(Node.new "r").setString (r.fixed 6), (Node.new "g").setString (g.fixed 6),
      (Node.new "b").setString (b.fixed 6), (Node.new "a").setString (a.fixed 6)] := by
  cases n with
  | text s => cases hn
  | tag nm as ks => rfl

/-- C24. For floats other than the negative zero, and when only the numbers are looked at, this is the model that
`c24_tuple_roundtrip` is about. -/
theorem c24_signed_agrees (F : Fl) (r g b a : SFl) (h : ∀ x ∈ [r, g, b, a], ¬ (x.q = 0 ∧ x.neg = true)) (n : Node)
    (hn : n.isTag = true) :
    setValue F .color (.tuple [.float r.q, .float g.q, .float b.q, .float a.q]) n = (setColorS r g b a n, .ok ()) ∧
    colorTuple F n = (colorTupleS F n).map (List.map SFl.q) := by
  constructor
  · rw [setColor_ok hn (r := r.q) (g := g.q) (b := b.q) (a := a.q) rfl, setColorS_tag r g b a hn]
    simp only [List.mem_cons, List.not_mem_nil, or_false, forall_eq_or_imp, forall_eq] at h
    simp only [colorNode, componentTag, SFl.fixed, if_neg h.1, if_neg h.2.1, if_neg h.2.2.1, if_neg h.2.2.2]
  · have key : ∀ l : List String, mapRes (colorComponent F n) l = (mapRes (fun dim => match n.find dim with
        | none => .error .index
        | some d => match d.string? with
          | none => .error .type
          | some s => signedFloat F s) l).map (List.map SFl.q) := by
      intro l
      induction l with
      | nil => rfl
      | cons d l ih =>
        simp only [mapRes, colorComponent, ih, floatString, signedFloat]
        cases n.find d with
        | none => rfl
        | some m =>
          dsimp only
          cases m.string? with
          | none => rfl
          | some s =>
            dsimp only
            cases pyFloat F s with
            | error e => rfl
            | ok q =>
              dsimp only
              generalize mapRes _ l = z
              cases z <;> rfl
    exact key rgba

theorem colorTupleS_set {F : Fl} (hF : F.Lawful) (r g b a : SFl) {n : Node} (hn : n.isTag = true) :
    colorTupleS F (setColorS r g b a n) = .ok [⟨F.rnd (dec 6 r.q), r.minus⟩, ⟨F.rnd (dec 6 g.q), g.minus⟩,
      ⟨F.rnd (dec 6 b.q), b.minus⟩, ⟨F.rnd (dec 6 a.q), a.minus⟩] := by
  rw [setColorS_tag r g b a hn]
  simp [colorTupleS, rgba, mapRes, Node.find, Node.findAll, Node.descTags, Node.nodesIn, Node.subtree, Node.kids, Node.isTag,
    Node.new, Node.setString, Node.setKids, Node.name, Node.string?, Node.stringKids?,
    signedFloat_fixed hF 6 (by norm_num : (6:ℕ) ≠ 0)]

/-- C24. Storing the tuple that was read changes nothing in the document, for all finite floats, also those that are rounded
to a zero of either sign. -/
theorem c24_signed_stable {F : Fl} (hF : F.Lawful) (n : Node) (hn : n.isTag = true) (r g b a : SFl)
    (hx : ∀ x ∈ [r, g, b, a], F.rep x.q) :
    ∃ r' g' b' a', colorTupleS F (setColorS r g b a n) = .ok [r', g', b', a'] ∧
      setColorS r' g' b' a' (setColorS r g b a n) = setColorS r g b a n := by
  refine ⟨_, _, _, _, colorTupleS_set hF r g b a hn, ?_⟩
  simp only [List.mem_cons, List.not_mem_nil, or_false, forall_eq_or_imp, forall_eq] at hx
  rw [setColorS_tag r g b a hn, setColorS_tag _ _ _ _ rfl]
  simp only [fixed_signed_stable hF 6 hx.1, fixed_signed_stable hF 6 hx.2.1, fixed_signed_stable hF 6 hx.2.2.1,
    fixed_signed_stable hF 6 hx.2.2.2]

/-- A colour with a red that is rounded to the negative zero. -/
example : double.rep (double.rnd (-1 / 10 ^ 9)) ∧
    (colorTupleS double (setColorS ⟨double.rnd (-1 / 10 ^ 9), false⟩ ⟨1, false⟩ ⟨0, false⟩ ⟨1, false⟩ (.new "color"))).map
      (List.map fun y => (y.q, y.neg)) = .ok [(0, true), (1, false), (0, false), (1, false)] := by
  constructor <;> decide +kernel

end Sang
