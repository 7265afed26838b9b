import Verif.Value
import Verif.Lemmas.ValueNum
import Verif.Props.Time

/-! # Simple values: properties C19–C22, C31, C73, C74 -/

namespace Sang

open Spec

/-! ## C19: real numbers -/

/-- What the setter of a simple value leaves when the new value isn't `()` or `None`. -/
theorem setSimple_ok {F : Fl} {name : String} {dflt : Str} {conv : PV → Res Str} {v : PV}
    {n : Node} (hn : n.isTag = true) {s : Str} (h1 : v.eqEmptyTuple F = .ok false)
    (h2 : v.isNone = false) (h3 : conv v = .ok s) :
    setSimple F name dflt conv v n = (.tag name [("value", .str s)] [], .ok ()) := by
  cases n with
  | text t => simp [Node.isTag] at hn
  | tag nm a ks =>
    simp [setSimple, h1, h2, h3, Node.setName, Node.setAttrs, Node.setKids]

theorem simpleText_tag (name : String) (s : Str) (ks : List Node) :
    simpleText (.tag name [("value", .str s)] ks) = .ok s := rfl

theorem setReal_ok {F : Fl} {n : Node} (hn : n.isTag = true) (x : ℚ) :
    setValue F .real (.float x) n = (.tag "real" [("value", .str (fixed 10 x))] [], .ok ()) := by
  simp only [setValue]; exact setSimple_ok hn rfl rfl rfl

/-- C19. After `real.value = x` on any value, whatever it held, reading gives `x` to ten decimals
(plus float rounding). -/
theorem c19_real_roundtrip {F : Fl} (hF : F.Lawful) (n : Node) (hn : n.isTag = true) (x : ℚ) :
    (setValue F .real (.float x) n).2 = .ok () ∧
    ∃ q, getFloat F (setValue F .real (.float x) n).1 = .ok q ∧ F.rep q ∧
      |q - x| ≤ 1 / (2 * 10 ^ 10) + (|x| + 1 / (2 * 10 ^ 10)) / 2 ^ 53 := by
  rw [setReal_ok hn]
  refine ⟨rfl, F.rnd (dec 10 x), ?_, hF.idem _, fixed_read_err hF 10 x⟩
  simp only [getFloat, simpleText_tag]
  exact pyFloat_fixed F 10 (by norm_num) x

/-- C19. Storing the value just read changes nothing more: the value stays exactly the same, for
every float `x`, and so does the text in the document. (For the text, `x` must not be a negative
number that rounds to zero: the model has no negative zero.) -/
theorem c19_real_stable {F : Fl} (hF : F.Lawful) (n : Node) (hn : n.isTag = true) (x q : ℚ)
    (hx : F.rep x) (hq : getFloat F (setValue F .real (.float x) n).1 = .ok q) :
    getFloat F (setValue F .real (.float q) (setValue F .real (.float x) n).1).1 = .ok q ∧
    (0 ≤ x ∨ q ≠ 0 → setValue F .real (.float q) (setValue F .real (.float x) n).1 =
      ((setValue F .real (.float x) n).1, .ok ())) := by
  rw [setReal_ok hn] at hq ⊢
  simp only [getFloat, simpleText_tag, pyFloat_fixed F 10 (by norm_num : (10:ℕ) ≠ 0)] at hq
  obtain rfl : F.rnd (dec 10 x) = q := by simpa using hq
  rw [setReal_ok rfl]
  refine ⟨?_, ?_⟩
  · simp only [getFloat, simpleText_tag, pyFloat_fixed F 10 (by norm_num : (10:ℕ) ≠ 0),
      dec_stable_rep hF 10 hx]
  · intro h0
    simp only [fixed_text_stable hF 10 hx h0]

/-- C19's hypotheses are met: a third, stored over an animated value, reads back as 0.3333333333
and stays. -/
example :
    (setValue double .real (.float (1/3)) (.tag "animated" [] [.text ['x']])).1 =
      .tag "real" [("value", .str "0.3333333333".toList)] [] ∧
    double.rep (double.rnd (1/3)) := by
  constructor <;> decide +kernel

/-! ## C20: integers and booleans -/

/-- C20. An integer is read back exactly. -/
theorem c20_integer_roundtrip (F : Fl) (n : Node) (hn : n.isTag = true) (i : ℤ) :
    (setValue F .integer (.int i) n).2 = .ok () ∧
    getInt (setValue F .integer (.int i) n).1 = .ok i := by
  have h : setValue F .integer (.int i) n = (.tag "integer" [("value", .str (intStr i))] [], .ok ()) := by
    simp only [setValue]; exact setSimple_ok hn rfl rfl rfl
  rw [h]
  exact ⟨rfl, pyInt_intStr i⟩

/-- C20. A boolean is read back exactly. -/
theorem c20_bool_roundtrip (F : Fl) (n : Node) (hn : n.isTag = true) (b : Bool) :
    (setValue F .bool (.bool b) n).2 = .ok () ∧
    getBool (setValue F .bool (.bool b) n).1 = .ok b := by
  have h : setValue F .bool (.bool b) n = (.tag "bool" [("value", .str (boolStr b))] [], .ok ()) := by
    simp only [setValue]; exact setSimple_ok hn rfl rfl rfl
  rw [h]
  cases b <;> exact ⟨rfl, rfl⟩

/-- C20 on real cases: text in the document is what Synfig expects. -/
example :
    (setValue double .integer (.int (-12)) (.new "integer")).1 =
      .tag "integer" [("value", .str "-12".toList)] [] ∧
    (setValue double .bool (.bool true) (.new "bool")).1 =
      .tag "bool" [("value", .str "true".toList)] [] := by
  constructor <;> decide +kernel

/-! ## C21: angles -/

/-- C21. An angle is read back exactly, for every float. -/
theorem c21_angle_roundtrip {F : Fl} (hF : F.Lawful) (n : Node) (hn : n.isTag = true) (x : ℚ)
    (hx : F.rep x) :
    (setValue F .angle (.float x) n).2 = .ok () ∧
    getFloat F (setValue F .angle (.float x) n).1 = .ok x := by
  have h : setValue F .angle (.float x) n = (.tag "angle" [("value", .str (reprF F x))] [], .ok ()) := by
    simp only [setValue]; exact setSimple_ok hn rfl rfl rfl
  rw [h]
  refine ⟨rfl, ?_⟩
  simp only [getFloat, simpleText_tag]
  exact pyFloat_reprF hF hx

/-- C21's hypothesis is met by a number with no short decimal. -/
example : double.rep (double.rnd (1/3)) ∧
    (setValue double .angle (.float (double.rnd (1/3))) (.new "angle")).1 =
      .tag "angle" [("value", .str "0.3333333333333333".toList)] [] := by
  constructor <;> decide +kernel

/-! ## C22: times -/

theorem frames_text (n : ℕ) : natStr n ++ ['f'] =
    specText [⟨[], ⟨false, natStr n, []⟩, .f⟩] [] := by
  simp [specText, Amount.text, TimeUnit.char]

theorem parseSpec_frames {F : Fl} (hF : F.Lawful) (fps : Option ℚ) (n : ℕ) (hn : n < 2 ^ 53) :
    parseSpec F fps (natStr n ++ ['f']) = .ok n := by
  rw [frames_text, parseSpec_text F fps (by
      intro p hp; simp only [List.mem_singleton] at hp; subst hp
      exact ⟨by simp, natAmount_valid false n⟩) (by simp [Distinct]) (by simp)]
  simp [framesOf, secondsOf, addSeconds, partsOf, TimeUnit.char, List.lookup, natAmount_value,
    hF.nat n hn.le]

theorem setTime_ok {F : Fl} (hF : F.Lawful) {n : Node} (hn : n.isTag = true) (k : ℕ)
    (hk : k < 10 ^ 6) (v : PV) (hv : v = .int k ∨ v = .float k) :
    setValue F .time v n = (.tag "time" [("value", .str (natStr k ++ ['f']))] [], .ok ()) := by
  have hr : F.rnd (k:ℚ) = k := hF.nat k (by have : (10:ℕ)^6 ≤ 2^53 := by norm_num
                                            omega)
  have ht : timeText F v = .ok (natStr k ++ ['f']) := by
    have h1 : v.toTArg F = .num (k:ℚ) := by
      rcases hv with rfl | rfl
      · simp [PV.toTArg, PV.toFloat, hr]
      · rfl
    have h2 : T.new F none (.num (k:ℚ)) = .ok ⟨k, none⟩ := by
      simp [T.new, readFps, framesOfNumber, hr, not_lt.2 (Nat.cast_nonneg (α := ℚ) k)]
    simp only [timeText, h1, h2, T.str, fmtG_nat hk]
  rcases hv with rfl | rfl
  · simp only [setValue]; exact setSimple_ok hn rfl rfl ht
  · simp only [setValue]; exact setSimple_ok hn rfl rfl ht

/-- C22. A whole number of frames below a million, given as an int or a float, is read back as
that frame, detached from any document... -/
theorem c22_time_roundtrip_detached {F : Fl} (hF : F.Lawful) (n : Node) (hn : n.isTag = true)
    (k : ℕ) (hk : k < 10 ^ 6) (v : PV) (hv : v = .int k ∨ v = .float k) :
    (setValue F .time v n).2 = .ok () ∧
    getTime F none (setValue F .time v n).1 = .ok ⟨k, none⟩ := by
  rw [setTime_ok hF hn k hk v hv]
  refine ⟨rfl, ?_⟩
  simp only [getTime, simpleText_tag, T.new, readFps]
  rw [parseSpec_frames hF _ k (by have : (10:ℕ)^6 < 2^53 := by norm_num
                                  omega)]

/-- C22. ... or in an animation, where it gets the animation's frame rate. -/
theorem c22_time_roundtrip_attached {F : Fl} (hF : F.Lawful) (n : Node) (hn : n.isTag = true)
    (root : Attrs) (r : ℚ) (hr : 0 < r) (hroot : HasFps F root r)
    (k : ℕ) (hk : k < 10 ^ 6) (v : PV) (hv : v = .int k ∨ v = .float k) :
    (setValue F .time v n).2 = .ok () ∧
    getTime F (some root) (setValue F .time v n).1 = .ok ⟨k, some r⟩ := by
  rw [setTime_ok hF hn k hk v hv]
  refine ⟨rfl, ?_⟩
  simp only [getTime, simpleText_tag]
  rw [new_str hroot hr, parseSpec_frames hF _ k (by have : (10:ℕ)^6 < 2^53 := by norm_num
                                                    omega)]

/-- C22's hypotheses are met. -/
example : HasFps double exRoot 24 ∧ (0:ℚ) < 24 ∧
    (setValue double .time (.int 999999) (.new "time")).1 =
      .tag "time" [("value", .str "999999f".toList)] [] :=
  ⟨exRoot_fps, by norm_num, by decide +kernel⟩

/-- C22. Text with a whole, nonzero number of seconds is refused and changes nothing, whether or
not the value is in a document: the setter doesn't look. -/
theorem c22_seconds_refused {F : Fl} (hF : F.Lawful) (n : Node) (ps : List Part) (tr : Str)
    (hp : ∀ p ∈ ps, p.Valid) (ht : ∀ c ∈ tr, isSpace c = true) (hd : Distinct ps) (H M S G : ℤ)
    (hH : amount ps .h = H) (hM : amount ps .m = M) (hS : amount ps .s = S)
    (hG : amount ps .f = G) (hb : |H * 3600| + |M * 60| + |S| ≤ 2 ^ 53) (hG' : |G| ≤ 2 ^ 53)
    (hs : seconds ps ≠ 0) :
    setValue F .time (.str (specText ps tr)) n = (n, .error .value) := by
  have h := c08_seconds_need_ref hF ps tr hp ht hd H M S G hH hM hS hG hb hG'
  rw [if_pos hs] at h
  simp [setValue, setSimple, PV.eqEmptyTuple, PV.isNone, timeText, PV.toTArg, h]

/-- C22's seconds: two seconds, written `2s`. -/
example : setValue double .time (.str "2s".toList) (.new "time") = (.new "time", .error .value) := by
  decide +kernel

/-- C22. A negative number of frames is refused too, and changes nothing. -/
theorem c22_negative_refused {F : Fl} (hF : F.Lawful) (n : Node) (x : ℚ) (hx : x < 0) :
    setValue F .time (.float x) n = (n, .error .value) := by
  have h1 : F.rnd x < 0 := by
    have := hF.pos (q := -x) (by linarith)
    rw [hF.neg] at this; linarith
  simp [setValue, setSimple, PV.eqEmptyTuple, PV.isNone, timeText, PV.toTArg, PV.toFloat, T.new,
    readFps, framesOfNumber, h1]

/-- C22. From a million frames up, storing succeeds but the value can no longer be read, attached
or not. -/
theorem c22_million_unreadable {F : Fl} (hF : F.Lawful) (n : Node) (hn : n.isTag = true) (x : ℚ)
    (hx : 10 ^ 6 ≤ x) (root : Option Attrs) (hroot : ∃ fps, readFps F root = .ok fps) :
    (setValue F .time (.float x) n).2 = .ok () ∧
    getTime F root (setValue F .time (.float x) n).1 = .error .value := by
  obtain ⟨fps, hroot⟩ := hroot
  have hb : 10 ^ 6 ≤ F.rnd x := by
    have h1 := hF.mono hx
    have h2 : F.rnd (10 ^ 6) = 10 ^ 6 := by
      have := hF.nat (10 ^ 6) (by norm_num)
      rwa [Nat.cast_pow, Nat.cast_ofNat] at this
    rwa [h2] at h1
  have hneg : ¬ F.rnd x < 0 := by
    have : (0:ℚ) ≤ 10 ^ 6 := by norm_num
    exact not_lt.2 (this.trans hb)
  have h : setValue F .time (.float x) n =
      (.tag "time" [("value", .str (fmtG (F.rnd x) ++ ['f']))] [], .ok ()) := by
    simp only [setValue]
    apply setSimple_ok hn rfl rfl
    simp [timeText, PV.toTArg, PV.toFloat, T.new, readFps, framesOfNumber, hneg, T.str]
  rw [h]
  refine ⟨rfl, ?_⟩
  simp only [getTime, simpleText_tag, T.new, hroot, parseSpec_big F fps hb]

/-- C22's million: exactly a million frames is written `1e+06f`. -/
example : (setValue double .time (.int 1000000) (.new "time")).1 =
    .tag "time" [("value", .str "1e+06f".toList)] [] ∧
    getTime double (some exRoot) (setValue double .time (.int 1000000) (.new "time")).1 =
      .error .value := by
  constructor <;> decide +kernel

/-! ## C31: strings -/

/-- C31. A string is read back exactly, in memory, whatever the value held before. -/
theorem c31_string_roundtrip (F : Fl) (n : Node) (hn : n.isTag = true) (s : Str) :
    (setValue F .string (.str s) n).2 = .ok () ∧
    getString (setValue F .string (.str s) n).1 = s := by
  cases n with
  | text t => simp [Node.isTag] at hn
  | tag nm a ks =>
    simp [setValue, PV.toStr, Node.setString, Node.setKids, getString, Node.string?,
      Node.stringKids?]

/-- Text that a document keeps: not empty, no carriage return, and not just blanks (unless
a single space or newline). -/
def KeptText (s : Str) : Prop :=
  s ≠ [] ∧ '\r' ∉ s ∧ (s.all asciiSpace = true → s = [' '] ∨ s = ['\n'])

theorem newlines_id {s : Str} (h : '\r' ∉ s) : newlines s = s := by
  induction s with
  | nil => rfl
  | cons c s ih =>
    simp only [List.mem_cons, not_or] at h
    rw [newlines, ih h.2]
    · rintro r hr; exact absurd hr.symm h.1
    · intro hr; exact absurd hr.symm h.1

theorem newlines_no_cr (s : Str) : '\r' ∉ newlines s := by
  induction s using newlines.induct with
  | case1 => simp [newlines]
  | case2 r ih => simp [newlines, ih]
  | case3 r h ih => rw [newlines]; · simp [ih]
                    · exact h
  | case4 c r h1 h2 ih =>
    rw [newlines]
    · simp only [List.mem_cons, not_or]; exact ⟨fun h => h2 h.symm, ih⟩
    · exact h1
    · exact h2

/-- C31, violated in part. What a string reads as after the document is saved and loaded again:
itself exactly when it is kept text; otherwise something else (for an empty string, `None`). -/
theorem c31_string_survives_saving_iff (F : Fl) (n : Node) (hn : n.isTag = true) (s : Str) :
    getString ((setValue F .string (.str s) n).1.reload F) = s ↔ KeptText s ∨ s = "None".toList := by
  cases n with
  | text t => simp [Node.isTag] at hn
  | tag nm a ks =>
    have hr : ((setValue F .string (.str s) (.tag nm a ks)).1.reload F) =
        .tag nm (a.map fun p => (p.1, .str (attrSpaces (p.2.str' F)))) (readText s) := by
      simp [setValue, PV.toStr, Node.setString, Node.setKids, Node.reload, Node.reloadKids]
    rw [hr]
    simp only [getString, Node.string?]
    unfold readText
    have hempty : ∀ s : Str, newlines s = [] → s = [] := by
      intro s h
      cases s with
      | nil => rfl
      | cons c r =>
        exfalso
        rw [newlines.eq_def] at h
        split at h <;> simp_all
    by_cases h0 : newlines s = []
    · have := hempty s h0
      subst this
      simp [h0, Node.stringKids?, KeptText]
    · have hs : s ≠ [] := by rintro rfl; exact h0 rfl
      simp only [h0, if_false]
      by_cases hsp : (newlines s).all asciiSpace = true
      · simp only [hsp, if_true, Node.stringKids?, Node.string?]
        constructor
        · intro h
          have hcr : '\r' ∉ s := by
            rw [← h]; split <;> decide
          left
          refine ⟨hs, hcr, fun _ => ?_⟩
          rw [← h]; split
          · right; rfl
          · left; rfl
        · rintro (⟨_, h2, h3⟩ | h)
          · rw [newlines_id h2] at hsp
            rcases h3 hsp with rfl | rfl <;> rfl
          · subst h; exact absurd hsp (by decide)
      · simp only [hsp]
        simp only [Bool.false_eq_true, if_false, Node.stringKids?, Node.string?]
        constructor
        · intro h
          have hcr : '\r' ∉ s := by
            rw [← h]; exact newlines_no_cr s
          left
          refine ⟨hs, hcr, fun hall => ?_⟩
          rw [newlines_id hcr] at hsp
          exact absurd hall hsp
        · rintro (⟨_, h2, _⟩ | h)
          · exact newlines_id h2
          · subst h; rfl

/-- C31, the part that holds: ordinary text survives saving. -/
theorem c31_string_survives_saving_partial (F : Fl) (n : Node) (hn : n.isTag = true) (s : Str)
    (h : KeptText s) : getString ((setValue F .string (.str s) n).1.reload F) = s :=
  (c31_string_survives_saving_iff F n hn s).2 (.inl h)

/-- C31's hypothesis is met by text with blanks inside; and fails for the empty string, two
spaces, and a Windows line ending. -/
example : KeptText "two  words\n".toList ∧ ¬ KeptText [] ∧ ¬ KeptText "  ".toList ∧
    ¬ KeptText "a\r\nb".toList := by
  refine ⟨⟨by decide, by decide, by decide⟩, fun h => h.1 rfl, fun h => ?_, fun h => ?_⟩
  · exact absurd (h.2.2 (by decide)) (by decide)
  · exact h.2.1 (by decide)

/-- C31 violated: an empty string comes back as `None`. -/
theorem c31_empty_string_lost (F : Fl) :
    getString ((setValue F .string (.str []) (.new "string")).1.reload F) = "None".toList := rfl

/-! ## C73: assigning a value object -/

/-- C73. Assigning a `Bool` object makes this value equal to it. -/
theorem c73_bool (F : Fl) (root : Option Attrs) (m n : Node) (hn : n.isTag = true) (b : Bool)
    (hm : getBool m = .ok b) :
    (setValue F .bool (.val .bool root m) n).2 = .ok () ∧
    getBool (setValue F .bool (.val .bool root m) n).1 = .ok b := by
  have h : setValue F .bool (.val .bool root m) n =
      (((n.setName "bool").setAttrs [("value", .str (boolStr b))]).setKids [], .ok ()) := by
    cases b <;> simp [setValue, setSimple, PV.eqEmptyTuple, PV.isNone, hm, boolText, PV.toBool]
  rw [h]
  cases n with
  | text t => simp [Node.isTag] at hn
  | tag nm a ks => cases b <;> exact ⟨rfl, rfl⟩

/-- C73. Assigning a `String` object (not animated) makes this value equal to it. -/
theorem c73_string (F : Fl) (root : Option Attrs) (m n : Node) (hn : n.isTag = true)
    (hm : m.name ≠ "animated") :
    (setValue F .string (.val .string root m) n).2 = .ok () ∧
    getString (setValue F .string (.val .string root m) n).1 = getString m := by
  cases n with
  | text t => simp [Node.isTag] at hn
  | tag nm a ks =>
    simp [setValue, PV.toStr, hm, Node.setString, Node.setKids, getString, Node.string?,
      Node.stringKids?]

/-- C73, violated: assigning a `Real`, `Integer`, `Angle` or `Time` object never works, whatever
it holds. Nothing is changed. -/
theorem c73_numeric_objects_refused (F : Fl) (c : VCls)
    (hc : c = .real ∨ c = .integer ∨ c = .angle ∨ c = .time) (root : Option Attrs) (m n : Node) :
    ∃ e, setValue F c (.val c root m) n = (n, .error e) := by
  rcases hc with rfl | rfl | rfl | rfl
  · exact ⟨.type, rfl⟩
  · exact ⟨.type, rfl⟩
  · exact ⟨.type, rfl⟩
  · simp only [setValue, setSimple, PV.eqEmptyTuple]
    cases h : getTime F root m with
    | error e => exact ⟨e, rfl⟩
    | ok t =>
      refine ⟨.value, ?_⟩
      simp [PV.isNone, timeText, PV.toTArg, PV.toFloat, T.new, readFps]

/-- C73's case: a `Real` holding 1.5 can't be assigned to another. -/
example : getFloat double (.tag "real" [("value", .str "1.5".toList)] []) = .ok (3/2) ∧
    setValue double .real (.val .real none (.tag "real" [("value", .str "1.5".toList)] []))
      (.new "real") = (.new "real", .error .type) := by
  constructor <;> decide +kernel

/-! ## C74: comparing real numbers -/

/-- C74. Comparing `Real` objects which can be read is reflexive and symmetric. -/
theorem c74_real_eq_refl_symm {F : Fl} (hF : F.Lawful) (root root' : Option Attrs) (n m : Node)
    (a b : ℚ) (hn : getFloat F n = .ok a) (hm : getFloat F m = .ok b) :
    realEq F n (.val .real root n) = .ok true ∧
    realEq F n (.val .real root m) = realEq F m (.val .real root' n) := by
  refine ⟨?_, ?_⟩
  · simp only [realEq, hn, realNear, sub_self, hF.zero, abs_zero, nearAsDammit,
      Except.ok.injEq, decide_eq_true_eq]
    exact hF.nonneg (by norm_num)
  · simp only [realEq, hn, hm, realNear, ← neg_sub b a, hF.neg, abs_neg]

/-- A `Real` element holding a text. -/
def realNode (s : String) : Node := .tag "real" [("value", .str s.toList)] []

/-- C74. Two reals which can be read are equal if they differ by at most 0.0001, and not if they differ by more, but
for the rounding of 0.0001 itself. -/
theorem c74_real_eq_means {F : Fl} (hF : F.Lawful) (root : Option Attrs) (n m : Node)
    (a b : ℚ) (hn : getFloat F n = .ok a) (hm : getFloat F m = .ok b) :
    (|a - b| ≤ 1 / 10000 → realEq F n (.val .real root m) = .ok true) ∧
    (1 / 10000 * (1 + 1 / 2 ^ 50) < |a - b| → realEq F n (.val .real root m) = .ok false) := by
  have habs : |F.rnd (a - b)| = F.rnd |a - b| := by
    rcases le_total 0 (a - b) with h | h
    · rw [abs_of_nonneg h, abs_of_nonneg (hF.nonneg h)]
    · rw [abs_of_nonpos h, hF.neg, abs_of_nonpos]
      have := hF.nonneg (q := -(a - b)) (by linarith)
      rw [hF.neg] at this
      linarith
  simp only [realEq, hn, hm, realNear, nearAsDammit, habs, Except.ok.injEq, decide_eq_true_eq,
    decide_eq_false_iff_not, not_le]
  refine ⟨fun h => hF.mono (by norm_num at h ⊢; exact h), fun h => ?_⟩
  have h1 := abs_le.1 (hF.err (1 / 10000))
  have h2 := abs_le.1 (hF.err |a - b|)
  rw [abs_abs] at h2
  rw [abs_of_nonneg (by norm_num : (0:ℚ) ≤ 1 / 10000)] at h1
  norm_num at h h1 h2 ⊢
  linarith [h1.2, h2.1]

/-- C74's bounds are met from both sides: 1 equals 1.00009 and not 1.00011. -/
example : realEq double (realNode "1.0000000000") (.val .real none (realNode "1.0000900000")) = .ok true ∧
    realEq double (realNode "1.0000000000") (.val .real none (realNode "1.0001100000")) = .ok false := by
  decide +kernel

/-- C74, violated: comparing reals is not transitive. -/
theorem c74_real_eq_not_transitive :
    realEq double (realNode "0.0000000000") (.val .real none (realNode "0.0000900000")) = .ok true ∧
    realEq double (realNode "0.0000900000") (.val .real none (realNode "0.0001800000")) = .ok true ∧
    realEq double (realNode "0.0000000000") (.val .real none (realNode "0.0001800000")) =
      .ok false := by
  refine ⟨?_, ?_, ?_⟩ <;> decide +kernel

end Sang
