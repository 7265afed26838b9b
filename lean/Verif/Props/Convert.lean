import Verif.Props.Simple
import Verif.Props.Compare
import Verif.Props.Vectors
import Verif.Lemmas.SaveOpen

/-! # C119: simple values made from other kinds of Python objects -/

namespace Sang

open Spec

/-- C119. Anything `float()` takes can be assigned to a real number or an angle, and means the same as that float:
whole numbers, booleans (1 and 0) and the text of a number; `None` and `()` mean 0. -/
theorem c119_real (F : Fl) (c : VCls) (hc : c = .real ∨ c = .angle) (n : Node) :
    (∀ i : ℤ, setValue F c (.int i) n = setValue F c (.float (F.rnd i)) n) ∧
    (setValue F c (.bool true) n = setValue F c (.float 1) n) ∧
    (setValue F c (.bool false) n = setValue F c (.float 0) n) ∧
    (∀ s q, pyFloat F s = .ok q → setValue F c (.str s) n = setValue F c (.float q) n) ∧
    setValue F c .none n = setValue F c (.float 0) n ∧
    setValue F c (.tuple []) n = setValue F c (.float 0) n := by
  rcases hc with rfl | rfl
  · refine ⟨fun i => rfl, rfl, rfl, fun s q h => ?_, rfl, rfl⟩
    simp only [setValue, setSimple, PV.eqEmptyTuple, PV.isNone, realText, PV.toFloat, h]; rfl
  · refine ⟨fun i => rfl, rfl, rfl, fun s q h => ?_, rfl, rfl⟩
    simp only [setValue, setSimple, PV.eqEmptyTuple, PV.isNone, angleText, PV.toFloat, h]; rfl

/-- C119. Text that isn't a number raises `ValueError`, anything else (such as a tuple or a dict) raises
`TypeError`; and nothing changes. -/
theorem c119_real_refused (F : Fl) (c : VCls) (hc : c = .real ∨ c = .angle) (n : Node) :
    (∀ s e, pyFloat F s = .error e → setValue F c (.str s) n = (n, .error e)) ∧
    (∀ x l, setValue F c (.tuple (x :: l)) n = (n, .error .type)) ∧
    (∀ l, setValue F c (.dict l) n = (n, .error .type)) ∧
    setValue F c .other n = (n, .error .type) := by
  rcases hc with rfl | rfl
  · refine ⟨fun s e h => ?_, fun x l => rfl, fun l => rfl, rfl⟩
    simp [setValue, setSimple, PV.eqEmptyTuple, PV.isNone, realText, PV.toFloat, h]
  · refine ⟨fun s e h => ?_, fun x l => rfl, fun l => rfl, rfl⟩
    simp [setValue, setSimple, PV.eqEmptyTuple, PV.isNone, angleText, PV.toFloat, h]

/-- `i` is `q` without its fraction. -/
def WholePart (q : ℚ) (i : ℤ) : Prop :=
  (0 ≤ q → (i : ℚ) ≤ q ∧ q < i + 1) ∧ (q < 0 → q ≤ i ∧ (i : ℚ) - 1 < q)

theorem truncQ_whole (q : ℚ) : WholePart q (truncQ q) := by
  constructor
  · intro h
    rw [truncQ, if_neg (not_lt.2 h)]
    exact ⟨Int.floor_le q, Int.lt_floor_add_one q⟩
  · intro h
    rw [truncQ, if_pos h]
    have h1 := Int.floor_le (-q)
    have h2 := Int.lt_floor_add_one (-q)
    push_cast
    constructor <;> linarith

/-- C119. A float assigned to a whole number loses its fraction, whatever its sign; booleans are 1 and 0; text is
the number it says; `None` and `()` mean 0. -/
theorem c119_integer (F : Fl) (n : Node) (hn : n.isTag = true) :
    (∀ q : ℚ, ∃ i : ℤ, WholePart q i ∧ setValue F .integer (.float q) n = setValue F .integer (.int i) n ∧
      getInt (setValue F .integer (.float q) n).1 = .ok i) ∧
    (∀ b : Bool, setValue F .integer (.bool b) n = setValue F .integer (.int (if b then 1 else 0)) n) ∧
    (∀ s i, pyInt s = .ok i → setValue F .integer (.str s) n = setValue F .integer (.int i) n) ∧
    setValue F .integer .none n = setValue F .integer (.int 0) n ∧
    setValue F .integer (.tuple []) n = setValue F .integer (.int 0) n := by
  refine ⟨fun q => ⟨truncQ q, truncQ_whole q, rfl, ?_⟩, fun b => rfl, fun s i h => ?_, rfl, rfl⟩
  · rw [show setValue F .integer (.float q) n = setValue F .integer (.int (truncQ q)) n from rfl]
    exact (c20_integer_roundtrip F n hn _).2
  · simp only [setValue, setSimple, PV.eqEmptyTuple, PV.isNone, integerText, PV.toInt, h]; rfl

/-- C119. Text that isn't a whole number raises `ValueError`, anything else raises `TypeError`; and nothing
changes. -/
theorem c119_integer_refused (F : Fl) (n : Node) :
    (∀ s e, pyInt s = .error e → setValue F .integer (.str s) n = (n, .error e)) ∧
    (∀ x l, setValue F .integer (.tuple (x :: l)) n = (n, .error .type)) ∧
    (∀ l, setValue F .integer (.dict l) n = (n, .error .type)) ∧
    setValue F .integer .other n = (n, .error .type) := by
  refine ⟨fun s e h => ?_, fun x l => rfl, fun l => rfl, rfl⟩
  simp [setValue, setSimple, PV.eqEmptyTuple, PV.isNone, integerText, PV.toInt, h]

/-- C119. A number assigned to a boolean is true unless it is zero; `None` and `()` are false, and other tuples
and dicts are true unless they are empty. (For text see C103.) -/
theorem c119_bool (F : Fl) (n : Node) (hn : n.isTag = true) :
    (∀ q : ℚ, getBool (setValue F .bool (.float q) n).1 = .ok (decide (q ≠ 0))) ∧
    (∀ i : ℤ, getBool (setValue F .bool (.int i) n).1 = .ok (decide (i ≠ 0))) ∧
    getBool (setValue F .bool .none n).1 = .ok false ∧
    (∀ l, getBool (setValue F .bool (.tuple l) n).1 = .ok (decide (l ≠ []))) ∧
    (∀ l, getBool (setValue F .bool (.dict l) n).1 = .ok (decide (l ≠ []))) := by
  have key : ∀ v b, setValue F .bool v n = setValue F .bool (.bool b) n →
      getBool (setValue F .bool v n).1 = .ok b := fun v b h => by
    rw [h]; exact (c20_bool_roundtrip F n hn b).2
  refine ⟨fun q => key _ _ rfl, fun i => key _ _ rfl, key _ _ rfl, fun l => key _ _ ?_, fun l => key _ _ ?_⟩
  · cases l <;> rfl
  · cases l <;> rfl

/-- C119. A time can be given as a `T`, of any rate: its frames are taken. `None` and `()` mean the start. -/
theorem c119_time {F : Fl} (hF : F.Lawful) (n : Node) (hn : n.isTag = true) :
    (∀ (k : ℕ) (r : Option ℚ), k < 10 ^ 6 →
      setValue F .time (.t ⟨k, r⟩) n = setValue F .time (.int k) n) ∧
    setValue F .time .none n = setValue F .time (.int 0) n ∧
    setValue F .time (.tuple []) n = setValue F .time (.int 0) n := by
  have h0 := setTime_ok hF hn 0 (by norm_num) (.int 0) (.inl rfl)
  refine ⟨fun k r hk => ?_, ?_, ?_⟩
  · rw [setTime_ok hF hn k hk (.int k) (.inl rfl), setValue]
    apply setSimple_ok hn rfl rfl
    simp [timeText, PV.toTArg, T.new, readFps, framesOfNumber, T.str, fmtG_nat hk,
      not_lt.2 (Nat.cast_nonneg (α := ℚ) k)]
  · rw [h0]
    cases n with
    | text t => simp [Node.isTag] at hn
    | tag nm a ks => rfl
  · rw [h0]
    cases n with
    | text t => simp [Node.isTag] at hn
    | tag nm a ks => rfl

/-- C119. A string takes numbers and booleans as Python writes them. -/
theorem c119_string {F : Fl} (hF : F.Lawful) (n : Node) (hn : n.isTag = true) :
    (∀ q, F.rep q → ∃ s, getString (setValue F .string (.float q) n).1 = s ∧ pyFloat F s = .ok q) ∧
    (∀ i, ∃ s, getString (setValue F .string (.int i) n).1 = s ∧ pyInt s = .ok i) ∧
    (∀ b, getString (setValue F .string (.bool b) n).1 = (if b then "True" else "False").toList) := by
  have key : ∀ v s, v.toStr F = .ok s → getString (setValue F .string v n).1 = s := by
    intro v s h
    cases n with
    | text t => simp [Node.isTag] at hn
    | tag nm a ks =>
      simp [setValue, h, Node.setString, Node.setKids, getString, Node.string?, Node.stringKids?]
  exact ⟨fun q hq => ⟨_, key _ _ rfl, pyFloat_reprF hF hq⟩, fun i => ⟨_, key _ _ rfl, pyInt_intStr i⟩,
    fun b => key _ _ (by cases b <;> rfl)⟩

/-- C119, violated: text has no default. `None` is stored as if it were text. -/
theorem c119_string_none (F : Fl) (n : Node) (hn : n.isTag = true) :
    getString (setValue F .string .none n).1 = "None".toList := by
  cases n with
  | text t => simp [Node.isTag] at hn
  | tag nm a ks => rfl

/-- What a vector is after two coordinates are set, whatever they are. -/
theorem setVector_two (F : Fl) (nm : String) (a : Attrs) (ks : List Node) {v w : PV} (hv : v.isNumber = true)
    (hw : w.isNumber = true) {s t : Str} (hs : coordText F v = .ok s) (ht : coordText F w = .ok t) :
    setValue F .vector (.tuple [v, w]) (.tag nm a ks) =
      (.tag "vector" [] (ks ++ [.tag "x" [] [.text s], .tag "y" [] [.text t]]), .ok ()) := by
  simp [setValue, setVector, vectorArg, hv, hw, appendMembers, hs, ht, Node.setName,
    Node.setAttrs, Node.append, Node.new, Node.setString, Node.setKids]

theorem vectorTuple_two (F : Fl) (a : Attrs) (ks : List Node)
    (hk : ∀ k ∈ ks, k.isTag = true → k.name = "x" ∨ k.name = "y") (s t : Str) :
    vectorTuple F (.tag "vector" a (ks ++ [.tag "x" [] [.text s], .tag "y" [] [.text t]])) =
      mapRes (pyFloat F) [s, t] := by
  have h : XYOnly ((ks.filter Node.isTag).foldl (fun d x => dictSet x.name x.string? d) []) :=
    xyOnly_fold _ (fun k hk' => hk k (List.mem_filter.1 hk').1 (List.mem_filter.1 hk').2) [] (by simp [XYOnly])
  have e1 : sortNames ["x", "y"] = ["x", "y"] := by decide
  have e2 : sortNames ["y", "x"] = ["x", "y"] := by decide
  simp only [vectorTuple, vectorDict, Node.tagKids, Node.kids, List.filter_append, List.foldl_append]
  show mapRes (fun k => floatOpt F (((dictSet "y" (some t) (dictSet "x" (some s)
      ((ks.filter Node.isTag).foldl (fun d x => dictSet x.name x.string? d) []))).lookup k).getD none))
      (sortNames ((dictSet "y" (some t) (dictSet "x" (some s)
        ((ks.filter Node.isTag).foldl (fun d x => dictSet x.name x.string? d) []))).map Prod.fst)) = _
  generalize (ks.filter Node.isTag).foldl (fun d x => dictSet x.name x.string? d) [] = d at h
  rcases xyOnly_cases h with rfl | ⟨a, rfl⟩ | ⟨a, rfl⟩ | ⟨a, b, rfl⟩ | ⟨a, b, rfl⟩ <;>
    simp [dictSet, e1, e2, mapRes, List.lookup, floatOpt]

/-- C119. A vector takes whole numbers as well: they read back as the floats nearest them, exactly. -/
theorem c119_vector (F : Fl) (n : Node) (hn : n.isTag = true)
    (hk : ∀ k ∈ n.kids, k.isTag = true → k.name = "x" ∨ k.name = "y") (i j : ℤ) :
    (setValue F .vector (.tuple [.int i, .int j]) n).2 = .ok () ∧
    vectorTuple F (setValue F .vector (.tuple [.int i, .int j]) n).1 = .ok [F.rnd i, F.rnd j] := by
  cases n with
  | text t => simp [Node.isTag] at hn
  | tag nm a ks =>
    rw [setVector_two F nm a ks rfl rfl rfl rfl]
    exact ⟨rfl, (vectorTuple_two F [] ks hk _ _).trans (by simp [mapRes, pyFloat_intStr])⟩

/-- C119. Pairs of anything but numbers, tuples of other lengths, texts and single numbers are refused with `TypeError`,
and the vector stays as it was. -/
theorem c119_vector_refused (F : Fl) (n : Node) :
    (∀ x y : PV, (∀ q, x ≠ .float q) → (∀ i, x ≠ .int i) → (∀ b, x ≠ .bool b) →
      setValue F .vector (.tuple [x, y]) n = (n, .error .type) ∧ setValue F .vector (.tuple [y, x]) n = (n, .error .type)) ∧
    (∀ l : List PV, l.length ≠ 0 → l.length ≠ 2 → setValue F .vector (.tuple l) n = (n, .error .type)) ∧
    (∀ s, setValue F .vector (.str s) n = (n, .error .type)) ∧
    (∀ q, setValue F .vector (.float q) n = (n, .error .type)) ∧
    (∀ i, setValue F .vector (.int i) n = (n, .error .type)) ∧
    (∀ b, setValue F .vector (.bool b) n = (n, .error .type)) ∧
    setValue F .vector .other n = (n, .error .type) := by
  refine ⟨fun x y h1 h2 h3 => ?_, fun l h0 h2 => ?_, fun _ => rfl, fun _ => rfl, fun _ => rfl, fun _ => rfl, rfl⟩
  · have : x.isNumber = false := by
      cases x <;> first | rfl | exact absurd rfl (h1 _) | exact absurd rfl (h2 _) | exact absurd rfl (h3 _)
    simp [setValue, setVector, vectorArg, this]
  · match l, h0, h2 with
    | [a], _, _ => rfl
    | a :: b :: c :: l, _, _ => rfl

/-- C119, violated: a vector takes `True` and `False` for numbers, but then can't be read. -/
theorem c119_vector_bool_fails (F : Fl) (n : Node) (hn : n.isTag = true)
    (hk : ∀ k ∈ n.kids, k.isTag = true → k.name = "x" ∨ k.name = "y") (b c : Bool) :
    (setValue F .vector (.tuple [.bool b, .bool c]) n).2 = .ok () ∧
    vectorTuple F (setValue F .vector (.tuple [.bool b, .bool c]) n).1 = .error .value := by
  cases n with
  | text t => simp [Node.isTag] at hn
  | tag nm a ks =>
    rw [setVector_two F nm a ks rfl rfl rfl rfl]
    refine ⟨rfl, (vectorTuple_two F [] ks hk _ _).trans ?_⟩
    have h : pyFloat F (if b then "True".toList else "False".toList) = .error .value := by
      cases b <;> rfl
    simp only [mapRes, h]

/-- The hypotheses are met by a vector which holds coordinates already. -/
example :
    let n : Node := .tag "vector" [] [.text ['\n'], coordTag "y" 2, coordTag "x" 1]
    vectorTuple double (setValue double .vector (.tuple [.int 3, .int (-4)]) n).1 = .ok [3, -4] ∧
    vectorTuple double (setValue double .vector (.tuple [.bool true, .bool false]) n).1 = .error .value := by
  decide +kernel

/-- C119 on concrete cases: `-2.5` as a whole number, `" 1_0.5e1 "` as a real one. -/
example : getInt (setValue double .integer (.float (-5/2)) (.new "integer")).1 = .ok (-2) ∧
    pyFloat double " 1_0.5e1 ".toList = .ok 105 ∧ pyFloat double "1..5".toList = .error .value ∧
    pyInt "2.5".toList = .error .value ∧
    getBool (setValue double .bool (.float (-1/2)) (.new "bool")).1 = .ok true := by
  decide +kernel

end Sang
