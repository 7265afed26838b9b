import Verif.Spec.NonFinite
import Verif.Props.TimeText
import Verif.Lemmas.Repr

/-!
# C166. Numbers that aren't finite
-/

namespace Sang

open Spec

/-! ## The same as before, where all is finite -/

theorem lim_unlimited {G : XFl} (h : Unlimited G) (q : ℚ) : G.lim q = .fin q := by simp [XFl.lim, h q]

theorem of_unlimited {G : XFl} (h : Unlimited G) (q : ℚ) : G.of q = .fin (G.rnd q) := lim_unlimited h _

theorem floatX (G : XFl) (s : Str) (h : pyFloat G.toFl s ≠ .error .unmodelled) :
    G.float s = (pyFloat G.toFl s).map G.lim := by
  unfold pyFloat at h ⊢
  unfold XFl.float
  simp only at h ⊢
  split
  · rename_i h1; simp [h1] at h
  split
  · rename_i h1 h2; simp [h1, h2] at h
  cases dropUnderscores none (strip s) with
  | none => rfl
  | some s' =>
    cases hn : parseNumeral s' <;> simp [hn, Except.map, XFl.of]

/-- The parts of a time, all of them finite. -/
def partsX (l : Parts) : List (Char × X) := l.map fun p => (p.1, .fin p.2)

theorem partsX_lookup (l : Parts) (u : Char) : (partsX l).lookup u = (l.lookup u).map .fin := by
  induction l with
  | nil => rfl
  | cons p l ih =>
    obtain ⟨v, q⟩ := p
    simp only [partsX, List.map_cons, List.lookup]
    cases h : u == v
    · exact ih
    · rfl

theorem collectX {G : XFl} (hG : Unlimited G) : ∀ (l : List Str) (parts : Parts),
    collectParts G.toFl parts l ≠ .error .unmodelled →
    G.collect (partsX parts) l = (collectParts G.toFl parts l).map partsX
  | [], parts, _ => rfl
  | s :: l, parts, h => by
    have key : addPart G.toFl parts s ≠ .error .unmodelled → G.addPart (partsX parts) s =
        (addPart G.toFl parts s).map partsX := by
      unfold addPart XFl.addPart
      intro h
      split
      · rfl
      · rename_i hs
        simp only [if_neg hs] at h
        cases hl : s.getLast? with
        | none => rfl
        | some u =>
          simp only [hl] at h
          simp only [partsX_lookup]
          cases hu : parts.lookup u with
          | some _ => rfl
          | none =>
            simp only [hu] at h
            have hp : pyFloat G.toFl s.dropLast ≠ .error .unmodelled := by
              intro e
              rw [e] at h
              exact h rfl
            simp only [Option.map_none, floatX G _ hp]
            cases pyFloat G.toFl s.dropLast with
            | error e => rfl
            | ok q => simp [Except.map, lim_unlimited hG, partsX]
    simp only [collectParts] at h ⊢
    simp only [XFl.collect]
    cases ha : addPart G.toFl parts s with
    | error e =>
      rw [ha] at h
      rw [key (by rw [ha]; exact h), ha]
      rfl
    | ok parts' =>
      rw [ha] at h
      rw [key (by rw [ha]; exact fun h => by cases h), ha]
      exact collectX hG l parts' h

theorem addSecsX {G : XFl} (hG : Unlimited G) (parts : Parts) (o : Option ℚ) (u : Char) (k : ℚ) :
    G.addSecs (partsX parts) (o.map .fin) u k = (addSeconds G.toFl parts o u k).map .fin := by
  unfold XFl.addSecs addSeconds
  rw [partsX_lookup]
  cases parts.lookup u with
  | none => rfl
  | some x =>
    have : (o.map X.fin).getD (.fin 0) = .fin (o.getD 0) := by cases o <;> rfl
    simp [this, XFl.mul, XFl.add, of_unlimited hG]

theorem framesX {G : XFl} (hG : Unlimited G) (fps : Option ℚ) (parts : Parts) :
    G.frames (fps.map .fin) (partsX parts) = (framesOf G.toFl fps parts).map .fin := by
  have hs : G.secs (partsX parts) = (secondsOf G.toFl parts).map .fin := by
    unfold XFl.secs secondsOf
    rw [← addSecsX hG, ← addSecsX hG, ← addSecsX hG]
    rfl
  have hs0 : ((secondsOf G.toFl parts).map X.fin).getD (.fin 0) = .fin ((secondsOf G.toFl parts).getD 0) := by
    cases secondsOf G.toFl parts <;> rfl
  unfold XFl.frames framesOf
  simp only [hs, hs0, partsX_lookup]
  generalize (secondsOf G.toFl parts).getD 0 = s
  by_cases h : s = 0
  · subst h
    simp only [ne_eq, not_true_eq_false, if_false, false_and]
    cases parts.lookup 'f' with
    | none => rfl
    | some f => simp [X.lt, XFl.add, of_unlimited hG, Except.map]
  · have h' : X.fin s ≠ .fin 0 := by simpa using h
    simp only [ne_eq, h, h', not_false_eq_true, if_true, true_and]
    cases fps with
    | none => rfl
    | some r =>
      simp only [Option.map_some]
      cases parts.lookup 'f' with
      | none => simp [XFl.mul, XFl.add, of_unlimited hG, Except.map]
      | some f =>
        simp only [Option.map_some, X.lt, decide_eq_true_eq]
        split
        · rfl
        · split
          · simp [XFl.mul, XFl.add, XFl.sub, X.neg, of_unlimited hG, Except.map, sub_eq_add_neg]
          · simp [XFl.mul, XFl.add, of_unlimited hG, Except.map]

theorem parseSpecX {G : XFl} (hG : Unlimited G) (fps : Option ℚ) (s : Str)
    (h : parseSpec G.toFl fps s ≠ .error .unmodelled) :
    G.parseSpec (fps.map .fin) s = (parseSpec G.toFl fps s).map .fin := by
  unfold parseSpec at h ⊢
  unfold XFl.parseSpec
  have hc : collectParts G.toFl [] (specSplit 0 [] (strip s)) ≠ .error .unmodelled := by
    intro e
    rw [e] at h
    exact h rfl
  have := collectX hG _ _ hc
  rw [show partsX [] = [] from rfl] at this
  rw [this]
  cases collectParts G.toFl [] (specSplit 0 [] (strip s)) with
  | error e => rfl
  | ok parts => exact framesX hG fps parts

theorem parseAttrX {G : XFl} (hG : Unlimited G) (fps : Option ℚ) (root : Attrs) (k : String)
    (h : parseAttr G.toFl fps root k ≠ .error .unmodelled) :
    G.parseAttr (fps.map .fin) root k = (parseAttr G.toFl fps root k).map .fin := by
  unfold parseAttr at h ⊢
  unfold XFl.parseAttr
  cases hg : root.get k with
  | none => rfl
  | some a =>
    rw [hg] at h
    cases a with
    | str s => exact parseSpecX hG fps s h
    | t v => rfl
    | num q => rfl
    | int i => rfl

theorem readFpsX {G : XFl} (hG : Unlimited G) (root : Option Attrs) (h : readFps G.toFl root ≠ .error .unmodelled) :
    G.readFps root = (readFps G.toFl root).map fun o => o.map .fin := by
  cases root with
  | none => rfl
  | some root =>
    unfold readFps at h ⊢
    unfold XFl.readFps
    simp only at h ⊢
    cases hg : root.get "fps" with
    | none => rfl
    | some a =>
      rw [hg] at h
      have fin : ∀ x : ℚ, (if (X.fin x).le (.fin 0) then Except.error Err.value else Except.ok (some (X.fin x)) : Res _) =
          (if x ≤ 0 then Except.error Err.value else Except.ok (some x) : Res (Option ℚ)).map fun o => o.map .fin := by
        intro x
        have : (X.fin x).le (.fin 0) = decide (x ≤ 0) := by
          simp only [X.le, X.lt, X.eq]
          rw [← Bool.decide_or, decide_eq_decide, le_iff_lt_or_eq]
        rw [this]
        by_cases hx : x ≤ 0 <;> simp [hx, Except.map]
      cases a with
      | str s =>
        simp only [AttrV.toFloat] at h ⊢
        have hp : pyFloat G.toFl s ≠ .error .unmodelled := by
          intro e
          rw [e] at h
          exact h rfl
        rw [floatX G s hp]
        cases pyFloat G.toFl s with
        | error e => rfl
        | ok q =>
          simp only [Except.map, lim_unlimited hG]
          exact fin q
      | t v => simp only [AttrV.toFloat]; exact fin _
      | num q => simp only [AttrV.toFloat, of_unlimited hG]; exact fin _
      | int i => simp only [AttrV.toFloat, of_unlimited hG]; exact fin _

theorem framesOfNumberX {G : XFl} (hG : Unlimited G) (fps : Option ℚ) (root : Option Attrs) (x : ℚ)
    (h : framesOfNumber G.toFl fps root x ≠ .error .unmodelled) :
    G.framesOfNumber (fps.map .fin) root (.fin x) = (framesOfNumber G.toFl fps root x).map .fin := by
  unfold framesOfNumber at h ⊢
  unfold XFl.framesOfNumber
  by_cases hx : x < 0
  · simp only [X.lt, hx, decide_true, if_true] at h ⊢
    cases root with
    | none => rfl
    | some root =>
      simp only at h ⊢
      have h1 : parseAttr G.toFl fps root "end-time" ≠ .error .unmodelled := by
        intro e
        rw [e] at h
        exact h rfl
      rw [parseAttrX hG fps root _ h1]
      cases hs : parseAttr G.toFl fps root "end-time" with
      | error e => rfl
      | ok stop =>
        rw [hs] at h
        have h2 : parseAttr G.toFl fps root "begin-time" ≠ .error .unmodelled := by
          intro e
          rw [e] at h
          exact h rfl
        simp only [Except.map]
        rw [parseAttrX hG fps root _ h2]
        cases parseAttr G.toFl fps root "begin-time" with
        | error e => rfl
        | ok start => simp [Except.map, XFl.add, XFl.sub, X.neg, of_unlimited hG, sub_eq_add_neg]
  · simp only [X.lt, hx, decide_false, if_false, Bool.false_eq_true]
    rfl

/-- C166. With finite numbers, none of which gets too large, times are what they are in C01 to C06, C140 and C150: the same
are made, or the same exception raised; they have the same text, and they compare in the same way. -/
theorem c166_agrees {G : XFl} (hG : Unlimited G) (root : Option Attrs) (v : TArg) (s t : T) :
    (T.new G.toFl root v ≠ .error .unmodelled → TX.new G root (argX G v) = (T.new G.toFl root v).map timeX) ∧
    TX.str G (timeX t) = .ok (T.str G.toFl t) ∧
    TX.lt (timeX s) (timeX t) = T.lt s (.t t) ∧ TX.eq (timeX s) (timeX t) = T.eq s (.t t) ∧
    TX.gt (timeX s) (timeX t) = T.gt s (.t t) := by
  have hcmp : ∀ (opx : X → X → Bool) (op : ℚ → ℚ → Bool), (∀ a b, opx (.fin a) (.fin b) = op a b) →
      (timeX s).compare (timeX t) opx = s.compare (.t t) op := by
    intro opx op ho
    obtain ⟨a, r⟩ := s
    obtain ⟨b, r'⟩ := t
    unfold TX.compare T.compare
    cases r <;> cases r' <;> simp [timeX, ho, X.eq]
  have hlt : TX.lt (timeX s) (timeX t) = T.lt s (.t t) := hcmp _ _ fun _ _ => rfl
  have heq : TX.eq (timeX s) (timeX t) = T.eq s (.t t) := hcmp _ _ fun _ _ => rfl
  refine ⟨fun h => ?_, ?_, hlt, heq, ?_⟩
  · unfold T.new at h ⊢
    unfold TX.new
    have h1 : readFps G.toFl root ≠ .error .unmodelled := by
      intro e
      rw [e] at h
      exact h rfl
    rw [readFpsX hG root h1]
    cases hr : readFps G.toFl root with
    | error e => rfl
    | ok fps =>
      rw [hr] at h
      simp only [Except.map] at h ⊢
      cases v with
      | str s =>
        simp only [argX] at h ⊢
        have h2 : parseSpec G.toFl fps s ≠ .error .unmodelled := by
          intro e
          rw [e] at h
          exact h rfl
        rw [parseSpecX hG fps s h2]
        cases parseSpec G.toFl fps s <;> rfl
      | num q =>
        simp only [argX] at h ⊢
        have h2 : framesOfNumber G.toFl fps root (G.rnd q) ≠ .error .unmodelled := by
          intro e
          rw [e] at h
          exact h rfl
        rw [framesOfNumberX hG fps root _ h2]
        cases framesOfNumber G.toFl fps root (G.rnd q) <;> rfl
      | t v =>
        simp only [argX, timeX] at h ⊢
        have h2 : framesOfNumber G.toFl fps root v.frames ≠ .error .unmodelled := by
          intro e
          rw [e] at h
          exact h rfl
        rw [framesOfNumberX hG fps root _ h2]
        cases framesOfNumber G.toFl fps root v.frames <;> rfl
      | other => rfl
  · obtain ⟨q, r⟩ := t
    cases r with
    | none => rfl
    | some r =>
      have su : ∀ (st : ℚ × List Str) (u : Char) (k : ℚ), strUnitX (.fin st.1, st.2) u k =
          .ok (.fin (strUnit st u k).1, (strUnit st u k).2) := by
        intro st u k
        have : (X.fin k).le (.fin st.1) = decide (k ≤ st.1) := by
          simp only [X.le, X.lt, X.eq]
          rw [← Bool.decide_or, decide_eq_decide, le_iff_lt_or_eq]
        unfold strUnitX strUnit
        rw [this]
        by_cases hk : k ≤ st.1 <;> simp [hk]
      unfold TX.str T.str
      simp only [timeX, Option.map_some, XFl.div, of_unlimited hG, X.abs]
      rw [su (|G.rnd (q / r)|, []) 'h' 3600]
      simp only
      rw [su]
      simp only
      rw [su]
      simp [X.mod, X.text, X.lt]
  · unfold TX.gt T.gt
    rw [hlt, heq]
    rcases s.lt (.t t) with e | (_ | _)
    · rfl
    · cases s.eq (.t t) <;> rfl
    · rfl

/-! ## Which texts are times -/

theorem floatX_errors {G : XFl} {s : Str} {e : Err} (hs : Ascii s) (h : G.float s = .error e) : e = .value := by
  unfold XFl.float at h
  simp only at h
  split at h
  next ha =>
    obtain ⟨c, hc, h1⟩ := List.any_eq_true.1 ha
    have : c ∈ s := by
      unfold strip at hc
      rw [List.mem_reverse] at hc
      have := (List.dropWhile_sublist _).subset hc
      rw [List.mem_reverse] at this
      exact (List.dropWhile_sublist _).subset this
    have := hs c this
    simp only [decide_eq_true_eq] at h1
    omega
  · split at h
    · cases h
    · split at h
      · cases h; rfl
      · split at h
        · cases h; rfl
        · cases h

theorem specSplit_mem : ∀ (k : ℕ) (acc s : Str), ∀ p ∈ specSplit k acc s, ∀ c ∈ p, c ∈ acc ∨ c ∈ s := by
  intro k acc s
  induction k, acc, s using specSplit.induct with
  | case1 k acc =>
    intro p hp c hc
    rw [specSplit] at hp
    simp only [List.mem_singleton] at hp
    subst hp
    exact .inl (by simpa using hc)
  | case2 acc c cs hm ih =>
    intro p hp d hd
    rw [specSplit, hm] at hp
    rcases ih p hp d hd with h | h
    · rcases List.mem_cons.1 h with rfl | h
      · exact .inr (by simp)
      · exact .inl h
    · exact .inr (by simp [h])
  | case3 acc c cs k hm ih =>
    intro p hp d hd
    rw [specSplit, hm] at hp
    rcases List.mem_cons.1 hp with rfl | hp
    · exact .inl (by simpa using hd)
    · rcases ih p hp d hd with h | h
      · exact .inr (by simp_all)
      · exact .inr (by simp [h])
  | case4 acc c cs ih =>
    intro p hp d hd
    rw [specSplit] at hp
    rcases List.mem_cons.1 hp with rfl | hp
    · rw [List.mem_reverse] at hd
      rcases List.mem_cons.1 hd with rfl | h
      · exact .inr (by simp)
      · exact .inl h
    · rcases ih p hp d hd with h | h
      · simp at h
      · exact .inr (by simp [h])
  | case5 k acc c cs ih =>
    intro p hp d hd
    rw [specSplit] at hp
    rcases ih p hp d hd with h | h
    · rcases List.mem_cons.1 h with rfl | h
      · exact .inr (by simp)
      · exact .inl h
    · exact .inr (by simp [h])

theorem strip_mem {s : Str} {c : Char} (h : c ∈ strip s) : c ∈ s := by
  unfold strip at h
  rw [List.mem_reverse] at h
  have := (List.dropWhile_sublist _).subset h
  rw [List.mem_reverse] at this
  exact (List.dropWhile_sublist _).subset this

theorem collectX_errors {G : XFl} {e : Err} : ∀ {l : List Str} {parts : List (Char × X)}, (∀ p ∈ l, Ascii p) →
    G.collect parts l = .error e → e = .value
  | [], _, _, h => by cases h
  | s :: l, parts, ha, h => by
    rw [XFl.collect] at h
    cases hp : G.addPart parts s with
    | ok parts' =>
      rw [hp] at h
      exact collectX_errors (fun p hp => ha p (by simp [hp])) h
    | error e' =>
      rw [hp] at h
      cases h
      unfold XFl.addPart at hp
      split at hp
      · cases hp
      · split at hp
        · cases hp
        · split at hp
          · cases hp; rfl
          · split at hp
            · rename_i hf
              cases hp
              exact floatX_errors (fun c hc => ha s (by simp) c (List.mem_of_mem_dropLast hc)) hf
            · cases hp

theorem framesX_errors {G : XFl} {fps : Option X} {parts : List (Char × X)} {e : Err} (h : G.frames fps parts = .error e) :
    e = .value := by
  unfold XFl.frames at h
  simp only at h
  split at h
  · rename_i e' hb
    cases h
    split at hb
    · split at hb
      · cases hb; rfl
      · cases hb
    · cases hb
  · split at h
    · cases h
    · split at h
      · cases h; rfl
      · split at h <;> cases h

/-- C166. Reading text as a time either succeeds or raises `ValueError`, whatever ordinary characters there are in it. (C140
leaves out words such as `nan`.) -/
theorem c166_only_value_error {G : XFl} {root : Option Attrs} {fps : Option X} (hr : G.readFps root = .ok fps) {s : Str}
    (hs : Ascii s) {e : Err} (h : TX.new G root (.str s) = .error e) : e = .value := by
  unfold TX.new at h
  simp only [hr] at h
  split at h
  · rename_i e' he
    cases h
    unfold XFl.parseSpec at he
    split at he
    · rename_i hc
      cases he
      refine collectX_errors (fun p hp c hc => ?_) hc
      rcases specSplit_mem _ _ _ p hp c hc with h | h
      · simp at h
      · exact hs c (strip_mem h)
    · exact framesX_errors he
  · cases h

/-! ## The text of a time -/

theorem strUnitX_fin (q : ℚ) (l : List Str) (u : Char) (k : ℚ) : ∃ q' l', strUnitX (.fin q, l) u k = .ok (.fin q', l') := by
  unfold strUnitX
  split
  · exact ⟨_, _, rfl⟩
  · exact ⟨_, _, rfl⟩

/-- C166. Exactly which times have no text: those that are infinitely many seconds after the start or before it, at a rate
that is known. They raise `ValueError`. -/
theorem c166_no_text_iff (G : XFl) (t : TX) (e : Err) :
    TX.str G t = .error e ↔ e = .value ∧ ∃ r s, t.fps = some r ∧ G.div t.frames r = .inf s := by
  obtain ⟨x, fps⟩ := t
  cases fps with
  | none => simp [TX.str]
  | some r =>
    have hinf : ∀ s, G.div x r = .inf s → TX.str G ⟨x, some r⟩ = .error .value := by
      intro s h
      unfold TX.str
      simp only [h, X.abs]
      rfl
    constructor
    · intro h
      cases hd : G.div x r with
      | inf s =>
        rw [hinf s hd] at h
        cases h
        exact ⟨rfl, r, s, rfl, hd⟩
      | fin q =>
        exfalso
        unfold TX.str at h
        simp only [hd, X.abs] at h
        obtain ⟨q1, l1, h1⟩ := strUnitX_fin |q| [] 'h' 3600
        obtain ⟨q2, l2, h2⟩ := strUnitX_fin q1 l1 'm' 60
        obtain ⟨q3, l3, h3⟩ := strUnitX_fin q2 l2 's' 1
        simp only [h1, h2, h3] at h
        cases h
      | nan =>
        exfalso
        unfold TX.str at h
        simp only [hd, X.abs] at h
        cases h
    · rintro ⟨rfl, r', s, hr, hd⟩
      cases hr
      exact hinf s hd

/-- So it is for infinitely many frames, at any finite rate. -/
theorem c166_infinite_no_text (G : XFl) (s : Bool) (r : ℚ) : TX.str G ⟨.inf s, some (.fin r)⟩ = .error .value :=
  (c166_no_text_iff G _ _).2 ⟨rfl, _, _, rfl, rfl⟩

theorem wordX (G : XFl) (x : X) (hx : ∀ q, x ≠ .fin q) (fmt : ℚ → Str) : G.float (x.text fmt) = .ok x := by
  cases x with
  | fin q => exact absurd rfl (hx q)
  | inf s => cases s <;> rfl
  | nan => rfl

theorem specX (G : XFl) (fps : Option X) (x : X) (hx : ∀ q, x ≠ .fin q) (fmt : ℚ → Str) :
    G.parseSpec fps (x.text fmt ++ ['f']) = .ok x := by
  cases x with
  | fin q => exact absurd rfl (hx q)
  | inf s => cases s <;> rfl
  | nan => rfl

/-- C166. Otherwise a time which isn't finite is read back from its text: at no known rate any; and at a known one the one
that isn't a number. -/
theorem c166_read_back (G : XFl) {root : Option Attrs} {fps : Option X} (hr : G.readFps root = .ok fps) :
    (∀ s, fps = none → ∃ w, TX.str G ⟨.inf s, none⟩ = .ok w ∧ TX.new G root (.str w) = .ok ⟨.inf s, fps⟩) ∧
    ∃ w, TX.str G ⟨.nan, fps⟩ = .ok w ∧ TX.new G root (.str w) = .ok ⟨.nan, fps⟩ := by
  have key : ∀ x : X, (∀ q, x ≠ .fin q) → TX.new G root (.str (x.text fmtG ++ ['f'])) = .ok ⟨x, fps⟩ := by
    intro x hx
    unfold TX.new
    simp only [hr, specX G fps x hx fmtG]
  refine ⟨fun s _ => ⟨_, rfl, key _ (fun q h => by cases h)⟩, ?_⟩
  refine ⟨X.nan.text fmtG ++ ['f'], ?_, key _ (fun q h => by cases h)⟩
  cases fps with
  | none => rfl
  | some r => cases r <;> rfl

/-! ## Comparing -/

/-- C166. Times which are numbers, at the same rate, are in order: of `a < b`, `a == b` and `a > b` just one holds, `a > b` is
`b < a`, and `<` is transitive; whether they are finite or not. -/
theorem c166_order {a b c : TX} (h1 : b.fps = a.fps) (h2 : c.fps = a.fps) (hr : a.fps ≠ some .nan) (ha : a.frames ≠ .nan)
    (hb : b.frames ≠ .nan) (hc : c.frames ≠ .nan) :
    (a.lt b = .ok true ∧ a.eq b = .ok false ∧ a.gt b = .ok false ∨
      a.lt b = .ok false ∧ a.eq b = .ok true ∧ a.gt b = .ok false ∨
      a.lt b = .ok false ∧ a.eq b = .ok false ∧ a.gt b = .ok true) ∧
    a.gt b = b.lt a ∧ (a.lt b = .ok true → b.lt c = .ok true → a.lt c = .ok true) := by
  obtain ⟨x, r⟩ := a
  obtain ⟨y, r1⟩ := b
  obtain ⟨z, r2⟩ := c
  simp only at h1 h2 hr ha hb hc
  obtain rfl := h1.symm
  obtain rfl := h2.symm
  have hc' : ∀ u v op, TX.compare ⟨u, r⟩ ⟨v, r⟩ op = .ok (op u v) := by
    intro u v op
    unfold TX.compare
    cases r with
    | none => rfl
    | some w =>
      have : w.eq w = true := by
        cases w with
        | fin q => simp [X.eq]
        | inf s => simp [X.eq]
        | nan => exact absurd rfl hr
      simp [this]
  have hgt : ∀ u v, TX.gt ⟨u, r⟩ ⟨v, r⟩ = .ok (!u.lt v && !u.eq v) := by
    intro u v
    unfold TX.gt TX.lt TX.eq
    rw [hc', hc']
    cases u.lt v <;> rfl
  simp only [hgt, TX.lt, TX.eq, hc']
  refine ⟨?_, ?_, ?_⟩
  · rcases x with p | s | _ <;> rcases y with q | t | _ <;> try contradiction
    · rcases lt_trichotomy p q with h | h | h
      · simp [X.lt, X.eq, h, h.ne]
      · simp [X.lt, X.eq, h]
      · simp [X.lt, X.eq, h.not_gt, h.ne']
    · cases t <;> simp [X.lt, X.eq]
    · cases s <;> simp [X.lt, X.eq]
    · cases s <;> cases t <;> simp [X.lt, X.eq]
  · rcases x with p | s | _ <;> rcases y with q | t | _ <;> try contradiction
    · rcases lt_trichotomy p q with h | h | h
      · simp [X.lt, X.eq, h, h.not_gt]
      · simp [X.lt, X.eq, h]
      · simp [X.lt, X.eq, h, h.not_gt, h.ne']
    · cases t <;> simp [X.lt, X.eq]
    · cases s <;> simp [X.lt, X.eq]
    · cases s <;> cases t <;> simp [X.lt, X.eq]
  · rcases x with p | s | _ <;> rcases y with q | t | _ <;> rcases z with w | u | _ <;> try contradiction
    all_goals simp only [X.lt, Except.ok.injEq, decide_eq_true_eq, Bool.and_eq_true, Bool.not_eq_true']
    all_goals first
      | exact fun h1 h2 => h1.trans h2
      | simp_all

/-- C166, violated. A time that isn't a number isn't equal to itself, nor less than anything; and it is more than anything,
itself too, while anything is more than it. -/
theorem c166_fails_order (a b : TX) (ha : a.frames = .nan) (h1 : a.fps = none) :
    a.eq a = .ok false ∧ a.lt b = .ok false ∧ b.lt a = .ok false ∧ a.gt b = .ok true ∧ b.gt a = .ok true := by
  obtain ⟨x, r⟩ := a
  obtain ⟨y, r1⟩ := b
  simp only at ha h1
  subst ha h1
  cases r1 <;> cases y <;> exact ⟨rfl, rfl, rfl, rfl, rfl⟩

/-! ## Frame rates -/

/-- C166, violated. A rate is positive or isn't a number; and every time in seconds is then not a number either. -/
theorem c166_rate (G : XFl) (root : Attrs) (s : Str) (x : X) (h : root.get "fps" = some (.str s)) (hx : G.float s = .ok x) :
    G.readFps (some root) = (if x = .nan ∨ X.lt (.fin 0) x = true then .ok (some x) else .error .value) := by
  unfold XFl.readFps
  simp only [h, hx]
  rcases x with q | b | _
  · have : (X.fin q).le (.fin 0) = decide (q ≤ 0) := by
      simp only [X.le, X.lt, X.eq]
      rw [← Bool.decide_or, decide_eq_decide, le_iff_lt_or_eq]
    rw [this]
    by_cases hq : q ≤ 0
    · have : ¬ (0 < q) := not_lt.2 hq
      simp [hq, X.lt, this]
    · have : 0 < q := not_le.1 hq
      simp [hq, X.lt, this]
  · cases b <;> rfl
  · rfl

/-! ## Values that hold one float -/

/-- C166. Reals and angles which aren't finite are read back as they are. -/
theorem c166_values (G : XFl) (c : VCls) (x : X) (hx : ∀ q, x ≠ .fin q) (n : Node) (hn : n.isTag = true) :
    getFloatX G (setFloatX G c x n) = .ok x := by
  cases n with
  | text s => cases hn
  | tag nm as ks =>
    have : ∀ fmt nm', getFloatX G (((((Node.tag nm as ks).setName nm').setAttrs [("value", .str (x.text fmt))])).setKids []) =
        .ok x := fun fmt nm' => wordX G x hx fmt
    cases c <;> exact this _ _

/-- C166. And finite ones are as before: what is written is the same, and what is read is the same, where nothing is too
large. -/
theorem c166_values_agree {G : XFl} (hG : Unlimited G) (c : VCls) (hc : c = .real ∨ c = .angle) (q : ℚ) (n : Node) :
    (setFloatX G c (.fin q) n, Except.ok ()) = setValue G.toFl c (.float q) n ∧
    (getFloat G.toFl n ≠ .error .unmodelled → getFloatX G n = (getFloat G.toFl n).map .fin) := by
  refine ⟨?_, fun h => ?_⟩
  · rcases hc with rfl | rfl <;> rfl
  · unfold getFloat at h ⊢
    unfold getFloatX
    cases hs : simpleText n with
    | error e => rfl
    | ok s =>
      simp only [hs] at h ⊢
      rw [floatX G s h]
      cases pyFloat G.toFl s <;> simp [Except.map, lim_unlimited hG]

/-- C166. Which real numbers and angles equal themselves: finite ones; angles also if they are infinite, but real numbers
not, since they are compared by their difference. -/
theorem c166_equal_itself {G : XFl} (hG : G.toFl.Lawful) (h0 : G.big 0 = false) (x : X) :
    (sameFloatX G .real x x = true ↔ ∃ q, x = .fin q) ∧ (sameFloatX G .angle x x = true ↔ x ≠ .nan) := by
  have hz : G.rnd 0 = 0 := hG.zero
  have hp : (0:ℚ) < nearAsDammit G.toFl := hG.pos (by norm_num)
  rcases x with q | s | _
  · simp [sameFloatX, XFl.sub, X.neg, XFl.add, XFl.of, XFl.lim, hz, h0, X.abs, X.le, X.lt, hp, X.eq]
  · cases s <;> simp [sameFloatX, XFl.sub, X.neg, XFl.add, X.abs, X.le, X.lt, X.eq]
  · simp [sameFloatX, XFl.sub, XFl.add, X.abs, X.le, X.lt, X.eq]

/-! ## Numbers that are too large -/

/-- C166. So many frames that floating point has no such number (2^1024 or more) are infinitely many: text that says so is
accepted, but the time has no text itself, at any rate. -/
theorem c166_too_large {G : XFl} (hG : G.toFl.Lawful) (hbig : ∀ q, G.big q = decide (2 ^ 1024 ≤ |q|)) {root : Option Attrs}
    {r : ℚ} (hr : G.readFps root = .ok (some (.fin r))) (n : ℕ) (hn : 2 ^ 1024 ≤ n) :
    TX.new G root (.str (natStr n ++ ['f'])) = .ok ⟨.inf false, some (.fin r)⟩ ∧
    TX.str G ⟨.inf false, some (.fin r)⟩ = .error .value := by
  refine ⟨?_, c166_infinite_no_text G _ _⟩
  have hd := natStr_digits n
  have hlim : G.float (natStr n) = .ok (.inf false) := by
    have h1 : pyFloat G.toFl (natStr n) = .ok (G.rnd n) := pyFloat_natStr _ n
    rw [floatX G _ (by rw [h1]; exact fun h => by cases h), h1]
    have hrep : G.rnd (2 ^ 1024 : ℚ) = 2 ^ 1024 := by
      have := hG.exact 1 1024 (by norm_num)
      simpa using this
    have h2 : (2 ^ 1024 : ℚ) ≤ G.rnd n := by
      rw [← hrep]
      exact hG.mono (by exact_mod_cast hn)
    have h3 : (0:ℚ) < G.rnd n := lt_of_lt_of_le (by positivity) h2
    simp only [Except.map, XFl.lim, hbig, abs_of_pos h3, h2, decide_true, if_true, h3.not_gt, decide_false]
  have hval : (⟨[], ⟨false, natStr n, []⟩, .f⟩ : Part).amt.Valid := ⟨natStr_ne_nil n, hd, by simp⟩
  have hsplit := specSplit_part (p := ⟨[], ⟨false, natStr n, []⟩, .f⟩) hval [] []
  have htext : ptext ⟨[], ⟨false, natStr n, []⟩, .f⟩ = natStr n ++ ['f'] := by
    simp [ptext, Amount.text, TimeUnit.char]
  rw [htext, List.append_nil] at hsplit
  have hstrip : strip (natStr n ++ ['f']) = natStr n ++ ['f'] := by
    refine strip_noSpace fun c hc => ?_
    rcases List.mem_append.1 hc with hc | hc
    · exact numCh_not_space (numCh_of_isDig (hd c hc))
    · rw [List.mem_singleton] at hc; subst hc; rfl
  have hcoll : G.collect [] ([].reverse :: (natStr n ++ ['f']) :: specSplit 0 [] []) = .ok [('f', .inf false)] := by
    have h1 : ∀ ps, G.addPart ps [] = .ok ps := fun ps => rfl
    have h2 : G.addPart [] (natStr n ++ ['f']) = .ok [('f', .inf false)] := by
      unfold XFl.addPart
      rw [hstrip, if_neg (by simp)]
      simp [hlim]
    simp only [List.reverse_nil, XFl.collect, h1, h2, specSplit]
  unfold TX.new
  simp only [hr, XFl.parseSpec, hstrip, hsplit, hcoll]
  rfl

/-- C166. In binary64 the text of any whole number from 2^1024 on is read as an infinity, and of any up to -2^1024 as the
negative one. -/
theorem c166_reads_infinity (n : ℕ) (hn : 2 ^ 1024 ≤ n) :
    double64.float (natStr n) = .ok (.inf false) ∧ double64.float ('-' :: natStr n) = .ok (.inf true) := by
  have hrep : double.rnd (2 ^ 1024 : ℚ) = 2 ^ 1024 := by
    have := double_lawful.exact 1 1024 (by norm_num)
    simpa using this
  have hrep' : double.rnd (-(2 ^ 1024) : ℚ) = -(2 ^ 1024) := by
    have := double_lawful.exact (-1) 1024 (by norm_num)
    simpa using this
  have hq : (2 ^ 1024 : ℚ) ≤ n := by exact_mod_cast hn
  have h2 : (2 ^ 1024 : ℚ) ≤ double.rnd n := by rw [← hrep]; exact double_lawful.mono hq
  have h2' : double.rnd (-n) ≤ (-(2 ^ 1024) : ℚ) := by rw [← hrep']; exact double_lawful.mono (neg_le_neg hq)
  have h3 : (0:ℚ) < double.rnd n := lt_of_lt_of_le (by positivity) h2
  have h3' : double.rnd (-n) < (0:ℚ) := lt_of_le_of_lt h2' (neg_lt_zero.2 (by positivity))
  have hbig : ∀ q, double64.big q = decide (2 ^ 1024 ≤ |q|) := fun _ => rfl
  have e1 : pyFloat double64.toFl (natStr n) = .ok (double.rnd n) := pyFloat_natStr _ n
  have e2 : pyFloat double64.toFl ('-' :: natStr n) = .ok (double.rnd (-n)) := pyFloat_neg_natStr _ n
  constructor
  · rw [floatX _ _ (by rw [e1]; exact fun h => by cases h), e1]
    simp only [Except.map, XFl.lim, hbig, abs_of_pos h3, h2, decide_true, if_true, h3.not_gt, decide_false]
  · rw [floatX _ _ (by rw [e2]; exact fun h => by cases h), e2]
    simp only [Except.map, XFl.lim, hbig, abs_of_neg h3', le_neg.2 h2', decide_true, if_true, h3']

/-- C166. Hours and minutes without end in opposite directions come to no number, at any rate. -/
theorem c166_opposed {G : XFl} (hG : G.toFl.Lawful) {root : Option Attrs} {r : ℚ}
    (hr : G.readFps root = .ok (some (.fin r))) :
    TX.new G root (.str "infh1f-infm".toList) = .ok ⟨.nan, some (.fin r)⟩ := by
  have h1 : specSplit 0 [] (strip "infh1f-infm".toList) = ["infh".toList, "1f".toList, "-infm".toList] := by decide +kernel
  have hone : G.float "1".toList = .ok (G.of 1) := by
    have hp : pyFloat G.toFl "1".toList = .ok (G.rnd 1) := by
      have hn : natStr 1 = "1".toList := by decide +kernel
      rw [← hn]; simpa using pyFloat_natStr G.toFl 1
    rw [floatX _ _ (by rw [hp]; exact fun h => by cases h), hp]; rfl
  have hi : G.float "inf".toList = .ok (.inf false) := by rfl
  have hi' : G.float "-inf".toList = .ok (.inf true) := by rfl
  have a1 : G.addPart [] "infh".toList = .ok [('h', .inf false)] := by
    have hd : "infh".toList.dropLast = "inf".toList := by decide +kernel
    simp only [XFl.addPart, hd, hi]; rfl
  have a2 : G.addPart [('h', .inf false)] "1f".toList = .ok [('h', .inf false), ('f', G.of 1)] := by
    have hd : "1f".toList.dropLast = "1".toList := by decide +kernel
    simp only [XFl.addPart, hd, hone]; rfl
  have a3 : G.addPart [('h', .inf false), ('f', G.of 1)] "-infm".toList =
      .ok [('h', .inf false), ('f', G.of 1), ('m', .inf true)] := by
    have hd : "-infm".toList.dropLast = "-inf".toList := by decide +kernel
    simp only [XFl.addPart, hd, hi']; rfl
  have hs : G.secs [('h', .inf false), ('f', G.of 1), ('m', .inf true)] = some .nan := by
    simp [XFl.secs, XFl.addSecs, List.lookup, XFl.mul, XFl.add]; norm_num
  have hpos : X.lt (G.of 1) (.fin 0) = false := by
    have h0 : (0:ℚ) < G.rnd 1 := hG.pos (by norm_num)
    unfold XFl.of XFl.lim
    split <;> simp [X.lt, h0.le]
  unfold TX.new
  simp only [hr, XFl.parseSpec, h1, XFl.collect, a1, a2, a3, XFl.frames, hs, Option.getD_some]
  have hl : X.lt .nan (.fin 0) = false := rfl
  simp [List.lookup, hpos, hl, XFl.mul, XFl.add]

/-! ## Cases -/

/-- The root of an animation at a rate. -/
def exRate (fps : String) : Attrs :=
  [("fps", .str fps.toList), ("begin-time", .str "0f".toList), ("end-time", .str "5s".toList)]

/-- Infinities and NaN are accepted in texts, and as numbers; at a rate which isn't a number, every second is as long. -/
theorem c166_cases :
    TX.new double64 (some (exRate "24")) (.str "inff".toList) = .ok ⟨.inf false, some (.fin 24)⟩ ∧
    TX.new double64 (some (exRate "24")) (.str "-Infinitys".toList) = .ok ⟨.inf true, some (.fin 24)⟩ ∧
    TX.new double64 (some (exRate "24")) (.str "3f nanm".toList) = .ok ⟨.nan, some (.fin 24)⟩ ∧
    TX.new double64 (some (exRate "24")) (.num (.inf true)) = .ok ⟨.inf true, some (.fin 24)⟩ ∧
    TX.new double64 (some (exRate "nan")) (.str "1s".toList) = .ok ⟨.nan, some .nan⟩ ∧
    TX.new double64 (some (exRate "nan")) (.str "1f".toList) = .ok ⟨.fin 1, some .nan⟩ ∧
    TX.eq ⟨.fin 1, some .nan⟩ ⟨.fin 1, some .nan⟩ = .error .value ∧
    TX.str double64 ⟨.fin 1, some .nan⟩ = .ok "nanf".toList ∧
    TX.new double64 (some (exRate "-inf")) (.str "1f".toList) = .error .value ∧
    TX.str double64 ⟨.fin 100, some (.fin 24)⟩ = .ok "4s 4f".toList := by
  decide +kernel

/-- Binary64 is as `c166_too_large` and `c166_equal_itself` have it; and without its limit, as `c166_agrees` has it. -/
example : double64.toFl.Lawful ∧ (∀ q, double64.big q = decide (2 ^ 1024 ≤ |q|)) ∧ double64.big 0 = false ∧
    double64.readFps (some (exRate "24")) = .ok (some (.fin 24)) ∧ Unlimited ⟨double, fun _ => false⟩ ∧
    T.new double (some (exRate "24")) (.str "1s 3f".toList) ≠ .error .unmodelled :=
  ⟨double_lawful, fun _ => rfl, by decide +kernel, by decide +kernel, fun _ => rfl, by decide +kernel⟩

end Sang
