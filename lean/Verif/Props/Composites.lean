import Verif.Props.Vectors
import Verif.Props.Colors
import Verif.Lemmas.Six

/-! # Transformations and gradients: properties C28, C30, C75 -/

namespace Sang

/-! ## C28: transformations -/

/-- C28, first half: a key which isn't one of the four means `KeyError`, and nothing changes. -/
theorem c28_unknown_key_refused (F : Fl) (l : List (String × PV)) (n : Node)
    (h : ∃ p ∈ l, p.1 ∉ ["offset", "angle", "skew_angle", "scale"]) :
    setValue F .composite (.dict l) n = (n, .error .key) := by
  obtain ⟨p, hp, hk⟩ := h
  have : l.all (fun p => (requiredKeys.lookup p.1).isSome) = false := by
    rw [List.all_eq_false]
    refine ⟨p, hp, ?_⟩
    simp only [List.mem_cons, List.not_mem_nil, or_false, not_or] at hk
    obtain ⟨h1, h2, h3, h4⟩ := hk
    have e : ∀ {a b : String}, a ≠ b → (a == b) = false := fun h => by simpa using h
    simp [requiredKeys, List.lookup, e h1, e h2, e h3, e h4]
  simp only [setValue, setComposite, compositeArg, this, Bool.false_eq_true, if_false]

/-- C28's first half applies to a dict with a misspelt key. -/
example : ∃ p ∈ [("angle", PV.float 1), ("skewangle", PV.float 2)],
    p.1 ∉ ["offset", "angle", "skew_angle", "scale"] :=
  ⟨("skewangle", .float 2), by simp, by decide⟩

/-- The four values of a transformation. -/
structure TransParts where
  offset : ℚ × ℚ
  angle : ℚ
  skewAngle : ℚ
  scale : ℚ × ℚ

/-- As a Python dict: `{'offset': (x, y), 'angle': a, …}`. -/
def TransParts.dict (p : TransParts) : List (String × PV) :=
  [("offset", .tuple [.float p.offset.1, .float p.offset.2]), ("angle", .float p.angle),
   ("skew_angle", .float p.skewAngle), ("scale", .tuple [.float p.scale.1, .float p.scale.2])]

/-- The element made for a value in a dict. -/
def partNode (F : Fl) (p : String × PV) : Node :=
  match constructPart F ((requiredKeys.lookup p.1).getD .angle) p.2 with
  | .ok t => t
  | .error _ => .text []

theorem appendParts_ok (F : Fl) (l : List (String × PV)) (nm : String) (a : Attrs) (ks : List Node)
    (h : ∀ p ∈ l, ∃ c, requiredKeys.lookup p.1 = some c ∧ constructPart F c p.2 = .ok (partNode F p)) :
    appendParts F l (.tag nm a ks) =
      (.tag nm a (ks ++ l.map fun p => .tag p.1 [] [partNode F p, .text ['\n']]), .ok ()) := by
  induction l generalizing ks with
  | nil => simp [appendParts]
  | cons p l ih =>
    obtain ⟨k, v⟩ := p
    obtain ⟨c, h1, h2⟩ := h (k, v) (by simp)
    simp only at h1 h2
    simp only [appendParts, h1, h2, Node.append]
    rw [ih _ (fun q hq => h q (by simp [hq]))]
    simp

/-- An element for an angle. -/
def angleNode (F : Fl) (q : ℚ) : Node := .tag "angle" [("value", .str (reprF F q))] []

/-- An element for a vector. -/
def vecNode (x y : ℚ) : Node := .tag "vector" [] [coordTag "x" x, coordTag "y" y]

theorem construct_angle (F : Fl) (q : ℚ) :
    constructPart F .angle (.float q) = .ok (angleNode F q) := rfl

theorem construct_vector (F : Fl) (x y : ℚ) :
    constructPart F .vector (.tuple [.float x, .float y]) = .ok (vecNode x y) := rfl

theorem fromTag_simple {n : Node} {c : VCls} (h : n.name ≠ "animated")
    (hr : valueRegistry.fromName n.name.toList = .ok c) (hv : c ≠ .vector) (hc : c ≠ .composite) :
    fromTag n = .ok c := by
  simp only [fromTag, if_neg h, hr]

theorem fromTag_vector {n : Node} (h : n.name = "vector") (hv : isXY (kidNames n) = true) :
    fromTag n = .ok .vector := by
  have h1 : n.name ≠ "animated" := by rw [h]; decide
  have hr : valueRegistry.fromName n.name.toList = .ok .vector := by rw [h]; decide
  simp only [fromTag, if_neg h1, hr, vectorCheck, hv, if_true]

theorem fromTag_angle (F : Fl) (q : ℚ) : fromTag (angleNode F q) = .ok .angle :=
  fromTag_simple (show "angle" ≠ "animated" by decide)
    (show valueRegistry.fromName "angle".toList = .ok .angle by decide) (by decide) (by decide)

theorem fromTag_vec (x y : ℚ) : fromTag (vecNode x y) = .ok .vector :=
  fromTag_vector rfl (by
    have : kidNames (vecNode x y) = ["x", "y"] := rfl
    rw [this]; decide)

theorem dict_parts (F : Fl) (p : TransParts) :
    ∀ q ∈ p.dict, ∃ c, requiredKeys.lookup q.1 = some c ∧
      constructPart F c q.2 = .ok (partNode F q) := by
  intro q hq
  simp only [TransParts.dict, List.mem_cons, List.not_mem_nil, or_false] at hq
  rcases hq with rfl | rfl | rfl | rfl
  · exact ⟨.vector, rfl, rfl⟩
  · exact ⟨.angle, rfl, rfl⟩
  · exact ⟨.angle, rfl, rfl⟩
  · exact ⟨.vector, rfl, rfl⟩

theorem setComposite_ok (F : Fl) (p : TransParts) {l : List (String × PV)} (hl : l.Perm p.dict)
    (nm : String) (a : Attrs) (ks : List Node) :
    setValue F .composite (.dict l) (.tag nm a ks) =
      (.tag nm a (l.map fun q => .tag q.1 [] [partNode F q, .text ['\n']]), .ok ()) := by
  have hd : ∀ q ∈ l, ∃ c, requiredKeys.lookup q.1 = some c ∧
      constructPart F c q.2 = .ok (partNode F q) := fun q hq => dict_parts F p q (hl.mem_iff.1 hq)
  have : l.all (fun q => (requiredKeys.lookup q.1).isSome) = true := by
    rw [List.all_eq_true]
    intro q hq
    obtain ⟨c, h1, -⟩ := hd q hq
    simp [h1]
  simp only [setValue, setComposite, compositeArg, this, if_true, Node.setKids]
  rw [appendParts_ok F l nm a [] hd, List.nil_append]

theorem compositeGet_ok (F : Fl) {l : List (String × PV)} {p : TransParts} (hl : l.Perm p.dict)
    (nm : String) (a : Attrs) (q : String × PV) (hq : q ∈ p.dict) (c : VCls)
    (hc : fromTag (partNode F q) = .ok c) (ht : (partNode F q).isTag = true) :
    compositeGet (.tag nm a (l.map fun q => .tag q.1 [] [partNode F q, .text ['\n']])) q.1 =
      .ok (c, partNode F q) := by
  have h1 : ((l.map fun q => Node.tag q.1 [] [partNode F q, .text ['\n']]).filter Node.isTag).filter
      (fun x => decide (x.name = q.1)) = (l.filter fun r => decide (r.1 = q.1)).map
        fun q => Node.tag q.1 [] [partNode F q, .text ['\n']] := by
    have h0 : (l.map fun q => Node.tag q.1 [] [partNode F q, .text ['\n']]).filter Node.isTag =
        l.map fun q => Node.tag q.1 [] [partNode F q, .text ['\n']] := by
      rw [List.filter_eq_self]
      intro x hx
      obtain ⟨y, -, rfl⟩ := List.mem_map.1 hx
      rfl
    rw [h0, List.filter_map]
    rfl
  have h2 : (l.filter fun r => decide (r.1 = q.1)) = [q] := by
    have := hl.filter (fun r => decide (r.1 = q.1))
    rw [← List.perm_singleton]
    refine this.trans ?_
    simp only [TransParts.dict, List.mem_cons, List.not_mem_nil, or_false] at hq
    rcases hq with rfl | rfl | rfl | rfl <;> simp [TransParts.dict]
  simp only [compositeGet, Node.tagKids, Node.kids, h1, h2, List.map_cons, List.map_nil]
  have h3 : [partNode F q, .text ['\n']].filter Node.isTag = [partNode F q] := by
    rw [List.filter_cons_of_pos ht]; rfl
  simp only [h3, hc]

/-- C28, second half: a dict with exactly the four keys, in any order, is stored, and every key
reads back: the angles exactly, the vectors to ten decimals. -/
theorem c28_transformation_roundtrip {F : Fl} (hF : F.Lawful) (p : TransParts) (hp : F.rep p.angle)
    (hs : F.rep p.skewAngle) (l : List (String × PV)) (hl : l.Perm p.dict) (n : Node)
    (hn : n.isTag = true) :
    ∃ n', setValue F .composite (.dict l) n = (n', .ok ()) ∧
    (∃ m, compositeGet n' "angle" = .ok (.angle, m) ∧ getFloat F m = .ok p.angle) ∧
    (∃ m, compositeGet n' "skew_angle" = .ok (.angle, m) ∧ getFloat F m = .ok p.skewAngle) ∧
    (∃ m x y, compositeGet n' "offset" = .ok (.vector, m) ∧ vectorTuple F m = .ok [x, y] ∧
      NearTen x p.offset.1 ∧ NearTen y p.offset.2) ∧
    (∃ m x y, compositeGet n' "scale" = .ok (.vector, m) ∧ vectorTuple F m = .ok [x, y] ∧
      NearTen x p.scale.1 ∧ NearTen y p.scale.2) := by
  cases n with
  | text t => simp [Node.isTag] at hn
  | tag nm a ks =>
    refine ⟨_, setComposite_ok F p hl nm a ks, ?_, ?_, ?_, ?_⟩
    · refine ⟨_, compositeGet_ok F hl nm a ("angle", .float p.angle) (by simp [TransParts.dict]) .angle
        (fromTag_angle F _) rfl, ?_⟩
      exact pyFloat_reprF hF hp
    · refine ⟨_, compositeGet_ok F hl nm a ("skew_angle", .float p.skewAngle) (by simp [TransParts.dict])
        .angle (fromTag_angle F _) rfl, ?_⟩
      exact pyFloat_reprF hF hs
    · refine ⟨_, _, _, compositeGet_ok F hl nm a ("offset", _) (List.Mem.head _) .vector (fromTag_vec _ _) rfl,
        vectorTuple_pair F [] [] (by simp) _ _, fixed_read_err hF 10 _, fixed_read_err hF 10 _⟩
    · refine ⟨_, _, _, compositeGet_ok F hl nm a ("scale", _) 
        (List.Mem.tail _ (List.Mem.tail _ (List.Mem.tail _ (List.Mem.head _)))) .vector
        (fromTag_vec _ _) rfl,
        vectorTuple_pair F [] [] (by simp) _ _, fixed_read_err hF 10 _, fixed_read_err hF 10 _⟩

/-- C28's hypotheses are met by a dict whose keys are not in the usual order. -/
example : [("scale", PV.tuple [.float 1, .float 2]), ("angle", .float (1/2)),
    ("offset", .tuple [.float 3, .float 4]), ("skew_angle", .float 0)].Perm
      (TransParts.mk (3, 4) (1/2) 0 (1, 2)).dict := by
  simp only [TransParts.dict]
  refine ((List.Perm.swap ..).trans ?_)
  refine (List.Perm.cons _ (List.Perm.swap ..)).trans ?_
  refine (List.Perm.swap ..).trans ?_
  exact List.Perm.cons _ (List.Perm.cons _ (List.Perm.swap ..))

/-! ## C75: assigning one transformation to another -/

theorem appendParts_stops (F : Fl) (l : List (String × PV)) (nm : String) (a : Attrs)
    (ks : List Node) (h : ∃ p ∈ l, ∀ c, requiredKeys.lookup p.1 = some c →
      ∃ e, constructPart F c p.2 = .error e) (hnd : (l.map Prod.fst).Nodup) :
    ∃ ks' e k, appendParts F l (.tag nm a ks) = (.tag nm a (ks ++ ks'), .error e) ∧
      k ∈ l.map Prod.fst ∧ ∀ x ∈ ks', x.isTag = true ∧ x.name ≠ k := by
  induction l generalizing ks with
  | nil => simp at h
  | cons p l ih =>
    obtain ⟨k, v⟩ := p
    simp only [List.map_cons, List.nodup_cons] at hnd
    cases hk : requiredKeys.lookup k with
    | none => exact ⟨[], .key, k, by simp [appendParts, hk], by simp, by simp⟩
    | some c =>
      cases hc : constructPart F c v with
      | error e => exact ⟨[], e, k, by simp [appendParts, hk, hc], by simp, by simp⟩
      | ok t =>
        obtain ⟨q, hq, hbad⟩ := h
        have hq' : q ∈ l := by
          rcases List.mem_cons.1 hq with rfl | hq
          · obtain ⟨e, he⟩ := hbad c hk
            rw [hc] at he; cases he
          · exact hq
        obtain ⟨ks', e, k', h1, h2, h3⟩ := ih (ks ++ [.tag k [] [t, .text ['\n']]]) ⟨q, hq', hbad⟩
          hnd.2
        refine ⟨.tag k [] [t, .text ['\n']] :: ks', e, k', ?_, by simp [h2], ?_⟩
        · simp only [appendParts, hk, hc, Node.append, h1]
          simp
        · intro x hx
          rcases List.mem_cons.1 hx with rfl | hx
          · refine ⟨rfl, ?_⟩
            rintro rfl
            exact hnd.1 h2
          · exact h3 x hx

theorem dictSet_keys_nodup {κ α : Type} [DecidableEq κ] (k : κ) (v : α) (d : List (κ × α))
    (h : (d.map Prod.fst).Nodup) : ((dictSet k v d).map Prod.fst).Nodup ∧
      ∀ k', k' ∈ (dictSet k v d).map Prod.fst ↔ k' = k ∨ k' ∈ d.map Prod.fst := by
  induction d with
  | nil => simp [dictSet]
  | cons p d ih =>
    obtain ⟨k', v'⟩ := p
    simp only [List.map_cons, List.nodup_cons] at h
    obtain ⟨ih1, ih2⟩ := ih h.2
    simp only [dictSet]
    split
    · rename_i hk
      subst hk
      simp only [List.map_cons, List.nodup_cons, List.mem_cons]
      exact ⟨h, fun x => by tauto⟩
    · rename_i hk
      simp only [List.map_cons, List.nodup_cons, List.mem_cons]
      refine ⟨⟨?_, ih1⟩, fun x => ?_⟩
      · rw [ih2]; rintro (h' | h')
        · exact hk h'
        · exact h.1 h'
      · rw [ih2]; tauto

theorem foldl_dictSet_keys {κ α : Type} [DecidableEq κ] (l d : List (κ × α))
    (h : (d.map Prod.fst).Nodup) :
    ((l.foldl (fun d p => dictSet p.1 p.2 d) d).map Prod.fst).Nodup ∧
      ∀ k, k ∈ (l.foldl (fun d p => dictSet p.1 p.2 d) d).map Prod.fst ↔
        k ∈ l.map Prod.fst ∨ k ∈ d.map Prod.fst := by
  induction l generalizing d with
  | nil => simpa using h
  | cons p l ih =>
    obtain ⟨h1, h2⟩ := dictSet_keys_nodup p.1 p.2 d h
    obtain ⟨h3, h4⟩ := ih _ h1
    refine ⟨h3, fun k => ?_⟩
    rw [List.foldl_cons, h4, h2]
    simp only [List.map_cons, List.mem_cons]; tauto

theorem mapRes_compositeField {l : List Node} {r : List (String × VCls × Node)}
    (h : mapRes compositeField l = .ok r) : r.map Prod.fst = l.map Node.name := by
  induction l generalizing r with
  | nil => simp only [mapRes, Except.ok.injEq] at h; subst h; rfl
  | cons x l ih =>
    simp only [mapRes] at h
    cases h1 : compositeField x with
    | error e => simp [h1] at h
    | ok y =>
      cases h2 : mapRes compositeField l with
      | error e => simp [h1, h2] at h
      | ok ys =>
        simp only [h1, h2, Except.ok.injEq] at h
        subst h
        have hy : y.1 = x.name := by
          simp only [compositeField] at h1
          split at h1
          · cases h1
          · split at h1
            · split at h1
              · cases h1
              · injection h1 with h1; rw [← h1]
            · cases h1
        simp [hy, ih h2]

/-- If a field's name is missing, the transformation can't be read. -/
theorem compositeDict_missing (nm : String) (a : Attrs) (ks : List Node) (k : String)
    (hk : k ∈ requiredKeys.map Prod.fst) (h : ∀ x ∈ ks, x.isTag = true ∧ x.name ≠ k) :
    ∃ e, compositeDict (.tag nm a ks) = .error e := by
  simp only [compositeDict, Node.tagKids, Node.kids]
  rw [List.filter_eq_self.2 (fun x hx => (h x hx).1)]
  cases hm : mapRes compositeField ks with
  | error e => exact ⟨e, rfl⟩
  | ok l =>
    refine ⟨.assertion, ?_⟩
    have hkeys := foldl_dictSet_keys l [] (by simp)
    have hnot : k ∉ (l.foldl (fun d p => dictSet p.1 p.2 d) []).map Prod.fst := by
      rw [hkeys.2, mapRes_compositeField hm]
      rintro (h' | h')
      · obtain ⟨x, hx, hx'⟩ := List.mem_map.1 h'
        exact (h x hx).2 hx'
      · simp at h'
    have : sameKeys ((l.foldl (fun d p => dictSet p.1 p.2 d) []).map Prod.fst)
        (requiredKeys.map Prod.fst) = false := by
      simp only [sameKeys, Bool.and_eq_false_iff]
      right
      rw [List.all_eq_false]
      exact ⟨k, hk, by rw [List.contains_iff_mem]; exact hnot⟩
    simp only [this, Bool.false_eq_true, if_false]

/-- C75, violated: assigning a readable transformation `m` to another one always raises, and the
other one can't be read any more. (`m` may be equal to `n`: this is also what happens for
`t.value = t`.) The hypotheses on `m` say that its value can be read, and its angle is an
`Angle`, as in every transformation Synfig writes. -/
theorem c75_assigning_transformation_destroys (F : Fl) (root : Option Attrs) (m n : Node)
    (hn : n.isTag = true) (d : List (String × VCls × Node)) (hm : compositeDict m = .ok d)
    (an : Node) (ha : ("angle", VCls.angle, an) ∈ d) :
    ∃ n' e, setValue F .composite (.val .composite root m) n = (n', .error e) ∧
      ∃ e', compositeDict n' = .error e' := by
  cases n with
  | text t => simp [Node.isTag] at hn
  | tag nm a ks =>
    have hd := hm
    simp only [compositeDict] at hd
    cases hmr : mapRes compositeField m.tagKids with
    | error e => simp [hmr] at hd
    | ok l =>
      simp only [hmr] at hd
      split at hd
      · rename_i hsame
        injection hd with hd
        have hnd : (d.map Prod.fst).Nodup := by
          rw [← hd]; exact (foldl_dictSet_keys l [] (by simp)).1
        rw [hd] at hsame
        simp only [sameKeys, Bool.and_eq_true, List.all_eq_true] at hsame
        have hreq : ∀ k ∈ d.map Prod.fst, k ∈ requiredKeys.map Prod.fst := by
          intro k hk
          have := hsame.1 k hk
          rwa [List.contains_iff_mem] at this
        set args : List (String × PV) := d.map fun p => (p.1, PV.val p.2.1 root p.2.2) with hargs
        have hfst : args.map Prod.fst = d.map Prod.fst := by simp [hargs]
        have hall : args.all (fun p => (requiredKeys.lookup p.1).isSome) = true := by
          rw [List.all_eq_true]
          intro p hp
          have : p.1 ∈ requiredKeys.map Prod.fst :=
            hreq _ (by rw [← hfst]; exact List.mem_map_of_mem hp)
          generalize p.1 = k at this
          simp only [requiredKeys, List.map_cons, List.map_nil, List.mem_cons, List.not_mem_nil,
            or_false] at this
          rcases this with rfl | rfl | rfl | rfl <;> rfl
        have hbad : ∃ p ∈ args, ∀ c, requiredKeys.lookup p.1 = some c →
            ∃ e, constructPart F c p.2 = .error e := by
          refine ⟨("angle", PV.val .angle root an), ?_, ?_⟩
          · rw [hargs, List.mem_map]; exact ⟨_, ha, rfl⟩
          · intro c hc
            have : c = .angle := by
              have h2 : requiredKeys.lookup "angle" = some VCls.angle := by decide
              simp only [h2, Option.some.injEq] at hc
              exact hc.symm
            subst this
            exact ⟨.type, rfl⟩
        obtain ⟨ks', e, k, h1, h2, h3⟩ := appendParts_stops F args nm a [] hbad (by rw [hfst]; exact hnd)
        refine ⟨_, e, ?_, compositeDict_missing nm a ks' k (hreq k (by rw [← hfst]; exact h2)) h3⟩
        simp only [setValue, setComposite, compositeArg, hm, ← hargs, hall, if_true, Node.setKids,
          h1, List.nil_append]
      · cases hd

/-- C75's hypotheses are met by the transformation (3, 4), 1/2, 0, (1, 2). -/
example : ∃ d an, compositeDict (setValue double .composite
    (.dict (TransParts.mk (3, 4) (1/2) 0 (1, 2)).dict) (emptyTag .composite)).1 = .ok d ∧
      ("angle", VCls.angle, an) ∈ d := by
  refine ⟨[("offset", .vector, vecNode 3 4), ("angle", .angle, angleNode double (1/2)),
    ("skew_angle", .angle, angleNode double 0), ("scale", .vector, vecNode 1 2)],
    angleNode double (1/2), by decide +kernel, by simp⟩

/-! ## C30: gradients -/

theorem mapRes_length {α β : Type} {f : α → Res β} {l : List α} {r : List β}
    (h : mapRes f l = .ok r) : r.length = l.length := by
  induction l generalizing r with
  | nil => simp only [mapRes, Except.ok.injEq] at h; subst h; rfl
  | cons x l ih =>
    simp only [mapRes] at h
    cases h1 : f x with
    | error e => simp [h1] at h
    | ok y =>
      cases h2 : mapRes f l with
      | error e => simp [h1, h2] at h
      | ok ys =>
        simp only [h1, h2, Except.ok.injEq] at h
        subst h
        simp [ih h2]

theorem colorArg_four {F : Fl} {v : PV} {cs : List ℚ} (h : colorArg F v = .ok cs) :
    cs.length = 4 := by
  unfold colorArg at h
  split at h
  · split at h
    · injection h with h; subst h; rfl
    · split at h
      · rename_i h3
        rw [mapRes_length h, List.length_append, h3]; rfl
      · split at h
        · rename_i h4; rw [mapRes_length h, h4]
        · cases h
  · simp only [hexComponents] at h
    split at h
    · rw [mapRes_length h]; rfl
    · split at h
      · rw [mapRes_length h]; rfl
      · cases h
  · rw [colorTuple] at h; rw [mapRes_length h]; rfl
  · cases h

theorem newColor_form {F : Fl} {v : PV} {c : Node} (h : newValue F .color v = .ok c) :
    ∃ r g b a, c = colorNode r g b a := by
  cases hc : colorArg F v with
  | error e => simp [newValue, construct, setValue, setColor, hc] at h
  | ok cs =>
    match cs, colorArg_four hc with
    | [r, g, b, a], _ =>
      have := setColor_ok (F := F) (v := v) (n := emptyTag .color) rfl hc
      simp only [newValue, construct, this, Except.ok.injEq] at h
      exact ⟨r, g, b, a, h.symm⟩

/-- A stop's element. -/
def stopNode (pos : ℚ) (c : Node) : Node := c.setAttr "pos" (.str (fmtG pos))

theorem appendStops_ok (F : Fl) (l : List (ℚ × PV)) (col : PV → Node)
    (h : ∀ p ∈ l, newValue F .color p.2 = .ok (col p.2)) (nm : String) (a : Attrs)
    (ks : List Node) :
    appendStops F l (.tag nm a ks) =
      (.tag nm a (ks ++ l.map fun p => stopNode p.1 (col p.2)), .ok ()) := by
  induction l generalizing ks with
  | nil => simp [appendStops]
  | cons p l ih =>
    obtain ⟨pos, c⟩ := p
    have h1 : construct .color (setColor F c) = .ok (col c) := h (pos, c) (by simp)
    simp only [appendStops, h1, Node.append]
    rw [ih (fun q hq => h q (by simp [hq]))]
    simp [stopNode]

theorem nodesIn_stops (l : List Node)
    (h : ∀ x ∈ l, ∃ r g b a p, x = stopNode p (colorNode r g b a)) :
    ((Node.nodesIn l).filter Node.isTag).filter (fun x => decide (x.name = "color")) = l := by
  induction l with
  | nil => rfl
  | cons x l ih =>
    obtain ⟨r, g, b, a, p, rfl⟩ := h x (by simp)
    have := ih (fun y hy => h y (by simp [hy]))
    simp only [Node.nodesIn, List.filter_append, this]
    simp [stopNode, colorNode, Node.setAttr, dictSet, Node.subtree, Node.nodesIn, componentTag,
      Node.new, Node.setString, Node.setKids, Node.isTag, Node.name]

theorem foldl_dictSet_nodup {κ α : Type} [DecidableEq κ] (l d : List (κ × α))
    (h : ((d ++ l).map Prod.fst).Nodup) : l.foldl (fun d p => dictSet p.1 p.2 d) d = d ++ l := by
  induction l generalizing d with
  | nil => simp
  | cons p l ih =>
    have hset : ∀ d : List (κ × α), p.1 ∉ d.map Prod.fst → dictSet p.1 p.2 d = d ++ [p] := by
      intro d
      induction d with
      | nil => intro _; rfl
      | cons q d ihd =>
        intro hq
        simp only [List.map_cons, List.mem_cons, not_or] at hq
        simp only [dictSet, if_neg (Ne.symm hq.1), ihd hq.2, List.cons_append]
    have hp : p.1 ∉ d.map Prod.fst := by
      rw [List.map_append, List.map_cons, List.nodup_append] at h
      intro hc
      exact h.2.2 _ hc _ (by simp) rfl
    rw [List.foldl_cons, hset d hp, ih]
    · simp
    · simpa using h

theorem colorTuple_stop (F : Fl) (p r g b a : ℚ) :
    colorTuple F (stopNode p (colorNode r g b a)) = colorTuple F (colorNode r g b a) := rfl

theorem mapRes_ok {α β : Type} {f : α → Res β} {g : α → β} {l : List α}
    (h : ∀ x ∈ l, f x = .ok (g x)) : mapRes f l = .ok (l.map g) := by
  induction l with
  | nil => rfl
  | cons x l ih => simp [mapRes, h x (by simp), ih (fun y hy => h y (by simp [hy]))]

/-- C30. After `gradient.value = d`, with at least two stops whose positions differ at six
significant digits, reading the gradient gives the stops in increasing position. No stop is lost:
the positions are the given ones to six digits, and each has the colour it was given (`col` is
what `Color(…)` makes of it). -/
theorem c30_gradient_roundtrip {F : Fl} (hF : F.Lawful) (l : List (ℚ × PV)) (col : PV → Node)
    (hcol : ∀ p ∈ l, newValue F .color p.2 = .ok (col p.2)) (h2 : 2 ≤ l.length)
    (hsix : (l.map fun p => six p.1).Nodup) (n : Node) (hn : n.isTag = true) :
    ∃ n' stops, setValue F .gradient (.stops l) n = (n', .ok ()) ∧
      gradientStops F n' = .ok stops ∧
      (stops.map Prod.fst).Pairwise (· < ·) ∧
      (stops.map fun s => (s.1, colorTuple F s.2)).Perm
        (l.map fun p => (F.rnd (six p.1), colorTuple F (col p.2))) := by
  cases n with
  | text t => simp [Node.isTag] at hn
  | tag nm a ks =>
    have hperm : (sortStops l).Perm l := List.perm_insertionSort _ _
    have hcol' : ∀ p ∈ sortStops l, newValue F .color p.2 = .ok (col p.2) :=
      fun p hp => hcol p (hperm.mem_iff.1 hp)
    set kids := (sortStops l).map fun p => stopNode p.1 (col p.2) with hkids
    have hform : ∀ x ∈ kids, ∃ r g b a p, x = stopNode p (colorNode r g b a) := by
      intro x hx
      obtain ⟨p, hp, rfl⟩ := List.mem_map.1 hx
      obtain ⟨r, g, b, a', hc⟩ := newColor_form (hcol' p hp)
      exact ⟨r, g, b, a', p.1, by rw [hc]⟩
    have hlen : kids.length = l.length := by rw [hkids, List.length_map, hperm.length_eq]
    have hsix' : ((sortStops l).map fun p => six p.1).Nodup := (hperm.map _).nodup_iff.2 hsix
    have hsorted : (sortStops l).Pairwise (fun a b => a.1 ≤ b.1) := by
      have : Std.Total (fun a b : ℚ × PV => a.1 ≤ b.1) := ⟨fun a b => le_total _ _⟩
      have : IsTrans (ℚ × PV) (fun a b => a.1 ≤ b.1) := ⟨fun a b c h1 h2 => le_trans h1 h2⟩
      exact List.pairwise_insertionSort _ l
    have hlt : ((sortStops l).map fun p => F.rnd (six p.1)).Pairwise (· < ·) := by
      rw [List.pairwise_map]
      rw [List.Nodup, List.pairwise_map] at hsix'
      exact (hsorted.and hsix').imp fun h => rnd_six_lt hF h.1 h.2
    refine ⟨.tag nm a kids, (sortStops l).map fun p => (F.rnd (six p.1), stopNode p.1 (col p.2)),
      ?_, ?_, ?_, ?_⟩
    · simp only [setValue, setGradient, gradientArg, if_neg (not_lt.2 h2), Node.setKids]
      rw [appendStops_ok F _ col hcol']
      simp [hkids]
    · have hfa : (Node.tag nm a kids).findAll "color" = kids := by
        simp only [Node.findAll, Node.descTags, Node.kids]; exact nodesIn_stops kids hform
      have hm : mapRes (stopOf F) kids =
          .ok ((sortStops l).map fun p => (F.rnd (six p.1), stopNode p.1 (col p.2))) := by
        rw [hkids]
        have : ∀ L : List (ℚ × PV), (∀ p ∈ L, newValue F .color p.2 = .ok (col p.2)) →
            mapRes (stopOf F) (L.map fun p => stopNode p.1 (col p.2)) =
            .ok (L.map fun p => (F.rnd (six p.1), stopNode p.1 (col p.2))) := by
          intro L
          induction L with
          | nil => intro _; rfl
          | cons p L ih =>
            intro hL
            obtain ⟨r, g, b, a', hc⟩ := newColor_form (hL p (by simp))
            have hget : stopOf F (stopNode p.1 (col p.2)) =
                .ok (F.rnd (six p.1), stopNode p.1 (col p.2)) := by
              have : (stopNode p.1 (col p.2)).attrs.get "pos" = some (.str (fmtG p.1)) := by
                rw [hc]; rfl
              simp only [stopOf, this, AttrV.toFloat, pyFloat_fmtG]
            simp only [List.map_cons, mapRes, hget, ih (fun q hq => hL q (by simp [hq]))]
        exact this _ hcol'
      simp only [gradientStops, hfa, hlen, if_neg (not_lt.2 h2), hm]
      rw [foldl_dictSet_nodup _ [], List.nil_append]
      rw [List.nil_append, List.map_map]
      exact hlt.imp fun h => h.ne
    · rw [List.map_map]; exact hlt
    · rw [List.map_map]
      refine (hperm.map _).trans (List.Perm.of_eq (List.map_congr_left ?_))
      intro p hp
      obtain ⟨r, g, b, a', hc⟩ := newColor_form (hcol p hp)
      simp only [Function.comp, hc, colorTuple_stop]

/-- C30's hypotheses are met by three stops given out of order. -/
example : let l : List (ℚ × PV) := [(1, .str "#ff0000".toList), (0, .str "#000000".toList),
      (1/2, .tuple [.float 1, .float 1, .float 0])]
    (∀ p ∈ l, ∃ c, newValue double .color p.2 = .ok c) ∧ (l.map fun p => six p.1).Nodup := by
  refine ⟨?_, by decide +kernel⟩
  intro p hp
  simp only [List.mem_cons, List.not_mem_nil, or_false] at hp
  rcases hp with rfl | rfl | rfl
  · exact ⟨colorNode 1 0 0 1, by decide +kernel⟩
  · exact ⟨colorNode 0 0 0 1, by decide +kernel⟩
  · exact ⟨colorNode 1 1 0 1, by decide +kernel⟩

/-- C30: fewer than two stops are refused with `ValueError`, and nothing changes. -/
theorem c30_few_stops_refused (F : Fl) (l : List (ℚ × PV)) (h : l.length < 2) (n : Node) :
    setValue F .gradient (.stops l) n = (n, .error .value) := by
  simp only [setValue, setGradient, gradientArg, if_pos h]

example : setValue double .gradient (.stops [(0, .str "#000000".toList)])
    (.tag "gradient" [] [.text ['x']]) = (.tag "gradient" [] [.text ['x']], .error .value) :=
  c30_few_stops_refused _ _ (by decide) _

end Sang
