import Verif.Spec.Legal
import Verif.Lemmas.Timeline
import Verif.Lemmas.Six
import Verif.Lemmas.SaveOpen
import Verif.Props.Animation
import Verif.Props.Subscripts
import Verif.Props.Composites

/-! # What the library writes is legal in XML -/

namespace Sang

open Spec

/-! ## Characters -/

theorem xmlChar_of_range {c : Char} (h : 32 ≤ c.toNat) (h' : c.toNat < 65534) : xmlChar c = true := by
  have h1 : ' ' ≤ c := h
  have h2 : c ≠ '￾' := by rintro rfl; revert h'; decide
  have h3 : c ≠ '￿' := by rintro rfl; revert h'; decide
  simp [xmlChar, h1, h2, h3]

theorem xmlChar_of_nameChar {c : Char} (h : nameChar c = true) : xmlChar c = true := by
  have : 32 ≤ c.toNat ∧ c.toNat < 65534 := by
    simp only [nameChar, Char.isAlphanum, Char.isAlpha, Char.isUpper, Char.isLower, Char.isDigit,
      Bool.or_eq_true, Bool.and_eq_true, decide_eq_true_eq, beq_iff_eq, UInt32.le_iff_toNat_le,
      ge_iff_le] at h
    rcases h with (((((h | h) | h)) | rfl) | rfl) | rfl
    · exact ⟨le_trans (by decide) h.1, lt_of_le_of_lt h.2 (by decide)⟩
    · exact ⟨le_trans (by decide) h.1, lt_of_le_of_lt h.2 (by decide)⟩
    · exact ⟨le_trans (by decide) h.1, lt_of_le_of_lt h.2 (by decide)⟩
    all_goals decide
  exact xmlChar_of_range this.1 this.2

theorem xmlChar_of_numCh {c : Char} (h : numCh c = true) : xmlChar c = true := by
  simp only [numCh, isDig, Bool.or_eq_true, Bool.and_eq_true, decide_eq_true_eq, beq_iff_eq] at h
  rcases h with (((h | rfl) | rfl) | rfl) | rfl
  · exact xmlChar_of_range (by omega) (by omega)
  all_goals decide

theorem legal_iff {s : Str} : LegalText s ↔ s.all xmlChar = true := by
  rw [List.all_eq_true]; rfl

theorem legal_num {s : Str} (h : ∀ c ∈ s, numCh c = true) : LegalText s :=
  fun c hc => xmlChar_of_numCh (h c hc)

theorem legal_append {s t : Str} (h : LegalText s) (h' : LegalText t) : LegalText (s ++ t) := by
  intro c hc
  rcases List.mem_append.1 hc with hc | hc
  · exact h c hc
  · exact h' c hc

theorem legal_cons {c : Char} {s : Str} (h : xmlChar c = true) (h' : LegalText s) : LegalText (c :: s) := by
  intro d hd
  rcases List.mem_cons.1 hd with rfl | hd
  · exact h
  · exact h' d hd

theorem legal_nil : LegalText [] := by intro c hc; cases hc

theorem legal_join {sep : Str} (hs : LegalText sep) : ∀ {l : List Str}, (∀ s ∈ l, LegalText s) →
    LegalText (join sep l)
  | [], _ => legal_nil
  | [s], h => h s (by simp)
  | s :: t :: r, h => by
    rw [join]
    refine legal_append (legal_append (h s (by simp)) hs) (legal_join hs fun x hx => h x ?_)
    exact List.mem_cons_of_mem _ hx

theorem legal_fixed (k : ℕ) (q : ℚ) : LegalText (fixed k q) := by
  rw [fixed]
  split
  · exact legal_cons (by decide) (legal_num (fixedNN_numCh k _))
  · exact legal_num (fixedNN_numCh k _)

theorem legal_fmtG (q : ℚ) : LegalText (fmtG q) := by
  rw [fmtG]
  split
  · exact legal_iff.2 (by decide)
  split
  · exact legal_cons (by decide) (legal_num (gPos_numCh _))
  · exact legal_num (gPos_numCh _)

theorem legal_reprF (F : Fl) (q : ℚ) : LegalText (reprF F q) := legal_num (reprF_numCh F q)

theorem legal_intStr (i : ℤ) : LegalText (intStr i) := legal_num (intStr_numCh i)

theorem legal_strUnit {st : ℚ × List Str} (h : ∀ s ∈ st.2, LegalText s) {u : Char} (hu : xmlChar u = true)
    (size : ℚ) : ∀ s ∈ (strUnit st u size).2, LegalText s := by
  rw [strUnit]
  split
  · intro s hs
    rcases List.mem_append.1 hs with hs | hs
    · exact h s hs
    · rw [List.mem_singleton] at hs
      subst hs
      exact legal_append (legal_num fun c hc => numCh_of_isDig (natStr_digits _ c hc))
        (legal_cons hu legal_nil)
  · exact h

theorem legal_tstr (F : Fl) (t : T) : LegalText (t.str F) := by
  unfold T.str
  split
  · exact legal_append (legal_fmtG _) (legal_iff.2 (by decide))
  · rename_i fps hf
    have h : ∀ s ∈ (strUnit (strUnit (strUnit (|F.rnd (t.frames / fps)|, []) 'h' 3600) 'm' 60) 's' 1).2,
        LegalText s :=
      legal_strUnit (legal_strUnit (legal_strUnit (by simp) (by decide) _) (by decide) _) (by decide) _
    refine legal_append (by split <;> exact legal_iff.2 (by decide)) (legal_join (legal_iff.2 (by decide)) ?_)
    intro s hs
    split at hs
    · rcases List.mem_append.1 hs with hs | hs
      · exact h s hs
      · rw [List.mem_singleton] at hs
        subst hs
        exact legal_append (legal_fmtG _) (legal_iff.2 (by decide))
    · exact h s hs

theorem legal_attr_t (F : Fl) (t : T) : ((AttrV.t t).str' F).all xmlChar = true := legal_iff.1 (legal_tstr F t)

theorem legal_attr_str {F : Fl} {s : Str} (h : LegalText s) : ((AttrV.str s).str' F).all xmlChar = true :=
  legal_iff.1 h

theorem hexC_legal {d : ℕ} (h : d < 16) : xmlChar (hexC d) = true := by
  revert d; decide

theorem hexRev_legal : ∀ k n : ℕ, LegalText (hexRev k n)
  | 0, _ => legal_nil
  | k + 1, n => by
    rw [hexRev]
    split
    · rename_i h; exact legal_cons (hexC_legal h) legal_nil
    · exact legal_cons (hexC_legal (Nat.mod_lt _ (by decide))) (hexRev_legal k _)

theorem hex2_legal (i : ℤ) : LegalText (hex2 i) := by
  have h : LegalText (hexRev (i.natAbs + 1) i.natAbs).reverse := fun c hc =>
    hexRev_legal _ _ c (List.mem_reverse.1 hc)
  simp only [hex2]
  split
  · exact legal_cons (by decide) h
  split
  · exact legal_cons (by decide) h
  · exact h

theorem hexOf_legal (F : Fl) (cs : List ℚ) : LegalText (hexOf F cs) := by
  have h : LegalText ('#' :: (cs.map fun x => hex2 (rhe (F.rnd (x * 255)))).flatten) := by
    refine legal_cons (by decide) fun c hc => ?_
    obtain ⟨l, hl, hc⟩ := List.mem_flatten.1 hc
    obtain ⟨x, -, rfl⟩ := List.mem_map.1 hl
    exact hex2_legal _ c hc
  rw [hexOf, dropFF]
  split
  · exact fun c hc => h c (List.mem_of_mem_dropLast (List.mem_of_mem_dropLast hc))
  · exact h

/-! ## Parts of elements -/

theorem good_tag {F : Fl} {n : String} {a : Attrs} {ks : List Node} :
    Good F (.tag n a ks) ↔ NameOk n ∧ AttrsOk F a ∧ ∀ k ∈ ks, k.XmlOk F := by
  rw [Good, Node.XmlOk, xmlOkKids_iff]
  simp [Node.isTag]

theorem Spec.Good.cases {F : Fl} {n : Node} (h : Good F n) : ∃ m a ks, n = .tag m a ks := by
  cases n with
  | text s => exact absurd h.2 (by simp [Node.isTag])
  | tag m a ks => exact ⟨m, a, ks, rfl⟩

theorem attrsOk_nil (F : Fl) : AttrsOk F [] := ⟨List.nodup_nil, by simp⟩

theorem attrsOk_one {F : Fl} {k : String} {v : AttrV} (hk : NameOk k) (hv : (v.str' F).all xmlChar = true) :
    AttrsOk F [(k, v)] := by
  refine ⟨by simp, ?_⟩
  intro p hp
  rw [List.mem_singleton] at hp
  subst hp
  exact ⟨hk, hv⟩

theorem attrsOk_dictSet {F : Fl} {a : Attrs} (h : AttrsOk F a) {k : String} {v : AttrV} (hk : NameOk k)
    (hv : (v.str' F).all xmlChar = true) : AttrsOk F (dictSet k v a) := by
  refine ⟨(dictSet_keys_nodup k v a h.1).1, ?_⟩
  intro p hp
  rcases mem_dictSet hp with rfl | hp
  · exact ⟨hk, hv⟩
  · exact h.2 p hp

theorem Spec.Good.setName {F : Fl} {n : Node} (h : Good F n) {s : String} (hs : NameOk s) : Good F (n.setName s) := by
  obtain ⟨m, a, ks, rfl⟩ := h.cases
  rw [good_tag] at h
  exact good_tag.2 ⟨hs, h.2⟩

theorem Spec.Good.setAttrs {F : Fl} {n : Node} (h : Good F n) {a : Attrs} (ha : AttrsOk F a) : Good F (n.setAttrs a) := by
  obtain ⟨m, a', ks, rfl⟩ := h.cases
  rw [good_tag] at h
  exact good_tag.2 ⟨h.1, ha, h.2.2⟩

theorem Spec.Good.setKids {F : Fl} {n : Node} (h : Good F n) {ks : List Node} (hk : ∀ k ∈ ks, k.XmlOk F) :
    Good F (n.setKids ks) := by
  obtain ⟨m, a, ks', rfl⟩ := h.cases
  rw [good_tag] at h
  exact good_tag.2 ⟨h.1, h.2.1, hk⟩

theorem Spec.Good.setAttr {F : Fl} {n : Node} (h : Good F n) {k : String} {v : AttrV} (hk : NameOk k)
    (hv : (v.str' F).all xmlChar = true) : Good F (n.setAttr k v) := by
  obtain ⟨m, a, ks, rfl⟩ := h.cases
  rw [good_tag] at h
  exact good_tag.2 ⟨h.1, attrsOk_dictSet h.2.1 hk hv, h.2.2⟩

theorem Spec.Good.delAttr {F : Fl} {n : Node} (h : Good F n) (k : String) : Good F (n.delAttr k) := by
  obtain ⟨m, a, ks, rfl⟩ := h.cases
  rw [good_tag] at h
  refine good_tag.2 ⟨h.1, ⟨?_, fun p hp => h.2.1.2 p (List.mem_filter.1 hp).1⟩, h.2.2⟩
  exact (h.2.1.1).sublist (List.Sublist.map _ List.filter_sublist)

theorem Spec.Good.append {F : Fl} {n x : Node} (h : Good F n) (hx : x.XmlOk F) : Good F (n.append x) := by
  obtain ⟨m, a, ks, rfl⟩ := h.cases
  rw [good_tag] at h
  refine good_tag.2 ⟨h.1, h.2.1, fun k hk => ?_⟩
  rcases List.mem_append.1 hk with hk | hk
  · exact h.2.2 k hk
  · rw [List.mem_singleton] at hk; subst hk; exact hx

theorem Spec.Good.setString {F : Fl} {n : Node} (h : Good F n) {s : Str} (hs : LegalText s) : Good F (n.setString s) :=
  h.setKids (by
    intro k hk
    rw [List.mem_singleton] at hk
    subst hk
    exact legal_iff.1 hs)

theorem good_new {F : Fl} {s : String} (h : NameOk s) : Good F (.new s) := good_tag.2 ⟨h, attrsOk_nil F, by simp⟩

theorem Spec.Good.kids {F : Fl} {n : Node} (h : Good F n) : ∀ k ∈ n.kids, k.XmlOk F := by
  obtain ⟨m, a, ks, rfl⟩ := h.cases
  exact (good_tag.1 h).2.2

theorem Spec.Good.name {F : Fl} {n : Node} (h : Good F n) : NameOk n.name := by
  obtain ⟨m, a, ks, rfl⟩ := h.cases
  exact (good_tag.1 h).1

theorem Spec.Good.tagKids {F : Fl} {n : Node} (h : Good F n) : ∀ k ∈ n.tagKids, Good F k := fun k hk =>
  ⟨h.kids k (List.mem_filter.1 hk).1, (List.mem_filter.1 hk).2⟩

theorem Spec.Good.descTags {F : Fl} {n : Node} (h : Good F n) : ∀ k ∈ n.descTags, Good F k := fun k hk =>
  ⟨xmlOk_descTags h.1 k hk, (List.mem_filter.1 hk).2⟩

theorem nameOk_legal {s : String} (h : NameOk s) : LegalText s.toList := fun c hc =>
  xmlChar_of_nameChar (List.all_eq_true.1 h.2 c hc)

mutual
theorem string?_legal {F : Fl} : ∀ {n : Node}, n.XmlOk F → ∀ {s : Str}, n.string? = some s → LegalText s
  | .text t, h, s, hs => by
    simp only [Node.string?, Option.some.injEq] at hs
    subst hs
    exact legal_iff.2 h
  | .tag n a ks, h, s, hs => stringKids?_legal h.2.2 hs

theorem stringKids?_legal {F : Fl} : ∀ {ks : List Node}, Node.XmlOkKids F ks → ∀ {s : Str},
    Node.stringKids? ks = some s → LegalText s
  | [], _, s, hs => by simp [Node.stringKids?] at hs
  | [x], h, s, hs => by
    simp only [Node.stringKids?] at hs
    exact string?_legal h.1 hs
  | x :: y :: r, _, s, hs => by simp [Node.stringKids?] at hs
end

theorem getString_legal {F : Fl} {n : Node} (h : n.XmlOk F) : LegalText (getString n) := by
  rw [getString]
  split
  · exact legal_iff.2 (by decide)
  · rename_i s hs; exact string?_legal h hs

/-! ## Values -/

theorem toStr_legal {F : Fl} {v : PV} (h : LegalArg F v) {s : Str} (hs : v.toStr F = .ok s) : LegalText s := by
  cases h with
  | none => cases hs; exact legal_iff.2 (by decide)
  | float q => cases hs; exact legal_reprF F q
  | int i => cases hs; exact legal_intStr i
  | bool b => cases hs; cases b <;> exact legal_iff.2 (by decide)
  | t v => cases hs; exact legal_tstr F v
  | other => cases hs
  | str h => cases hs; exact h
  | tuple => cases hs
  | dict => cases hs
  | stops => cases hs
  | @val c r n h =>
    simp only [PV.toStr] at hs
    split at hs
    · cases hs; exact legal_iff.2 (by decide)
    · split at hs
      · cases hs; exact getString_legal h.1
      · rw [colorHex] at hs
        split at hs
        · cases hs
        · cases hs; exact hexOf_legal F _
      · split at hs
        · cases hs
        · cases hs; exact legal_intStr _
      · split at hs
        · cases hs
        · cases hs; exact legal_reprF F _
      · cases hs

theorem nameOk_value : NameOk "value" := ⟨by decide, by decide⟩

theorem setSimple_good {F : Fl} {name : String} (hname : NameOk name) {d : Str} (hd : LegalText d)
    {conv : PV → Res Str} {v : PV} (hc : ∀ s, conv v = .ok s → LegalText s) {n : Node} (h : Good F n) :
    Good F (setSimple F name d conv v n).1 := by
  rw [setSimple]
  split
  · exact h
  · split
    · exact h
    · rename_i s hs
      have : LegalText s := by
        split at hs
        · cases hs; exact hd
        · exact hc s hs
      exact ((h.setName hname).setAttrs (attrsOk_one nameOk_value (legal_attr_str this))).setKids (by simp)

theorem realText_legal {F : Fl} {v : PV} : ∀ s, realText F v = .ok s → LegalText s := by
  intro s hs
  rw [realText] at hs
  split at hs
  · cases hs
  · cases hs; exact legal_fixed _ _

theorem integerText_legal {F : Fl} {v : PV} : ∀ s, integerText F v = .ok s → LegalText s := by
  intro s hs
  rw [integerText] at hs
  split at hs
  · cases hs
  · cases hs; exact legal_intStr _

theorem boolStr_legal (b : Bool) : LegalText (boolStr b) := by cases b <;> exact legal_iff.2 (by decide)

theorem boolText_legal {F : Fl} {v : PV} : ∀ s, boolText F v = .ok s → LegalText s := by
  intro s hs
  rw [boolText] at hs
  split at hs
  · cases hs
  · cases hs; exact boolStr_legal _

theorem angleText_legal {F : Fl} {v : PV} : ∀ s, angleText F v = .ok s → LegalText s := by
  intro s hs
  rw [angleText] at hs
  split at hs
  · cases hs
  · cases hs; exact legal_reprF _ _

theorem timeText_legal {F : Fl} {v : PV} : ∀ s, timeText F v = .ok s → LegalText s := by
  intro s hs
  rw [timeText] at hs
  split at hs
  · cases hs
  · cases hs; exact legal_tstr _ _

theorem componentTag_ok {F : Fl} {d : String} (hd : NameOk d) (x : ℚ) : (componentTag d x).XmlOk F :=
  ((good_new hd).setString (legal_fixed 6 x)).1

theorem zipWith_components_ok {F : Fl} : ∀ {ds : List String}, (∀ d ∈ ds, NameOk d) → ∀ cs : List ℚ,
    ∀ k ∈ List.zipWith componentTag ds cs, k.XmlOk F
  | [], _, cs, k, hk => by simp at hk
  | d :: ds, h, [], k, hk => by simp at hk
  | d :: ds, h, c :: cs, k, hk => by
    rw [List.zipWith_cons_cons] at hk
    rcases List.mem_cons.1 hk with rfl | hk
    · exact componentTag_ok (h d (by simp)) c
    · exact zipWith_components_ok (fun x hx => h x (List.mem_cons_of_mem _ hx)) cs k hk

theorem nameOk_dec {s : String} (h : (!s.toList.isEmpty && s.toList.all nameChar) = true) : NameOk s := by
  rw [Bool.and_eq_true] at h
  refine ⟨?_, h.2⟩
  intro he
  rw [he] at h
  exact absurd h.1 (by decide)

theorem rgba_nameOk : ∀ d ∈ rgba, NameOk d := by
  have : ∀ d ∈ rgba, (!d.toList.isEmpty && d.toList.all nameChar) = true := by decide
  exact fun d hd => nameOk_dec (this d hd)

theorem setColor_good {F : Fl} {v : PV} {n : Node} (h : Good F n) : Good F (setColor F v n).1 := by
  rw [setColor]
  split
  · exact h
  · exact ((h.setName (nameOk_dec (by decide))).setAttrs (attrsOk_nil F)).setKids
      (zipWith_components_ok rgba_nameOk _)

theorem coordText_legal {F : Fl} {v : PV} (h : LegalArg F v) {s : Str} (hs : coordText F v = .ok s) :
    LegalText s := by
  cases h with
  | float q => cases hs; exact legal_fixed _ _
  | none => exact toStr_legal (F := F) .none hs
  | int i => exact toStr_legal (F := F) (.int i) hs
  | bool b => exact toStr_legal (F := F) (.bool b) hs
  | t v => exact toStr_legal (F := F) (.t v) hs
  | other => exact toStr_legal (F := F) .other hs
  | str h => exact toStr_legal (F := F) (.str h) hs
  | tuple h => exact toStr_legal (.tuple h) hs
  | dict h h' => exact toStr_legal (.dict h h') hs
  | stops h => exact toStr_legal (.stops h) hs
  | @val c r n h => exact toStr_legal (v := .val c r n) (.val h) hs

theorem appendMembers_good {F : Fl} : ∀ {l : List (String × PV)}, (∀ p ∈ l, NameOk p.1) →
    (∀ p ∈ l, LegalArg F p.2) → ∀ {n : Node}, Good F n → Good F (appendMembers F l n).1
  | [], _, _, n, h => h
  | (k, v) :: r, h1, h2, n, h => by
    rw [appendMembers]
    split
    · exact h
    · rename_i s hs
      exact appendMembers_good (fun p hp => h1 p (List.mem_cons_of_mem _ hp))
        (fun p hp => h2 p (List.mem_cons_of_mem _ hp))
        (h.append ((good_new (h1 (k, v) (by simp))).setString (coordText_legal (h2 (k, v) (by simp)) hs)).1)

theorem mem_foldl_dictSet {κ α : Type} [DecidableEq κ] : ∀ {l d : List (κ × α)} {p : κ × α},
    p ∈ l.foldl (fun d p => dictSet p.1 p.2 d) d → p ∈ l ∨ p ∈ d
  | [], d, p, h => Or.inr h
  | x :: r, d, p, h => by
    rw [List.foldl_cons] at h
    rcases mem_foldl_dictSet h with h | h
    · exact Or.inl (List.mem_cons_of_mem _ h)
    · rcases mem_dictSet h with rfl | h
      · exact Or.inl (List.mem_cons_self)
      · exact Or.inr h

theorem mem_vectorDict_aux : ∀ {l : List Node} {d : List (String × Option Str)} {p : String × Option Str},
    p ∈ l.foldl (fun d x => dictSet x.name x.string? d) d → (∃ x ∈ l, p = (x.name, x.string?)) ∨ p ∈ d
  | [], d, p, h => Or.inr h
  | x :: r, d, p, h => by
    rw [List.foldl_cons] at h
    rcases mem_vectorDict_aux h with ⟨y, hy, e⟩ | h
    · exact Or.inl ⟨y, List.mem_cons_of_mem _ hy, e⟩
    · rcases mem_dictSet h with rfl | h
      · exact Or.inl ⟨x, List.mem_cons_self, rfl⟩
      · exact Or.inr h

theorem vectorDict_legal {F : Fl} {n : Node} (h : Good F n) {p : String × Option Str} (hp : p ∈ vectorDict n) :
    NameOk p.1 ∧ ∀ s, p.2 = some s → LegalText s := by
  rcases mem_vectorDict_aux hp with ⟨x, hx, rfl⟩ | hp
  · exact ⟨(h.tagKids x hx).name, fun s hs => string?_legal (h.tagKids x hx).1 hs⟩
  · cases hp

theorem vectorArg_legal {F : Fl} {v : PV} (h : LegalArg F v) {l : List (String × PV)} (hl : vectorArg F v = .ok l) :
    (∀ p ∈ l, NameOk p.1) ∧ ∀ p ∈ l, LegalArg F p.2 := by
  cases h with
  | none => cases hl; simp
  | tuple h =>
    rename_i vs
    match vs, h, hl with
    | [], _, hl => cases hl; simp
    | [x], _, hl => cases hl
    | [x, y], h, hl =>
      simp only [vectorArg] at hl
      split at hl
      · cases hl
        constructor
        · intro p hp
          simp only [List.mem_cons, List.not_mem_nil, or_false] at hp
          rcases hp with rfl | rfl
          · exact nameOk_dec (s := "x") (by decide)
          · exact nameOk_dec (s := "y") (by decide)
        · intro p hp
          simp only [List.mem_cons, List.not_mem_nil, or_false] at hp
          rcases hp with rfl | rfl
          · exact h _ (by simp)
          · exact h _ (by simp)
      · cases hl
    | _ :: _ :: _ :: _, _, hl => cases hl
  | dict hk h => cases hl; exact ⟨hk, h⟩
  | @val c r n h =>
    cases c <;> simp only [vectorArg] at hl <;> try cases hl
    split at hl
    · cases hl
    · rename_i items hi
      cases hl
      have hm : ∀ p ∈ items, NameOk p.1 := by
        intro p hp
        obtain ⟨x, hx, e⟩ := mapRes_mem hi hp
        split at e
        · cases e
        · cases e; exact (vectorDict_legal h hx).1
      constructor
      · intro p hp
        obtain ⟨x, hx, rfl⟩ := List.mem_map.1 hp
        exact hm x hx
      · intro p hp
        obtain ⟨x, hx, rfl⟩ := List.mem_map.1 hp
        exact .float _
  | _ => cases hl

theorem setVector_good {F : Fl} {v : PV} (hv : LegalArg F v) {n : Node} (h : Good F n) :
    Good F (setVector F v n).1 := by
  rw [setVector]
  split
  · exact h
  · rename_i l hl
    have := vectorArg_legal hv hl
    exact appendMembers_good this.1 this.2 ((h.setName (nameOk_dec (by decide))).setAttrs (attrsOk_nil F))

theorem construct_good {F : Fl} {c : VCls} (he : Good F (emptyTag c)) {set : Node → Node × Res Unit}
    (hs : ∀ n, Good F n → Good F (set n).1) {m : Node} (h : construct c set = .ok m) : Good F m := by
  rw [construct] at h
  split at h
  · cases h
  · cases h; exact hs _ he

theorem appendStops_good {F : Fl} : ∀ {l : List (ℚ × PV)} {n : Node}, Good F n → Good F (appendStops F l n).1
  | [], n, h => h
  | (pos, c) :: r, n, h => by
    rw [appendStops]
    split
    · exact h
    · rename_i ct hct
      have hg : Good F ct := construct_good (c := .color) (good_new (nameOk_dec (by decide)))
        (fun n hn => setColor_good hn) hct
      exact appendStops_good (h.append (hg.setAttr (nameOk_dec (by decide)) (legal_attr_str (legal_fmtG pos))).1)

theorem setGradient_good {F : Fl} {v : PV} {n : Node} (h : Good F n) : Good F (setGradient F v n).1 := by
  rw [setGradient]
  split
  · exact h
  · split
    · exact h
    · exact appendStops_good (h.setKids (by simp))

theorem compositeField_good {F : Fl} {n : Node} (h : Good F n) {p : String × VCls × Node}
    (hp : compositeField n = .ok p) : NameOk p.1 ∧ Good F p.2.2 := by
  rw [compositeField] at hp
  split at hp
  · cases hp
  · split at hp
    · rename_i v hv
      split at hp
      · cases hp
      · cases hp
        exact ⟨h.name, h.tagKids v (by rw [hv]; simp)⟩
    · cases hp

theorem compositeDict_good {F : Fl} {n : Node} (h : Good F n) {l : List (String × VCls × Node)}
    (hl : compositeDict n = .ok l) : ∀ p ∈ l, NameOk p.1 ∧ Good F p.2.2 := by
  rw [compositeDict] at hl
  split at hl
  · cases hl
  · rename_i l' hl'
    simp only at hl
    split at hl
    · cases hl
      intro p hp
      rcases mem_foldl_dictSet hp with hp | hp
      · obtain ⟨x, hx, e⟩ := mapRes_mem hl' hp
        exact compositeField_good (h.tagKids x hx) e
      · cases hp
    · cases hl

theorem compositeArg_legal {F : Fl} {v : PV} (h : LegalArg F v) {l : List (String × PV)}
    (hl : compositeArg v = .ok l) : (∀ p ∈ l, NameOk p.1) ∧ ∀ p ∈ l, LegalArg F p.2 := by
  cases h with
  | dict hk h => cases hl; exact ⟨hk, h⟩
  | @val c r n h =>
    cases c <;> simp only [compositeArg] at hl <;> try cases hl
    split at hl
    · cases hl
    · rename_i items hi
      cases hl
      constructor
      · intro p hp
        obtain ⟨x, hx, rfl⟩ := List.mem_map.1 hp
        exact (compositeDict_good h hi x hx).1
      · intro p hp
        obtain ⟨x, hx, rfl⟩ := List.mem_map.1 hp
        exact .val (compositeDict_good h hi x hx).2
  | _ => cases hl

theorem constructPart_good {F : Fl} {c : VCls} {v : PV} (hv : LegalArg F v) {m : Node}
    (h : constructPart F c v = .ok m) : Good F m := by
  simp only [constructPart] at h
  split at h
  · exact construct_good (c := .vector) (good_new (nameOk_dec (by decide))) (fun n hn => setVector_good hv hn) h
  · exact construct_good (c := .angle) (good_new (nameOk_dec (by decide)))
      (fun n hn => setSimple_good (nameOk_dec (by decide)) (legal_reprF F 0) angleText_legal hn) h

theorem appendParts_good {F : Fl} : ∀ {l : List (String × PV)}, (∀ p ∈ l, NameOk p.1) →
    (∀ p ∈ l, LegalArg F p.2) → ∀ {n : Node}, Good F n → Good F (appendParts F l n).1
  | [], _, _, n, h => h
  | (k, v) :: r, h1, h2, n, h => by
    rw [appendParts]
    split
    · exact h
    · split
      · exact h
      · rename_i t ht
        refine appendParts_good (fun p hp => h1 p (List.mem_cons_of_mem _ hp))
          (fun p hp => h2 p (List.mem_cons_of_mem _ hp)) (h.append ?_)
        have hg : Good F (.tag k [] [t, .text ['\n']]) := good_tag.2 ⟨h1 (k, v) (by simp), attrsOk_nil F, by
          intro x hx
          simp only [List.mem_cons, List.not_mem_nil, or_false] at hx
          rcases hx with rfl | rfl
          · exact (constructPart_good (h2 (k, v) (by simp)) ht).1
          · exact (by decide : (['\n'] : Str).all xmlChar = true)⟩
        exact hg.1

theorem setComposite_good {F : Fl} {v : PV} (hv : LegalArg F v) {n : Node} (h : Good F n) :
    Good F (setComposite F v n).1 := by
  rw [setComposite]
  split
  · exact h
  · rename_i l hl
    split
    · have := compositeArg_legal hv hl
      exact appendParts_good this.1 this.2 (h.setKids (by simp))
    · exact h

theorem setCanvas_good {F : Fl} {v : PV} {n : Node} (h : Good F n) : Good F (setCanvas v n).1 := by
  unfold setCanvas
  split <;> exact h.setKids (by simp)

theorem setValue_good {F : Fl} {c : VCls} {v : PV} (hv : LegalArg F v) {n : Node} (h : Good F n) :
    Good F (setValue F c v n).1 := by
  cases c with
  | real => exact setSimple_good (nameOk_dec (by decide)) (legal_fixed 10 0) realText_legal h
  | integer => exact setSimple_good (nameOk_dec (by decide)) (legal_intStr 0) integerText_legal h
  | bool => exact setSimple_good (nameOk_dec (by decide)) (boolStr_legal false) boolText_legal h
  | angle => exact setSimple_good (nameOk_dec (by decide)) (legal_reprF F 0) angleText_legal h
  | time => exact setSimple_good (nameOk_dec (by decide)) (legal_iff.2 (by decide)) timeText_legal h
  | string =>
    simp only [setValue]
    split
    · exact h
    · rename_i s hs; exact h.setString (toStr_legal hv hs)
  | color => exact setColor_good h
  | vector => exact setVector_good hv h
  | gradient => exact setGradient_good h
  | composite => exact setComposite_good hv h
  | canvas => exact setCanvas_good h
  | tbd s => exact h

theorem newValue_good {F : Fl} {c : VCls} {v : PV} (hv : LegalArg F v) {m : Node} (h : newValue F c v = .ok m) :
    Good F m := by
  cases c with
  | tbd s => cases h
  | composite =>
    refine construct_good (c := .composite) ?_ (fun n hn => setValue_good hv hn) h
    exact good_tag.2 ⟨nameOk_dec (by decide), attrsOk_one (nameOk_dec (by decide))
      (legal_attr_str (legal_iff.2 (by decide))), by simp⟩
  | _ => exact construct_good (good_new (nameOk_dec (by decide))) (fun n hn => setValue_good hv hn) h

/-- What `value.value` gives is legal. -/
theorem getValue_legal {F : Fl} {root : Option Attrs} {c : VCls} {n : Node} (h : Good F n) {v : PV}
    (hv : getValue F root c n = .ok v) : LegalArg F v := by
  cases c with
  | real | angle =>
    simp only [getValue] at hv
    split at hv
    · cases hv
    · cases hv; exact .float _
  | integer =>
    simp only [getValue] at hv
    split at hv
    · cases hv
    · cases hv; exact .int _
  | bool =>
    simp only [getValue] at hv
    split at hv
    · cases hv
    · cases hv; exact .bool _
  | time =>
    simp only [getValue] at hv
    split at hv
    · cases hv
    · cases hv; exact .t _
  | string => cases hv; exact .str (getString_legal h.1)
  | tbd s => cases hv
  | color =>
    simp only [getValue] at hv
    split at hv
    · cases hv
    · rename_i s hs
      cases hv
      rw [colorHex] at hs
      split at hs
      · cases hs
      · cases hs; exact .str (hexOf_legal F _)
  | vector =>
    cases hv
    refine .dict ?_ ?_
    · intro p hp
      obtain ⟨x, hx, rfl⟩ := List.mem_map.1 hp
      exact (vectorDict_legal h hx).1
    · intro p hp
      obtain ⟨x, hx, rfl⟩ := List.mem_map.1 hp
      simp only
      split
      · exact .none
      · rename_i s hs; exact .str ((vectorDict_legal h hx).2 s hs)
  | gradient =>
    simp only [getValue] at hv
    split at hv
    · cases hv
    rename_i l hl
    cases hv
    refine .stops ?_
    intro p hp
    obtain ⟨x, hx, rfl⟩ := List.mem_map.1 hp
    refine .val ?_
    simp only [gradientStops] at hl
    split at hl
    · cases hl
    · split at hl
      · cases hl
      · rename_i l' hl'
        cases hl
        rcases mem_foldl_dictSet hx with hx | hx
        · obtain ⟨y, hy, e⟩ := mapRes_mem hl' hx
          rw [stopOf] at e
          split at e
          · cases e
          · split at e
            · cases e
            · cases e
              exact h.descTags _ (List.mem_filter.1 hy).1
        · cases hx
  | composite =>
    simp only [getValue] at hv
    split at hv
    · cases hv
    rename_i l hl
    cases hv
    refine .dict ?_ ?_
    · intro p hp
      obtain ⟨x, hx, rfl⟩ := List.mem_map.1 hp
      exact (compositeDict_good h hl x hx).1
    · intro p hp
      obtain ⟨x, hx, rfl⟩ := List.mem_map.1 hp
      exact .val (compositeDict_good h hl x hx).2
  | canvas =>
    simp only [getValue] at hv
    split at hv
    · cases hv
    cases hv
    refine .tuple ?_
    intro p hp
    obtain ⟨x, hx, rfl⟩ := List.mem_map.1 hp
    exact .other

/-! ## Timelines -/

theorem lookup_mem_snd {κ α : Type} [BEq κ] {k : κ} {v : α} : ∀ {l : List (κ × α)}, l.lookup k = some v →
    ∃ p ∈ l, p.2 = v
  | [], h => by simp at h
  | (a, b) :: r, h => by
    rw [List.lookup_cons] at h
    split at h
    · cases h; exact ⟨_, List.mem_cons_self, rfl⟩
    · obtain ⟨p, hp, e⟩ := lookup_mem_snd h
      exact ⟨p, List.mem_cons_of_mem _ hp, e⟩

theorem checkInterp_legal {s t : Str} (h : checkInterp s = .ok t) : LegalText t := by
  have key : ∀ t ∈ interpolationTypes.map fun p => p.1.toList, t.all xmlChar = true := by decide
  have key' : ∀ p ∈ interpolationSynonyms.map fun p => (p.1.toList, p.2.toList), p.2.all xmlChar = true := by
    decide
  rw [checkInterp] at h
  split at h
  · cases h
  split at h
  · rename_i hs
    cases h
    exact legal_iff.2 (key s (List.contains_iff_mem.1 hs))
  split at h
  · rename_i hs
    cases h
    obtain ⟨p, hp, rfl⟩ := lookup_mem_snd hs
    exact legal_iff.2 (key' p hp)
  · cases h

theorem waypoint_new_legal {F : Fl} {root : Option Attrs} {time : TimeArg} {v : PV} {b a : Str} {w : Waypoint}
    (hv : LegalArg F v) (h : Waypoint.new F root time v b a = .ok w) : LegalWp F w := by
  cases hv with
  | @val c r n hn =>
    simp only [Waypoint.new] at h
    split at h
    · cases h
    split at h
    · cases h
    split at h
    · cases h
    rename_i hb
    split at h
    · cases h
    rename_i ha
    cases h
    exact ⟨checkInterp_legal hb, checkInterp_legal ha, hn⟩
  | _ => cases h

theorem waypoint_fromTag_legal {F : Fl} {root : Option Attrs} {ty : Str} {n : Node} (hn : Good F n) {w : Waypoint}
    (h : Waypoint.fromTag F root ty n = .ok w) : LegalWp F w := by
  simp only [Waypoint.fromTag] at h
  split at h
  · cases h
  split at h
  · cases h
  split at h
  · cases h
  split at h
  · rename_i v hk
    split at h
    · cases h
    split at h
    · cases h
    split at h
    · cases h
    split at h
    · cases h
    split at h
    · cases h
    split at h
    · cases h
    rename_i hb
    split at h
    · cases h
    rename_i ha
    cases h
    exact ⟨checkInterp_legal hb, checkInterp_legal ha, hn.tagKids _ (by rw [hk]; simp)⟩
  · cases h

theorem waypoint_tag_good {F : Fl} {w : Waypoint} (h : LegalWp F w) : Good F w.tag := by
  refine good_tag.2 ⟨nameOk_dec (by decide), ⟨by simp, ?_⟩, ?_⟩
  · intro p hp
    simp only [List.mem_cons, List.not_mem_nil, or_false] at hp
    rcases hp with rfl | rfl | rfl
    · exact ⟨nameOk_dec (s := "time") (by decide), legal_attr_t F _⟩
    · exact ⟨nameOk_dec (s := "before") (by decide), legal_attr_str h.1⟩
    · exact ⟨nameOk_dec (s := "after") (by decide), legal_attr_str h.2.1⟩
  · intro k hk
    rw [List.mem_singleton] at hk
    subst hk
    exact h.2.2.1

theorem mem_of_putWp {w x : Waypoint} : ∀ {l : List Waypoint}, x ∈ putWp w l → x = w ∨ x ∈ l
  | [], h => Or.inl (List.mem_singleton.1 h)
  | y :: r, h => by
    rw [putWp] at h
    split at h
    · rcases List.mem_cons.1 h with h | h
      · exact Or.inl h
      · exact Or.inr (List.mem_cons_of_mem _ h)
    · rcases List.mem_cons.1 h with rfl | h
      · exact Or.inr List.mem_cons_self
      · rcases mem_of_putWp h with h | h
        · exact Or.inl h
        · exact Or.inr (List.mem_cons_of_mem _ h)

theorem mem_foldl_putWp {x : Waypoint} : ∀ {l d : List Waypoint}, x ∈ l.foldl (fun d w => putWp w d) d →
    x ∈ l ∨ x ∈ d
  | [], d, h => Or.inr h
  | y :: r, d, h => by
    rw [List.foldl_cons] at h
    rcases mem_foldl_putWp h with h | h
    · exact Or.inl (List.mem_cons_of_mem _ h)
    · rcases mem_of_putWp h with rfl | h
      · exact Or.inl List.mem_cons_self
      · exact Or.inr h

theorem mem_delWp {t : T} {x : Waypoint} : ∀ {l r : List Waypoint}, delWp t l = .ok r → x ∈ r → x ∈ l
  | [], r, h, _ => by cases h
  | y :: l, r, h, hx => by
    rw [delWp] at h
    split at h
    · cases h; exact List.mem_cons_of_mem _ hx
    · split at h
      · cases h
      · rename_i r' hr'
        cases h
        rcases List.mem_cons.1 hx with rfl | hx
        · exact List.mem_cons_self
        · exact List.mem_cons_of_mem _ (mem_delWp hr' hx)

theorem mem_delClashes {x : Waypoint} : ∀ {ts : List T} {l r : List Waypoint}, delClashes ts l = .ok r → x ∈ r →
    x ∈ l
  | [], l, r, h, hx => by cases h; exact hx
  | t :: ts, l, r, h, hx => by
    rw [delClashes] at h
    split at h
    · cases h
    · rename_i l' hl'
      exact mem_delWp hl' (mem_delClashes h hx)

theorem waypoints_legal {F : Fl} {ctx : Ctx} {n : Node} (hn : Good F n) {ws : List Waypoint}
    (h : waypoints F ctx n = .ok ws) : ∀ w ∈ ws, LegalWp F w := by
  rw [waypoints] at h
  split at h
  · cases h; simp
  split at h
  · cases h
  split at h
  · cases h
  rename_i l hl
  cases h
  intro w hw
  rcases mem_foldl_putWp hw with hw | hw
  · obtain ⟨x, hx, e⟩ := mapRes_mem hl hw
    refine waypoint_fromTag_legal (hn.tagKids x ?_) e
    rw [waypointTags] at hx
    split at hx
    · cases hx
    · exact hx
  · cases hw

theorem startAnimation_good {F : Fl} {n : Node} (h : Good F n) : Good F (startAnimation n) := by
  rw [startAnimation]
  split
  · exact h
  · exact (h.setAttrs (attrsOk_one (nameOk_dec (by decide)) (legal_attr_str (nameOk_legal h.name)))).setName
      (nameOk_dec (by decide))

theorem unAnimate_good {F : Fl} {ctx : Ctx} {n : Node} (h : Good F n) : Good F (unAnimate F ctx n).1 := by
  rw [unAnimate]
  split
  · exact h
  split
  · exact h
  · exact h
  · rename_i w ws hw
    split
    · exact (waypoints_legal h hw w (by simp)).2.2
    · exact h.setKids (by simp)

theorem withNewlines_ok {F : Fl} : ∀ {l : List Node}, (∀ k ∈ l, k.XmlOk F) → ∀ k ∈ withNewlines l, k.XmlOk F
  | [], _, k, hk => by cases hk
  | [x], h, k, hk => h k hk
  | x :: y :: r, h, k, hk => by
    rw [withNewlines] at hk
    rcases List.mem_cons.1 hk with rfl | hk
    · exact h _ (by simp)
    rcases List.mem_cons.1 hk with rfl | hk
    · exact (by decide : (['\n'] : Str).all xmlChar = true)
    · exact withNewlines_ok (fun z hz => h z (List.mem_cons_of_mem _ hz)) k hk

theorem sorted_tags_ok {F : Fl} {ws : List Waypoint} (h : ∀ w ∈ ws, LegalWp F w) :
    ∀ k ∈ (sortWps ws).map Waypoint.tag, k.XmlOk F := by
  intro k hk
  obtain ⟨w, hw, rfl⟩ := List.mem_map.1 hk
  exact (waypoint_tag_good (h w ((List.perm_insertionSort _ ws).mem_iff.1 hw))).1

theorem setWaypoints_good {F : Fl} {ctx : Ctx} {ws : List Waypoint} (hw : ∀ w ∈ ws, LegalWp F w) {n : Node}
    (h : Good F n) : Good F (setWaypoints F ctx ws n).1 := by
  rw [setWaypoints]
  split
  · exact unAnimate_good h
  split
  · exact (startAnimation_good h).setKids (by simp)
  · exact (startAnimation_good h).setKids (withNewlines_ok (sorted_tags_ok hw))

/-- What may be assigned to a subscript of a timeline, without anything XML forbids. -/
def LegalSet (F : Fl) : SetArg → Prop
  | .wp w => LegalWp F w
  | .py v => LegalArg F v

theorem makeWp_legal {F : Fl} {ctx : Ctx} {c : VCls} {t : T} {v : SetArg} (hv : LegalSet F v) {w : Waypoint}
    (h : makeWp F ctx c t v = .ok w) : LegalWp F w := by
  cases v with
  | wp w' => cases h; exact hv
  | py v =>
    simp only [makeWp] at h
    split at h
    · cases h
    · rename_i value hval
      refine waypoint_new_legal ?_ h
      split at hval
      · split at hval
        · cases hval; exact hv
        · split at hval
          · cases hval
          · rename_i hm; cases hval; exact .val (newValue_good hv hm)
      · split at hval
        · cases hval
        · rename_i hm; cases hval; exact .val (newValue_good hv hm)

theorem setItem_good {F : Fl} {ctx : Ctx} {c : VCls} {t : TimeArg} {v : SetArg} (hv : LegalSet F v) {n : Node}
    (h : Good F n) : Good F (setItem F ctx c t v n).1 := by
  rw [setItem]
  split
  · exact h
  split
  · exact h
  rename_i w hw
  have hn : Good F (if n.name = "animated" then n else startAnimation (n.setKids [])) := by
    split
    · exact h
    · exact startAnimation_good (h.setKids (by simp))
  simp only
  split
  · exact hn
  rename_i ws hws
  split
  · exact hn
  · refine setWaypoints_good ?_ hn
    intro x hx
    rcases mem_of_putWp hx with rfl | hx
    · exact makeWp_legal hv hw
    · exact waypoints_legal hn hws x hx

theorem delItem_good {F : Fl} {ctx : Ctx} {t : TimeArg} {n : Node} (h : Good F n) :
    Good F (delItem F ctx t n).1 := by
  rw [delItem]
  split
  · exact h
  split
  · exact h
  rename_i ws hws
  split
  · exact h
  split
  · exact h
  split
  · exact h
  · rename_i hd
    exact setWaypoints_good (fun w hw => waypoints_legal h hws w (mem_delWp hd hw)) h

theorem animate_good {F : Fl} {ctx : Ctx} {c : VCls} {n : Node} (h : Good F n) : Good F (animate F ctx c n).1 := by
  rw [animate]
  split
  · exact h
  split
  · exact h
  · rename_i v hv
    exact setItem_good (v := .py v) (getValue_legal h hv) ((startAnimation_good h).setKids (by simp))

theorem setAnimated_good {F : Fl} {ctx : Ctx} {c : VCls} {b : Bool} {n : Node} (h : Good F n) :
    Good F (setAnimated F ctx c b n).1 := by
  rw [setAnimated]
  split
  · exact animate_good h
  · exact unAnimate_good h

theorem addWaypoints_good {F : Fl} {ctx : Ctx} {c : VCls} {new : List Waypoint} (hw : ∀ w ∈ new, LegalWp F w)
    {o : Bool} {n : Node} (h : Good F n) : Good F (addWaypoints F ctx c new o n).1 := by
  rw [addWaypoints]
  split
  · exact h
  rename_i existing hex
  split
  · exact h
  simp only
  split
  · exact h
  rename_i kept hk
  have ha := animate_good (ctx := ctx) (c := c) h
  split
  · rename_i e; rw [e] at ha; exact ha
  rename_i m e
  rw [e] at ha
  split
  · exact ha
  split
  · exact Spec.Good.setKids ha (by simp)
  · refine Spec.Good.setKids ha (sorted_tags_ok ?_)
    intro w hm
    rcases mem_foldl_putWp hm with hm | hm
    · rcases mem_foldl_putWp hm with hm | hm
      · exact hw w hm
      · cases hm
    · refine waypoints_legal h hex w ?_
      split at hk
      · exact mem_delClashes hk hm
      · split at hk
        · cases hk; exact hm
        · cases hk

theorem iaddWaypoints_good {F : Fl} {ctx : Ctx} {c : VCls} {new : List Waypoint} (hw : ∀ w ∈ new, LegalWp F w)
    {n : Node} (h : Good F n) : Good F (iaddWaypoints F ctx c new n).1 := by
  have := addWaypoints_good (ctx := ctx) (c := c) hw (o := true) h
  rw [iaddWaypoints]
  split <;> (rename_i e; rw [e] at this; exact this)

/-! ## Layers -/

mutual
theorem updNode_good {F : Fl} {p : Node → Bool} {g : Node → Node} (hg : ∀ x, Good F x → Good F (g x)) :
    ∀ {n m : Node}, n.XmlOk F → updNode p g n = some m → Good F m
  | .text s, m, _, h => by cases h
  | .tag n a ks, m, hn, h => by
    rw [updNode] at h
    split at h
    · cases h; exact hg _ ⟨hn, rfl⟩
    · obtain ⟨ks', hk, rfl⟩ := Option.map_eq_some_iff.1 h
      exact ⟨⟨hn.1, hn.2.1, updKids_good hg hn.2.2 hk⟩, rfl⟩

theorem updKids_good {F : Fl} {p : Node → Bool} {g : Node → Node} (hg : ∀ x, Good F x → Good F (g x)) :
    ∀ {ks ks' : List Node}, Node.XmlOkKids F ks → updKids p g ks = some ks' → Node.XmlOkKids F ks'
  | [], _, _, h => by cases h
  | x :: r, ks', hk, h => by
    rw [updKids] at h
    split at h
    · rename_i y hy
      cases h
      exact ⟨(updNode_good hg hk.1 hy).1, hk.2⟩
    · obtain ⟨r', hr, rfl⟩ := Option.map_eq_some_iff.1 h
      exact ⟨hk.1, updKids_good hg hk.2 hr⟩
end

theorem updFirst_good {F : Fl} {p : Node → Bool} {g : Node → Node} (hg : ∀ x, Good F x → Good F (g x)) {n : Node}
    (h : Good F n) : Good F (updFirst p g n) := by
  obtain ⟨m, a, ks, rfl⟩ := h.cases
  rw [updFirst]
  cases e : updKids p g ks with
  | none => exact h
  | some ks' => exact ⟨⟨h.1.1, h.1.2.1, updKids_good hg h.1.2.2 e⟩, rfl⟩

theorem replaceValue_good {F : Fl} {v : Node} (hv : Good F v) {p : Node} (h : Good F p) :
    Good F (replaceValue v p) := by
  refine h.setKids ?_
  intro k hk
  obtain ⟨x, hx, rfl⟩ := List.mem_map.1 hk
  split
  · exact hv.1
  · exact h.kids x hx

theorem findParam_good {F : Fl} {f : Str} {n p : Node} (h : Good F n) (hp : findParam f n = some p) : Good F p :=
  h.descTags p (List.mem_filter.1 (List.mem_of_head? hp)).1

theorem newItem_good {F : Fl} {c : VCls} {v : PV} (hv : LegalArg F v) {m : Node} (h : newItem F c v = .ok m) :
    Good F m := by
  simp only [newItem] at h
  split at h
  · split at h
    · cases h; cases hv with | val h => exact h
    · cases h
  · exact newValue_good hv h

theorem setParam_good {F : Fl} {f : Str} {v : PV} (hv : LegalArg F v) {n : Node} (h : Good F n) :
    Good F (setParam F f v n).1 := by
  rw [setParam]
  split
  · exact h
  split
  · exact h
  split
  · exact h
  · rename_i hm
    exact updFirst_good (fun x hx => replaceValue_good (newItem_good hv hm) hx) h

theorem fieldValue_good {F : Fl} {k : String} {n : Node} (h : Good F n) {c : VCls} {m : Node}
    (hm : fieldValue k n = .ok (c, m)) : Good F m := by
  rw [fieldValue] at hm
  split at hm
  · cases hm
  rename_i p hp
  split at hm
  · rename_i v hk
    split at hm
    · cases hm
    · cases hm
      exact (findParam_good h hp).tagKids _ (by rw [hk]; simp)
  · cases hm

theorem setField_good {F : Fl} {k : String} {f : LField} {v : PV} (hv : LegalArg F v) {n : Node} (h : Good F n) :
    Good F (setField F k f v n).1 := by
  unfold setField
  split
  · exact h
  split
  · exact h
  · rename_i hm
    exact updFirst_good (fun x hx => replaceValue_good (setValue_good hv (fieldValue_good h hm)) hx) h

theorem setBoolAttr_good {F : Fl} {k : String} (hk : NameOk k) {v : PV} {n : Node} (h : Good F n) :
    Good F (setBoolAttr F k v n).1 := by
  rw [setBoolAttr]
  split
  · exact h
  · exact h.setAttr hk (legal_attr_str (boolStr_legal _))

theorem setDesc_good {F : Fl} {v : PV} (hv : LegalArg F v) {n : Node} (h : Good F n) : Good F (setDesc F v n).1 := by
  rw [setDesc]
  split
  · exact h.delAttr _
  split
  · exact h
  · rename_i s hs
    exact h.setAttr (nameOk_dec (by decide)) (legal_attr_str (toStr_legal hv hs))

theorem setVersion_good {F : Fl} {v : PV} {n : Node} (h : Good F n) : Good F (setVersion F v n).1 := by
  rw [setVersion]
  split
  · exact h
  · exact h.setAttr (nameOk_dec (by decide)) (legal_iff.1 (legal_reprF F _))

/-! ## Groups and animations -/

theorem putFirst_ok {F : Fl} {x : Node} (hx : x.XmlOk F) {ks : List Node} (h : ∀ k ∈ ks, k.XmlOk F) :
    ∀ k ∈ putFirst x ks, k.XmlOk F := by
  intro k hk
  rw [putFirst] at hk
  split at hk
  · rcases List.mem_append.1 hk with hk | hk
    · exact h k ((List.takeWhile_sublist _).mem hk)
    · rcases List.mem_cons.1 hk with rfl | hk
      · exact hx
      · exact h k ((List.dropWhile_sublist _).mem hk)
  · rcases List.mem_append.1 hk with hk | hk
    · exact h k hk
    · rw [List.mem_singleton] at hk; subst hk; exact hx

theorem putAfter_ok {F : Fl} {xs : List Node} (hx : ∀ x ∈ xs, x.XmlOk F) : ∀ {j : ℕ} {ks : List Node},
    (∀ k ∈ ks, k.XmlOk F) → ∀ k ∈ putAfter xs j ks, k.XmlOk F
  | _, [], _, k, hk => by simp [putAfter] at hk
  | 0, y :: r, h, k, hk => by
    rw [putAfter] at hk
    split at hk
    · rcases List.mem_cons.1 hk with rfl | hk
      · exact h _ (by simp)
      · rcases List.mem_append.1 hk with hk | hk
        · exact hx k hk
        · exact h k (List.mem_cons_of_mem _ hk)
    · rcases List.mem_cons.1 hk with rfl | hk
      · exact h _ (by simp)
      · exact putAfter_ok hx (fun z hz => h z (List.mem_cons_of_mem _ hz)) k hk
  | j + 1, y :: r, h, k, hk => by
    rw [putAfter] at hk
    split at hk
    all_goals
      rcases List.mem_cons.1 hk with rfl | hk
      · exact h _ (by simp)
      · exact putAfter_ok hx (fun z hz => h z (List.mem_cons_of_mem _ hz)) k hk

theorem updCanvas_good {F : Fl} {k : GKind} {g : List Node → List Node}
    (hg : ∀ ks, (∀ x ∈ ks, x.XmlOk F) → ∀ x ∈ g ks, x.XmlOk F) {n : Node} (h : Good F n) :
    Good F (updCanvas k g n) := by
  cases k with
  | animation => exact h.setKids (hg _ h.kids)
  | group =>
    exact updFirst_good (fun x hx => updFirst_good (fun y hy => hy.setKids (hg _ hy.kids)) hx) h

theorem groupAppend_good {F : Fl} {k : GKind} {x : LArg} (hx : ∀ y, x = .layer y → Good F y) {n : Node}
    (h : Good F n) : Good F (groupAppend k x n).1 := by
  cases x with
  | other => exact h
  | layer y =>
    simp only [groupAppend]
    split
    · exact h
    · exact updCanvas_good (fun ks hk => putFirst_ok (hx y rfl).1 hk) h

theorem groupInsert_good {F : Fl} {k : GKind} {i : ℤ} {x : LArg} (hx : ∀ y, x = .layer y → Good F y) {n : Node}
    (h : Good F n) : Good F (groupInsert k i x n).1 := by
  cases x with
  | other => exact h
  | layer y =>
    simp only [groupInsert]
    split
    · exact h
    split
    · exact h
    · refine updCanvas_good (fun ks hk => putAfter_ok ?_ hk) h
      intro z hz
      simp only [List.mem_cons, List.not_mem_nil, or_false] at hz
      rcases hz with rfl | rfl | rfl
      · exact (by decide : (['\n'] : Str).all xmlChar = true)
      · exact (hx _ rfl).1
      · exact (by decide : (['\n'] : Str).all xmlChar = true)

theorem setHeader_good {F : Fl} {f : HField} (hf : NameOk f.name) {v : PV} (hv : LegalArg F v) {n : Node}
    (h : Good F n) : Good F (setHeader F f v n).1 := by
  rw [setHeader]
  split
  · exact h
  · rename_i a ha
    refine h.setAttr hf ?_
    cases hty : f.type <;> rw [hty] at ha <;> simp only [HType.write] at ha
    all_goals split at ha
    all_goals first | (cases ha; done) | skip
    · cases ha; exact legal_iff.1 (legal_reprF F _)
    · cases ha; exact legal_iff.1 (legal_intStr _)
    · rename_i s hs; cases ha; exact legal_attr_str (toStr_legal hv hs)

theorem setEndTime_good {F : Fl} {v : PV} (hv : LegalArg F v) {n : Node} (h : Good F n) :
    Good F (setEndTime F v n).1 := by
  rw [setEndTime]
  split
  · exact h
  · rename_i s hs
    exact h.setAttr (nameOk_dec (by decide)) (legal_attr_str (toStr_legal hv hs))

theorem setAnimDesc_good {F : Fl} {s : Str} (hs : LegalText s) {n : Node} (h : Good F n) :
    Good F (setAnimDesc s n).1 := by
  rw [setAnimDesc]
  split
  · exact h
  · exact updFirst_good (fun x hx => hx.setString hs) h

/-! ## Histories -/

theorem headerFields_nameOk : ∀ f ∈ headerFields, NameOk f.name := by
  have : ∀ s ∈ headerFields.map HField.name, (!s.toList.isEmpty && s.toList.all nameChar) = true := by decide
  exact fun f hf => nameOk_dec (this _ (List.mem_map.2 ⟨f, hf, rfl⟩))

theorem requiredKeys_nameOk : ∀ s ∈ requiredKeys.map Prod.fst, NameOk s := by
  have : ∀ s ∈ requiredKeys.map Prod.fst, (!s.toList.isEmpty && s.toList.all nameChar) = true := by decide
  exact fun s hs => nameOk_dec (this s hs)

theorem change_good {F : Fl} {c : Change} (hc : c.Legal F) {n : Node} (h : Good F n) : Good F (c.run F n).1 := by
  cases c with
  | value c v => exact setValue_good hc h
  | animated ctx c b => exact setAnimated_good h
  | setItem ctx c t v => cases v with
    | wp w => exact setItem_good (c := c) (v := .wp w) hc h
    | py v => exact setItem_good (v := .py v) hc h
  | delItem ctx t => exact delItem_good h
  | add ctx c ws o => exact addWaypoints_good hc h
  | iadd ctx c ws => exact iaddWaypoints_good hc h
  | timeline ctx v => cases v with
    | list ws => exact setWaypoints_good hc h
    | mixed e => exact (startAnimation_good h).setKids (by simp)
    | ofValue ctx' m =>
      simp only [Change.run, setTimeline]
      split
      · exact h
      · rename_i ws hws; exact setWaypoints_good (waypoints_legal hc hws) h
    | own => exact h
    | other => exact h
  | param f v => exact setParam_good hc h
  | field k f v => exact setField_good hc h
  | shortcut key v =>
    refine setField_good (.dict ?_ ?_) h
    · intro p hp
      rw [List.mem_singleton] at hp
      subst hp
      exact requiredKeys_nameOk key hc.1
    · intro p hp
      rw [List.mem_singleton] at hp
      subst hp
      exact hc.2
  | desc v => exact setDesc_good hc h
  | active v => exact setBoolAttr_good (nameOk_dec (by decide)) h
  | exclude v => exact setBoolAttr_good (nameOk_dec (by decide)) h
  | version v => exact setVersion_good h
  | append k x => exact groupAppend_good (by rintro y rfl; exact hc) h
  | insert k i x => exact groupInsert_good (by rintro y rfl; exact hc) h
  | lose i => exact h.setKids fun k hk => h.kids k (List.mem_of_mem_eraseIdx hk)
  | header f v => exact setHeader_good (headerFields_nameOk f hc.1) hc.2 h
  | endTime v => exact setEndTime_good hc h
  | animDesc s => exact setAnimDesc_good hc h

theorem modify_ok {F : Fl} {g : Node → Node} (hg : ∀ x : Node, x.XmlOk F → (g x).XmlOk F) : ∀ {i : ℕ} {ks : List Node},
    (∀ k ∈ ks, k.XmlOk F) → ∀ k ∈ ks.modify i g, k.XmlOk F
  | _, [], _, k, hk => by simp at hk
  | 0, x :: r, h, k, hk => by
    rw [List.modify_zero_cons] at hk
    rcases List.mem_cons.1 hk with rfl | hk
    · exact hg _ (h _ (by simp))
    · exact h k (List.mem_cons_of_mem _ hk)
  | i + 1, x :: r, h, k, hk => by
    rw [List.modify_succ_cons] at hk
    rcases List.mem_cons.1 hk with rfl | hk
    · exact h _ (by simp)
    · exact modify_ok hg (fun z hz => h z (List.mem_cons_of_mem _ hz)) k hk

theorem changeAt_ok {F : Fl} {g : Node → Node} (hg : ∀ x, Good F x → Good F (g x)) : ∀ (p : List ℕ) {d : Node},
    d.XmlOk F → (changeAt g p d).XmlOk F ∧ (changeAt g p d).isTag = d.isTag
  | [], .text s, h => ⟨h, rfl⟩
  | _ :: _, .text s, h => ⟨h, rfl⟩
  | [], .tag n a ks, h => by
    have := hg (.tag n a ks) ⟨h, rfl⟩
    exact ⟨this.1, this.2⟩
  | i :: p, .tag n a ks, h => by
    refine ⟨⟨h.1, h.2.1, xmlOkKids_iff.2 ?_⟩, rfl⟩
    exact modify_ok (fun x hx => (changeAt_ok hg p hx).1) (xmlOkKids_iff.1 h.2.2)

theorem becomes_good {F : Fl} {d e : Node} (hd : Good F d) (h : Becomes F d e) : Good F e := by
  induction h with
  | refl => exact hd
  | step h c hc p ih =>
    have := changeAt_ok (fun x hx => change_good hc hx) p ih.1
    exact ⟨this.1, this.2.trans ih.2⟩

end Sang
