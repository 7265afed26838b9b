import Verif.Lemmas.XmlText
import Verif.Props.Simple
import Verif.Spec.XmlText
import Mathlib.Data.List.Chain

/-!
# Lemmas: what the parser makes
-/

namespace Sang

/-- Values of attributes as they are read. -/
def TidyVal (v : Str) : Prop := v.all xmlChar = true ∧ '\r' ∉ v ∧ '\n' ∉ v ∧ '\t' ∉ v

/-- Attributes as they are read. -/
def TidyAttrs (a : Attrs) : Prop :=
  (a.map Prod.fst).Nodup ∧ ∀ p ∈ a, NameOk p.1 ∧ ∃ v, p.2 = .str v ∧ TidyVal v

/-- No two pieces of text next to each other. -/
def NoAdj (ks : List Node) : Prop := ks.IsChain fun x y => x.isTag = true ∨ y.isTag = true

mutual
/-- A document as it is read. -/
def Node.Tidy : Node → Prop
  | .text s => KeptText s ∧ s.all xmlChar = true
  | .tag n a ks => NameOk n ∧ TidyAttrs a ∧ NoAdj ks ∧ Node.TidyAll ks

/-- Its children. -/
def Node.TidyAll : List Node → Prop
  | [] => True
  | x :: r => x.Tidy ∧ Node.TidyAll r
end

/-! What is read may hold more than that, if there are character references in it (`b` says that there are none). -/

/-- Values of attributes. -/
def ReadVal (b : Bool) (v : Str) : Prop := v.all xmlChar = true ∧ (b = true → '\r' ∉ v ∧ '\n' ∉ v ∧ '\t' ∉ v)

/-- Attributes. -/
def ReadAttrs (b : Bool) (a : Attrs) : Prop :=
  (a.map Prod.fst).Nodup ∧ ∀ p ∈ a, NameOk p.1 ∧ ∃ v, p.2 = .str v ∧ ReadVal b v

mutual
/-- A document. -/
def Node.Read (b : Bool) : Node → Prop
  | .text s => s ≠ [] ∧ (b = true → '\r' ∉ s) ∧ (s.all asciiSpace = true → s = [' '] ∨ s = ['\n']) ∧ s.all xmlChar = true
  | .tag n a ks => NameOk n ∧ ReadAttrs b a ∧ NoAdj ks ∧ Node.ReadAll b ks

/-- Its children. -/
def Node.ReadAll (b : Bool) : List Node → Prop
  | [] => True
  | x :: r => x.Read b ∧ Node.ReadAll b r
end

mutual
theorem Node.Read.tidy : ∀ {x : Node}, x.Read true → x.Tidy
  | .text _, h => ⟨⟨h.1, h.2.1 rfl, h.2.2.1⟩, h.2.2.2⟩
  | .tag _ _ _, h => ⟨h.1, ⟨h.2.1.1, fun p hp => by
      obtain ⟨h1, v, h2, h3⟩ := h.2.1.2 p hp
      exact ⟨h1, v, h2, h3.1, h3.2 rfl⟩⟩, h.2.2.1, Node.ReadAll.tidy h.2.2.2⟩

theorem Node.ReadAll.tidy : ∀ {ks : List Node}, Node.ReadAll true ks → Node.TidyAll ks
  | [], _ => trivial
  | _ :: _, h => ⟨Node.Read.tidy h.1, Node.ReadAll.tidy h.2⟩
end

mutual
theorem Node.Read.direct {b : Bool} : ∀ {x : Node}, x.Read b → Spec.Direct x → x.Read true
  | .text _, h, hd => ⟨h.1, fun _ => hd, h.2.2.1, h.2.2.2⟩
  | .tag _ _ _, h, hd => ⟨h.1, ⟨h.2.1.1, fun p hp => by
      obtain ⟨k, w⟩ := p
      obtain ⟨h1, v, h2, h3⟩ := h.2.1.2 _ hp
      simp only at h2
      subst h2
      obtain ⟨c1, c2, c3⟩ := hd.1 k v hp
      exact ⟨h1, v, rfl, h3.1, fun _ => ⟨c3, c2, c1⟩⟩⟩, h.2.2.1, Node.ReadAll.direct h.2.2.2 hd.2⟩

theorem Node.ReadAll.direct {b : Bool} : ∀ {ks : List Node}, Node.ReadAll b ks → Spec.DirectAll ks → Node.ReadAll true ks
  | [], _, _ => trivial
  | _ :: _, h, hd => ⟨Node.Read.direct h.1 hd.1, Node.ReadAll.direct h.2 hd.2⟩
end

mutual
theorem Node.Tidy.direct : ∀ {x : Node}, x.Tidy → Spec.Direct x
  | .text _, h => h.1.2.1
  | .tag _ _ _, h => ⟨fun k v hp => by
      obtain ⟨-, w, h2, h3⟩ := h.2.1.2 _ hp
      injection h2 with h2
      subst h2
      exact ⟨h3.2.2.2, h3.2.2.1, h3.2.1⟩, Node.TidyAll.direct h.2.2.2⟩

theorem Node.TidyAll.direct : ∀ {ks : List Node}, Node.TidyAll ks → Spec.DirectAll ks
  | [], _ => trivial
  | _ :: _, h => ⟨Node.Tidy.direct h.1, Node.TidyAll.direct h.2⟩
end

mutual
theorem Node.Read.xmlOk {b : Bool} (F : Fl) : ∀ {x : Node}, x.Read b → x.XmlOk F
  | .text s, h => h.2.2.2
  | .tag n a ks, h => ⟨h.1, ⟨h.2.1.1, fun p hp => by
      obtain ⟨h1, v, hv, h2⟩ := h.2.1.2 p hp
      refine ⟨h1, ?_⟩
      rw [hv]; exact h2.1⟩, Node.ReadAll.xmlOk F h.2.2.2⟩

theorem Node.ReadAll.xmlOk {b : Bool} (F : Fl) : ∀ {ks : List Node}, Node.ReadAll b ks → Node.XmlOkKids F ks
  | [], _ => trivial
  | _ :: _, h => ⟨Node.Read.xmlOk F h.1, Node.ReadAll.xmlOk F h.2⟩
end

theorem readAll_append {b : Bool} {ks ls : List Node} :
    Node.ReadAll b (ks ++ ls) ↔ Node.ReadAll b ks ∧ Node.ReadAll b ls := by
  induction ks with
  | nil => simp [Node.ReadAll]
  | cons x ks ih => simp [Node.ReadAll, ih, and_assoc]

/-- The last child, if any, is an element. -/
def EndsTag (ks : List Node) : Prop := ∀ x, ks.getLast? = some x → x.isTag = true

theorem noAdj_append {a b : List Node} (ha : NoAdj a) (hb : NoAdj b)
    (h : EndsTag a ∨ ∀ y, b.head? = some y → y.isTag = true) : NoAdj (a ++ b) := by
  rw [NoAdj, List.isChain_append]
  refine ⟨ha, hb, fun x hx y hy => ?_⟩
  rcases h with h | h
  · exact .inl (h x hx)
  · exact .inr (h y hy)

theorem textRun_read {b : Bool} {s : Str} (h : s.all xmlChar = true) (hr : b = true → '\r' ∉ s) :
    Node.ReadAll b (textRun s) ∧ NoAdj (textRun s) := by
  unfold textRun
  split
  · exact ⟨trivial, List.isChain_nil⟩
  · rename_i hne
    split
    · refine ⟨⟨?_, trivial⟩, List.isChain_singleton _⟩
      split
      · exact ⟨by decide, fun _ => by decide, fun _ => .inr rfl, by decide⟩
      · exact ⟨by decide, fun _ => by decide, fun _ => .inl rfl, by decide⟩
    · rename_i hsp
      exact ⟨⟨⟨hne, hr, fun h => absurd h hsp, h⟩, trivial⟩, List.isChain_singleton _⟩

/-- An open element so far. -/
def FrameOk (b : Bool) (f : String × Attrs × List Node) : Prop :=
  NameOk f.1 ∧ ReadAttrs b f.2.1 ∧ NoAdj f.2.2 ∧ Node.ReadAll b f.2.2

/-- A name so far. -/
def NameSoFar (s : Str) : Prop := s ≠ [] ∧ s.all nameChar = true

/-- The state fits. -/
def StOk (b : Bool) : XSt → Prop
  | .textRef r => b = true → r.head? ≠ some '#'
  | .openName n => NameSoFar n
  | .inTag n as | .afterVal n as | .slash n as => NameSoFar n ∧ ReadAttrs b as
  | .attrName n as k | .attrEq n as k | .attrQ n as k => NameSoFar n ∧ ReadAttrs b as ∧ NameSoFar k
  | .attrVal n as k _ v => NameSoFar n ∧ ReadAttrs b as ∧ NameSoFar k ∧ ReadVal b v
  | .attrRef n as k _ v r =>
    NameSoFar n ∧ ReadAttrs b as ∧ NameSoFar k ∧ ReadVal b v ∧ (b = true → r.head? ≠ some '#')
  | _ => True

/-- In character data. -/
def InText : XSt → Prop
  | .text | .textRef _ => True
  | _ => False

/-- What holds all through parsing. -/
structure XInv (b : Bool) (m : XMach) : Prop where
  frames : ∀ f ∈ m.stack, FrameOk b f
  root : ∀ x, m.root = some x → x.Read b ∧ x.isTag = true
  data : m.data.all xmlChar = true ∧ (b = true → '\r' ∉ m.data)
  top : InText m.st → ∀ f, m.stack.head? = some f → EndsTag f.2.2
  st : StOk b m.st

theorem NameSoFar.ok {s : Str} (h : NameSoFar s) : NameOk (String.ofList s) := by
  rw [NameOk, String.toList_ofList]; exact h

theorem NameSoFar.snoc {s : Str} {c : Char} (h : s.all nameChar = true) (hc : nameChar c = true) :
    NameSoFar (s ++ [c]) := ⟨by simp, by rw [List.all_append, h]; simp [hc]⟩

theorem readAttrs_nil {b : Bool} : ReadAttrs b [] := ⟨List.nodup_nil, by simp⟩

theorem xmlCharOf_ok {n : ℕ} {d : Char} (h : xmlCharOf n = some d) : xmlChar d = true := by
  unfold xmlCharOf at h
  split at h
  · rename_i hc
    injection h with h; subst h; exact hc.2
  · cases h

theorem charRef_ok {r : Str} {d : Char} (h : charRef r = some d) : xmlChar d = true ∧ r.head? = some '#' := by
  unfold charRef at h
  split at h
  · split at h
    · cases h
    · obtain ⟨n, -, hn⟩ := Option.bind_eq_some_iff.1 h
      exact ⟨xmlCharOf_ok hn, rfl⟩
  · split at h
    · exact ⟨xmlCharOf_ok h, rfl⟩
    · cases h
  · cases h

theorem xmlEntity_ok {r : Str} {d : Char} (h : xmlEntity r = some d) :
    xmlChar d = true ∧ (r.head? ≠ some '#' → d ≠ '\r' ∧ d ≠ '\n' ∧ d ≠ '\t') := by
  unfold xmlEntity at h
  iterate 5
    split at h
    · injection h with h; subst h; exact ⟨by decide, fun _ => by decide⟩
  exact ⟨(charRef_ok h).1, fun hn => absurd (charRef_ok h).2 hn⟩

theorem head_snoc {r : Str} {c : Char} (h : r.head? ≠ some '#') (hc : r = [] → c ≠ '#') : (r ++ [c]).head? ≠ some '#' := by
  cases r with
  | nil => simpa using hc rfl
  | cons => simpa using h

theorem place_inv {b : Bool} {m m' : XMach} {x : Node} (hf : ∀ f ∈ m.stack, FrameOk b f)
    (hr : ∀ x, m.root = some x → x.Read b ∧ x.isTag = true)
    (hd : m.data.all xmlChar = true ∧ (b = true → '\r' ∉ m.data)) (hx : x.Read b) (ht : x.isTag = true)
    (h : m.place x = .ok m') : XInv b m' := by
  obtain ⟨stk, d, st, root⟩ := m
  unfold XMach.place at h
  cases stk with
  | nil =>
    cases root with
    | some => cases h
    | none =>
      injection h with h; subst h
      exact ⟨by simp, by rintro y ⟨⟩; exact ⟨hx, ht⟩, hd, by simp, trivial⟩
  | cons f stk =>
    obtain ⟨n, a, ks⟩ := f
    injection h with h; subst h
    have hf0 := hf _ List.mem_cons_self
    refine ⟨?_, hr, hd, ?_, trivial⟩
    · rintro f hfm
      rcases List.mem_cons.mp hfm with rfl | hfm
      · exact ⟨hf0.1, hf0.2.1, noAdj_append hf0.2.2.1 (List.isChain_singleton _)
          (.inr (by rintro y ⟨⟩; exact ht)), readAll_append.mpr ⟨hf0.2.2.2, hx, trivial⟩⟩
      · exact hf f (List.mem_cons_of_mem _ hfm)
    · rintro - f ⟨⟩ y hy
      simp only [List.getLast?_append, List.getLast?_singleton, Option.some_or] at hy
      injection hy with hy; subst hy; exact ht

theorem close_inv {b : Bool} {m m' : XMach} {n : Str} (hf : ∀ f ∈ m.stack, FrameOk b f)
    (hr : ∀ x, m.root = some x → x.Read b ∧ x.isTag = true)
    (hd : m.data.all xmlChar = true ∧ (b = true → '\r' ∉ m.data)) (h : m.close n = .ok m') : XInv b m' := by
  obtain ⟨stk, d, st, root⟩ := m
  unfold XMach.close at h
  cases stk with
  | nil => cases h
  | cons f stk =>
    obtain ⟨n', a, ks⟩ := f
    simp only at h
    split at h
    · refine place_inv (m := ⟨stk, d, st, root⟩) (fun f hfm => hf f (List.mem_cons_of_mem _ hfm)) hr hd ?_ rfl h
      exact hf _ List.mem_cons_self
    · cases h

theorem tagChar_inv {b : Bool} {m m' : XMach} {n as c} (h : XInv b m) (hn : NameSoFar n) (ha : ReadAttrs b as)
    (hs : m.tagChar n as c = .ok m') : XInv b m' := by
  unfold XMach.tagChar at hs
  split at hs
  · injection hs with hs; subst hs
    exact ⟨h.frames, h.root, h.data, fun h => h.elim, hn, ha⟩
  split at hs
  · injection hs with hs; subst hs
    exact ⟨h.frames, h.root, h.data, fun h => h.elim, hn, ha⟩
  split at hs
  · injection hs with hs; subst hs
    refine ⟨?_, h.root, h.data, ?_, trivial⟩
    · intro f hf
      rcases List.mem_cons.mp hf with rfl | hf
      · exact ⟨hn.ok, ha, List.isChain_nil, trivial⟩
      · exact h.frames f hf
    · rintro - f ⟨⟩ y hy
      cases hy
  · cases hs

theorem readVal_snoc {b : Bool} {v : Str} {c : Char} (h : ReadVal b v) (hc : xmlChar c = true)
    (h1 : b = true → c ≠ '\r' ∧ c ≠ '\n' ∧ c ≠ '\t') : ReadVal b (v ++ [c]) := by
  refine ⟨by rw [List.all_append, h.1]; simp [hc], fun hb => ?_⟩
  obtain ⟨a, b, d⟩ := h.2 hb
  obtain ⟨h1, h2, h3⟩ := h1 hb
  refine ⟨?_, ?_, ?_⟩ <;> simp [*, Ne.symm h1, Ne.symm h2, Ne.symm h3]

/-- Just after `&`. -/
def AfterAmp : XSt → Prop
  | .textRef r | .attrRef _ _ _ _ _ r => r = []
  | _ => False

theorem step_inv {b : Bool} {m m' : XMach} {c : Char} (hc : c ≠ '\r') (hn : b = true → AfterAmp m.st → c ≠ '#')
    (h : XInv b m) (hs : m.step c = .ok m') : XInv b m' := by
  obtain ⟨stk, d, st, root⟩ := m
  obtain ⟨hf, hr, hd, htop, hst⟩ := h
  have hI : XInv b ⟨stk, d, st, root⟩ := ⟨hf, hr, hd, htop, hst⟩
  simp only at hf hr hd htop hst hn
  have hdata : ∀ x : Char, xmlChar x = true → (b = true → x ≠ '\r') →
      (d ++ [x]).all xmlChar = true ∧ (b = true → '\r' ∉ d ++ [x]) := fun x hx hr =>
    ⟨by rw [List.all_append, hd.1]; simp [hx], fun hb => by simp [hd.2 hb, Ne.symm (hr hb)]⟩
  cases st with
  | text =>
    simp only [XMach.step] at hs
    split at hs
    · cases stk with
      | nil =>
        simp only [XMach.flush] at hs
        by_cases hsp : d.all xmlSpace = true
        · rw [if_pos hsp] at hs
          injection hs with hs; subst hs
          exact ⟨by simp, hr, ⟨rfl, fun _ => by simp⟩, fun h => h.elim, trivial⟩
        · rw [if_neg hsp] at hs; cases hs
      | cons f stk =>
        obtain ⟨n, a, ks⟩ := f
        simp only [XMach.flush] at hs
        injection hs with hs; subst hs
        have hf0 := hf _ List.mem_cons_self
        have ht := textRun_read hd.1 hd.2
        refine ⟨?_, hr, ⟨rfl, fun _ => by simp⟩, fun h => h.elim, trivial⟩
        intro f hfm
        rcases List.mem_cons.mp hfm with rfl | hfm
        · exact ⟨hf0.1, hf0.2.1, noAdj_append hf0.2.2.1 ht.2 (.inl (htop trivial _ rfl)),
            readAll_append.mpr ⟨hf0.2.2.2, ht.1⟩⟩
        · exact hf f (List.mem_cons_of_mem _ hfm)
    split at hs
    · injection hs with hs; subst hs
      exact ⟨hf, hr, hd, fun _ => htop trivial, fun _ => by simp⟩
    split at hs
    · injection hs with hs; subst hs
      exact ⟨hf, hr, hdata c ‹_› (fun _ => hc), fun _ => htop trivial, trivial⟩
    · cases hs
  | textRef r =>
    simp only [XMach.step] at hs
    split at hs
    · split at hs
      · rename_i x hx
        injection hs with hs; subst hs
        exact ⟨hf, hr, hdata x (xmlEntity_ok hx).1 fun hb => ((xmlEntity_ok hx).2 (hst hb)).1,
          fun _ => htop trivial, trivial⟩
      · cases hs
    · injection hs with hs; subst hs
      exact ⟨hf, hr, hd, fun _ => htop trivial, fun hb => head_snoc (hst hb) (hn hb)⟩
  | lt =>
    simp only [XMach.step] at hs
    split at hs
    · injection hs with hs; subst hs
      exact ⟨hf, hr, hd, fun h => h.elim, trivial⟩
    split at hs
    · injection hs with hs; subst hs
      exact ⟨hf, hr, hd, fun h => h.elim, by simp, by simpa using ‹nameChar c = true›⟩
    split at hs <;> cases hs
  | openName n =>
    simp only [XMach.step] at hs
    split at hs
    · injection hs with hs; subst hs
      exact ⟨hf, hr, hd, fun h => h.elim, NameSoFar.snoc hst.2 ‹_›⟩
    · exact tagChar_inv hI hst readAttrs_nil hs
  | inTag n as =>
    simp only [XMach.step] at hs
    split at hs
    · injection hs with hs; subst hs
      exact ⟨hf, hr, hd, fun h => h.elim, hst.1, hst.2, by simp, by simpa using ‹nameChar c = true›⟩
    · exact tagChar_inv hI hst.1 hst.2 hs
  | attrName n as k =>
    simp only [XMach.step] at hs
    split at hs
    · injection hs with hs; subst hs
      exact ⟨hf, hr, hd, fun h => h.elim, hst⟩
    split at hs
    · injection hs with hs; subst hs
      exact ⟨hf, hr, hd, fun h => h.elim, hst.1, hst.2.1, NameSoFar.snoc hst.2.2.2 ‹_›⟩
    split at hs
    · injection hs with hs; subst hs
      exact ⟨hf, hr, hd, fun h => h.elim, hst⟩
    · cases hs
  | attrEq n as k =>
    simp only [XMach.step] at hs
    split at hs
    · injection hs with hs; subst hs
      exact ⟨hf, hr, hd, fun h => h.elim, hst⟩
    split at hs
    · injection hs with hs; subst hs
      exact hI
    · cases hs
  | attrQ n as k =>
    simp only [XMach.step] at hs
    split at hs
    · injection hs with hs; subst hs
      exact ⟨hf, hr, hd, fun h => h.elim, hst.1, hst.2.1, hst.2.2, rfl, fun _ => by simp⟩
    split at hs
    · injection hs with hs; subst hs
      exact hI
    · cases hs
  | attrVal n as k q v =>
    obtain ⟨h1, h2, h3, h4⟩ := hst
    simp only [XMach.step] at hs
    split at hs
    · split at hs
      · cases hs
      · rename_i hcon
        injection hs with hs; subst hs
        refine ⟨hf, hr, hd, fun h => h.elim, h1, ?_, ?_⟩
        · rw [List.map_append, List.map_singleton]
          refine List.nodup_append.mpr ⟨h2.1, List.nodup_singleton _, ?_⟩
          rintro x hx y hy rfl
          rw [List.mem_singleton] at hy
          subst hy
          exact hcon (by simpa using hx)
        · intro p hp
          rcases List.mem_append.mp hp with hp | hp
          · exact h2.2 p hp
          · rw [List.mem_singleton] at hp; subst hp
            exact ⟨h3.ok, v, rfl, h4⟩
    split at hs
    · injection hs with hs; subst hs
      exact ⟨hf, hr, hd, fun h => h.elim, h1, h2, h3, h4, fun _ => by simp⟩
    split at hs
    · cases hs
    split at hs
    · rename_i hx
      injection hs with hs; subst hs
      refine ⟨hf, hr, hd, fun h => h.elim, h1, h2, h3, ?_⟩
      split
      · exact readVal_snoc h4 (by decide) fun _ => by decide
      · rename_i hnt
        rw [not_or] at hnt
        exact readVal_snoc h4 hx fun _ => ⟨hc, hnt.1, hnt.2⟩
    · cases hs
  | attrRef n as k q v r =>
    obtain ⟨h1, h2, h3, h4, h5⟩ := hst
    simp only [XMach.step] at hs
    split at hs
    · split at hs
      · rename_i x hx
        injection hs with hs; subst hs
        exact ⟨hf, hr, hd, fun h => h.elim, h1, h2, h3,
          readVal_snoc h4 (xmlEntity_ok hx).1 fun hb => (xmlEntity_ok hx).2 (h5 hb)⟩
      · cases hs
    · injection hs with hs; subst hs
      exact ⟨hf, hr, hd, fun h => h.elim, h1, h2, h3, h4, fun hb => head_snoc (h5 hb) (hn hb)⟩
  | afterVal n as => exact tagChar_inv hI hst.1 hst.2 hs
  | slash n as =>
    simp only [XMach.step] at hs
    split at hs
    · exact place_inv (x := .tag (String.ofList n) as []) hf hr hd
        ⟨hst.1.ok, hst.2, List.isChain_nil, trivial⟩ rfl hs
    · cases hs
  | closeName n =>
    simp only [XMach.step] at hs
    split at hs
    · exact close_inv hf hr hd hs
    split at hs
    · injection hs with hs; subst hs
      exact ⟨hf, hr, hd, fun h => h.elim, trivial⟩
    split at hs
    · injection hs with hs; subst hs
      exact ⟨hf, hr, hd, fun h => h.elim, trivial⟩
    · cases hs
  | closeEnd n =>
    simp only [XMach.step] at hs
    split at hs
    · exact close_inv hf hr hd hs
    split at hs
    · injection hs with hs; subst hs
      exact hI
    · cases hs

/-- After a character other than `&` one isn't just after `&`. -/
theorem step_amp {m m' : XMach} {c : Char} (hc : c ≠ '&') (hs : m.step c = .ok m') : ¬ AfterAmp m'.st := by
  obtain ⟨stk, d, st, root⟩ := m
  have place : ∀ {m : XMach} {x : Node}, m.place x = .ok m' → ¬ AfterAmp m'.st := by
    intro m x h
    unfold XMach.place at h
    repeat' split at h
    all_goals first | cases h; done | (injection h with h; subst h; exact id)
  have tagChar : ∀ {m : XMach} {n as}, m.tagChar n as c = .ok m' → ¬ AfterAmp m'.st := by
    intro m n as h
    unfold XMach.tagChar at h
    repeat' split at h
    all_goals first | cases h; done | (injection h with h; subst h; exact id)
  have close : ∀ {m : XMach} {n}, m.close n = .ok m' → ¬ AfterAmp m'.st := by
    intro m n h
    unfold XMach.close at h
    repeat' split at h
    all_goals first | cases h | exact place h
  cases st <;> simp only [XMach.step, if_neg hc] at hs <;> repeat' split at hs
  all_goals first
    | exact place hs
    | exact tagChar hs
    | exact close hs
    | (cases hs; done)
    | (injection hs with hs; subst hs; exact id)
    | (injection hs with hs; subst hs; simp [AfterAmp])

/-- There is no `&#` in it. -/
def NoRefs : Str → Prop
  | [] => True
  | c :: r => (c = '&' → r.head? ≠ some '#') ∧ NoRefs r

theorem run_inv {b : Bool} : ∀ (s : Str) {m m' : XMach}, '\r' ∉ s → (b = true → NoRefs s) →
    (b = true → AfterAmp m.st → s.head? ≠ some '#') → XInv b m → m.run s = .ok m' → XInv b m' := by
  intro s
  induction s with
  | nil => intro m m' _ _ _ h hs; injection hs with hs; subst hs; exact h
  | cons c s ih =>
    intro m m' hc hn ha h hs
    simp only [List.mem_cons, not_or] at hc
    rw [XMach.run] at hs
    split at hs
    · cases hs
    · next m1 hm =>
      refine ih hc.2 (fun hb => (hn hb).2) (fun hb hm1 => ?_)
        (step_inv (Ne.symm hc.1) (fun hb hm => by simpa using ha hb hm) h hm) hs
      by_cases hamp : c = '&'
      · exact (hn hb).1 hamp
      · exact absurd hm1 (step_amp hamp hm)

theorem parse_inv {b : Bool} {s : Str} {x : Node} (hb : b = true → NoRefs (newlines (dropDecl s)))
    (h : parseXml s = .ok x) : x.Read b ∧ x.isTag = true := by
  unfold parseXml at h
  split at h
  · cases h
  · rename_i m hm
    have hI := run_inv (b := b) (m := ⟨[], [], .text, none⟩) _ (newlines_no_cr _) hb (fun _ h => h.elim)
      ⟨by simp, by simp, ⟨rfl, fun _ => by simp⟩, by simp, trivial⟩ hm
    split at h
    · split at h
      · injection h with h; subst h
        exact hI.root _ ‹_›
      · cases h
    · split at h <;> cases h
    · cases h

/-- What is read. -/
theorem parse_read {s : Str} {x : Node} (h : parseXml s = .ok x) : x.Read false ∧ x.isTag = true :=
  parse_inv (by simp) h

/-- What is read is tidy, if nothing in it comes from character references. -/
theorem parse_tidy {s : Str} {x : Node} (h : parseXml s = .ok x) (hd : Spec.Direct x) : x.Tidy ∧ x.isTag = true :=
  ⟨((parse_read h).1.direct hd).tidy, (parse_read h).2⟩

/-! ## Where there are no character references -/

theorem noRefs_of : ∀ {s : Str}, ¬ "&#".toList <:+: s → NoRefs s
  | [], _ => trivial
  | c :: r, h => by
    refine ⟨?_, noRefs_of fun hr => h (List.infix_cons hr)⟩
    rintro rfl hr
    refine h ⟨[], r.tail, ?_⟩
    cases r with
    | nil => cases hr
    | cons d r => injection hr with hr; subst hr; rfl

theorem newlines_head {s : Str} (h : (newlines s).head? = some '#') : s.head? = some '#' := by
  unfold newlines at h
  split at h
  · cases h
  · cases h
  · cases h
  · exact h

theorem noRefs_newlines {s : Str} (h : NoRefs s) : NoRefs (newlines s) := by
  induction s using newlines.induct with
  | case1 => trivial
  | case2 r ih => rw [newlines]; exact ⟨by simp, ih h.2.2⟩
  | case3 r hr ih =>
    rw [newlines]
    · exact ⟨by simp, ih h.2⟩
    · exact hr
  | case4 c r h1 h2 ih =>
    rw [newlines]
    · exact ⟨fun e hn => h.1 e (newlines_head hn), ih h.2⟩
    · exact h1
    · exact h2

theorem afterDecl_suffix : ∀ s : Str, afterDecl s <:+ s
  | [] => by rw [afterDecl]
  | c :: r => by
    rw [afterDecl]
    split
    · exact (List.tail_suffix r).trans (List.suffix_cons c r)
    · exact (afterDecl_suffix r).trans (List.suffix_cons c r)

theorem dropDecl_suffix (s : Str) : dropDecl s <:+ s := by
  rw [dropDecl]
  split
  · exact afterDecl_suffix s
  · exact List.suffix_refl s

/-- What is read from such a file is tidy. -/
theorem parse_tidy_noRefs {s : Str} {x : Node} (hs : ¬ "&#".toList <:+: s) (h : parseXml s = .ok x) : x.Tidy :=
  ((parse_inv (b := true) (fun _ => noRefs_newlines (noRefs_of fun hi => hs (hi.trans (dropDecl_suffix s).isInfix))) h).1).tidy

theorem textRun_direct {s : Str} (h : '\r' ∉ s) : Spec.DirectAll (textRun s) := by
  unfold textRun
  split
  · trivial
  · split
    · refine ⟨?_, trivial⟩
      split <;> simp [Spec.Direct]
    · exact ⟨h, trivial⟩

theorem directAll_append {a b : List Node} : Spec.DirectAll (a ++ b) ↔ Spec.DirectAll a ∧ Spec.DirectAll b := by
  induction a with
  | nil => simp [Spec.DirectAll]
  | cons x a ih => simp [Spec.DirectAll, ih, and_assoc]

theorem readText_direct (s : Str) : Spec.DirectAll (readText s) := by
  rw [readText_eq]
  exact textRun_direct (newlines_no_cr s)

mutual
theorem reload_direct (F : Fl) : ∀ x : Node, x.isTag = true → Spec.Direct (x.reload F)
  | .tag n a ks, _ => by
    rw [Node.reload]
    refine ⟨fun k v hv => ?_, reloadKids_direct F ks []⟩
    obtain ⟨p, -, hp⟩ := List.mem_map.1 hv
    injection hp with h1 h2
    injection h2 with h2
    subst h2
    have key : ∀ c ∈ attrSpaces (p.2.str' F), c ≠ '\t' ∧ c ≠ '\n' ∧ c ≠ '\r' := by
      intro c hc
      obtain ⟨d, hd, rfl⟩ := List.mem_map.1 hc
      split
      · decide
      · next hn =>
        rw [not_or] at hn
        exact ⟨hn.2, hn.1, fun e => newlines_no_cr _ (e ▸ hd)⟩
    exact ⟨fun h => (key _ h).1 rfl, fun h => (key _ h).2.1 rfl, fun h => (key _ h).2.2 rfl⟩

theorem reloadKids_direct (F : Fl) : ∀ (ks : List Node) (acc : Str), Spec.DirectAll (Node.reloadKids F acc ks)
  | [], acc => by rw [Node.reloadKids]; exact readText_direct acc
  | .text s :: r, acc => by rw [Node.reloadKids]; exact reloadKids_direct F r _
  | .tag n a ks :: r, acc => by
    rw [Node.reloadKids]
    exact directAll_append.2 ⟨readText_direct acc, reload_direct F (.tag n a ks) rfl, reloadKids_direct F r []⟩
end

/-! ## Tidy documents stay as they are -/

mutual
theorem Node.Tidy.xmlOk (F : Fl) : ∀ {x : Node}, x.Tidy → x.XmlOk F
  | .text s, h => h.2
  | .tag n a ks, h => ⟨h.1, ⟨h.2.1.1, fun p hp => by
      obtain ⟨h1, v, hv, h2⟩ := h.2.1.2 p hp
      refine ⟨h1, ?_⟩
      rw [hv]; exact h2.1⟩, Node.TidyAll.xmlOk F h.2.2.2⟩

theorem Node.TidyAll.xmlOk (F : Fl) : ∀ {ks : List Node}, Node.TidyAll ks → Node.XmlOkKids F ks
  | [], _ => trivial
  | _ :: _, h => ⟨Node.Tidy.xmlOk F h.1, Node.TidyAll.xmlOk F h.2⟩
end

theorem attrSpaces_tidy {v : Str} (h : TidyVal v) : attrSpaces v = v := by
  rw [attrSpaces, newlines_id h.2.1]
  conv_rhs => rw [← List.map_id v]
  refine List.map_congr_left fun c hc => ?_
  have h1 : ¬ (c = '\n' ∨ c = '\t') := by
    rintro (rfl | rfl)
    · exact h.2.2.1 hc
    · exact h.2.2.2 hc
  rw [if_neg h1]; rfl

theorem readText_id {s : Str} (h : KeptText s) : readText s = [.text s] := by
  rw [readText_eq, newlines_id h.2.1, textRun, if_neg h.1]
  split
  · rename_i hs
    rcases h.2.2 hs with rfl | rfl <;> rfl
  · rfl

theorem readAttrs_id {F : Fl} {a : Attrs} (h : TidyAttrs a) : readAttrs F a = a := by
  conv_rhs => rw [← List.map_id a]
  refine List.map_congr_left fun p hp => ?_
  obtain ⟨_, v, hv, h2⟩ := h.2 p hp
  obtain ⟨k, w⟩ := p
  simp only at hv
  subst hv
  simp only [AttrV.str', attrSpaces_tidy h2, id]

mutual
theorem Node.Tidy.reload (F : Fl) : ∀ {x : Node}, x.Tidy → x.reload F = x
  | .text s, _ => rfl
  | .tag n a ks, h => by
    rw [Node.reload]
    have := readAttrs_id (F := F) h.2.1
    rw [readAttrs] at this
    rw [this, Node.TidyAll.reload F h.2.2.2 h.2.2.1]

theorem Node.TidyAll.reload (F : Fl) : ∀ {ks : List Node}, Node.TidyAll ks → NoAdj ks →
    Node.reloadKids F [] ks = ks
  | [], _, _ => by rw [Node.reloadKids]; rfl
  | [.text s], h, _ => by rw [Node.reloadKids, Node.reloadKids, List.nil_append, readText_id h.1.1]
  | .text s :: .text t :: r, h, hn => by
    rw [NoAdj, List.isChain_cons_cons] at hn
    simp [Node.isTag] at hn
  | .text s :: .tag n a ks :: r, h, hn => by
    rw [NoAdj, List.isChain_cons_cons] at hn
    have hr : NoAdj r := hn.2.tail
    rw [Node.reloadKids, List.nil_append, Node.reloadKids, readText_id h.1.1,
      Node.TidyAll.reload F h.2.2 hr, Node.Tidy.reload F h.2.1]
    rfl
  | .tag n a ks :: r, h, hn => by
    have hr : NoAdj r := hn.tail
    rw [Node.reloadKids, Node.TidyAll.reload F h.2 hr, Node.Tidy.reload F h.1]
    rfl
end

theorem TidyAttrs.sort {a : Attrs} (h : TidyAttrs a) : TidyAttrs (sortAttrs a) :=
  ⟨((sortAttrs_perm a).map _).nodup_iff.mpr h.1, fun p hp => h.2 p ((sortAttrs_perm a).mem_iff.mp hp)⟩

theorem sorted_isTag : ∀ x : Node, x.sorted.isTag = x.isTag
  | .text _ => rfl
  | .tag _ _ _ => rfl

theorem noAdj_sorted : ∀ {ks : List Node}, NoAdj ks → NoAdj (Node.sortedKids ks)
  | [], _ => List.isChain_nil
  | [x], _ => List.isChain_singleton _
  | x :: y :: r, h => by
    rw [NoAdj, List.isChain_cons_cons] at h
    rw [Node.sortedKids, Node.sortedKids, NoAdj, List.isChain_cons_cons, sorted_isTag, sorted_isTag]
    have := noAdj_sorted h.2
    rw [Node.sortedKids] at this
    exact ⟨h.1, this⟩

mutual
theorem Node.Tidy.sorted : ∀ {x : Node}, x.Tidy → x.sorted.Tidy
  | .text _, h => h
  | .tag _ _ _, h => ⟨h.1, h.2.1.sort, noAdj_sorted h.2.2.1, Node.TidyAll.sorted h.2.2.2⟩

theorem Node.TidyAll.sorted : ∀ {ks : List Node}, Node.TidyAll ks → Node.TidyAll (Node.sortedKids ks)
  | [], _ => trivial
  | _ :: _, h => ⟨Node.Tidy.sorted h.1, Node.TidyAll.sorted h.2⟩
end

instance : Std.Total fun (p q : String × AttrV) => p.1 ≤ q.1 := ⟨fun p q => le_total p.1 q.1⟩
instance : IsTrans (String × AttrV) fun p q => p.1 ≤ q.1 := ⟨fun _ _ _ => le_trans⟩

theorem sortAttrs_idem (a : Attrs) : sortAttrs (sortAttrs a) = sortAttrs a := by
  unfold sortAttrs
  exact (List.pairwise_insertionSort _ a).insertionSort_eq

mutual
theorem xml_sorted (F : Fl) (b : Bool) : ∀ x : Node,
    x.sorted.xml F (fun _ => b) = x.xml F (fun _ => b)
  | .text s => rfl
  | .tag n a ks => by
    have hk := xmlKids_sorted F b ks
    have he : (Node.sortedKids ks).isEmpty = ks.isEmpty := by cases ks <;> rfl
    rw [Node.sorted, Node.xml, Node.xml, sortAttrs_idem, hk, he]

theorem xmlKids_sorted (F : Fl) (b : Bool) : ∀ ks : List Node,
    Node.xmlKids F (fun _ => b) (Node.sortedKids ks) = Node.xmlKids F (fun _ => b) ks
  | [] => rfl
  | x :: r => by rw [Node.sortedKids, Node.xmlKids, Node.xmlKids, xml_sorted, xmlKids_sorted]
end

end Sang
