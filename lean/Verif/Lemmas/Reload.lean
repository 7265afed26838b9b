import Verif.Props.Timeline

/-! Helper lemmas: what saving and loading keeps. -/

namespace Sang
open Spec

/-- No tab, newline or carriage return. -/
def Plain (s : Str) : Prop := ∀ c ∈ s, c ≠ '\r' ∧ c ≠ '\n' ∧ c ≠ '\t'

theorem attrSpaces_id {s : Str} (h : Plain s) : attrSpaces s = s := by
  rw [attrSpaces, newlines_id fun hc => (h _ hc).1 rfl]
  conv_rhs => rw [← List.map_id s]
  refine List.map_congr_left fun c hc => ?_
  simp [(h c hc).2.1, (h c hc).2.2]

theorem reload_name (F : Fl) (n : Node) : (n.reload F).name = n.name := by
  cases n <;> simp [Node.reload, Node.name]

theorem reload_isTag (F : Fl) (n : Node) : (n.reload F).isTag = n.isTag := by
  cases n <;> simp [Node.reload, Node.isTag]

theorem lookup_map_snd {β γ : Type} (k : String) (g : β → γ) (l : List (String × β)) :
    List.lookup k (l.map fun p => (p.1, g p.2)) = (List.lookup k l).map g := by
  induction l with
  | nil => rfl
  | cons p r ih =>
    obtain ⟨a, b⟩ := p
    simp only [List.map_cons, List.lookup_cons]
    cases k == a <;> simp [ih]

theorem reload_get (F : Fl) (n : Node) (k : String) :
    (n.reload F).attrs.get k = (n.attrs.get k).map fun a => .str (attrSpaces (a.str' F)) := by
  cases n with
  | text s => rfl
  | tag nm a ks =>
    simp only [Node.reload, Node.attrs, Attrs.get]
    exact lookup_map_snd k (fun x : AttrV => AttrV.str (attrSpaces (x.str' F))) a

theorem readText_noTag (s : Str) : (readText s).filter Node.isTag = [] := by
  simp only [readText]
  split
  · rfl
  · split <;> rfl

theorem reloadKids_tags (F : Fl) (ks : List Node) (acc : Str) :
    (Node.reloadKids F acc ks).filter Node.isTag = (ks.filter Node.isTag).map (Node.reload F) := by
  induction ks generalizing acc with
  | nil => simp [Node.reloadKids, readText_noTag]
  | cons x r ih =>
    cases x with
    | text s => simp [Node.reloadKids, ih, Node.isTag]
    | tag n a k =>
      have hx : (Node.tag n a k).isTag = true := rfl
      simp only [Node.reloadKids, List.filter_append, readText_noTag, List.nil_append]
      rw [List.filter_cons_of_pos (by rw [reload_isTag, hx]), List.filter_cons_of_pos hx,
        List.map_cons, ih]

theorem reload_tagKids (F : Fl) (n : Node) :
    (n.reload F).tagKids = n.tagKids.map (Node.reload F) := by
  cases n with
  | text s => rfl
  | tag nm a ks =>
    simp only [Node.reload, Node.tagKids, Node.kids]
    exact reloadKids_tags F ks []

theorem reload_kidNames (F : Fl) (n : Node) : kidNames (n.reload F) = kidNames n := by
  simp [kidNames, reload_tagKids, Function.comp_def, reload_name]

theorem reload_strAttr {F : Fl} {n : Node} {k : String} {s : Str} (h : strAttr n k = .ok s) :
    strAttr (n.reload F) k = .ok (attrSpaces s) := by
  simp only [strAttr] at h
  split at h
  · simp at h
  · next t ht =>
    injection h with h; subst h
    simp [strAttr, reload_get, ht, AttrV.str']
  · simp at h

theorem lowerC_plain {c : Char} (h : lowerC c ≠ '\r' ∧ lowerC c ≠ '\n' ∧ lowerC c ≠ '\t') :
    c ≠ '\r' ∧ c ≠ '\n' ∧ c ≠ '\t' := by
  refine ⟨?_, ?_, ?_⟩ <;> rintro rfl <;> revert h <;> decide

theorem plain_of_lower {s : Str} (h : Plain (lower s)) : Plain s := fun _ hc =>
  lowerC_plain (h _ (List.mem_map_of_mem hc))

theorem plain_of_normalise {s : Str} (h : Plain (normaliseName s)) : Plain s := by
  refine plain_of_lower fun c hc => ?_
  by_cases hu : c = '_'
  · subst hu; decide
  · exact h c (List.mem_filter.2 ⟨hc, by simpa using hu⟩)

instance (s : Str) : Decidable (Plain s) :=
  inferInstanceAs (Decidable (∀ c ∈ s, c ≠ '\r' ∧ c ≠ '\n' ∧ c ≠ '\t'))

theorem registry_plain : ∀ p ∈ valueRegistry, Plain p.1 := by decide +kernel

theorem plain_of_registered {s : Str} {c : VCls} (h : valueRegistry.fromName s = .ok c) : Plain s := by
  simp only [Registry.fromName] at h
  split at h
  · simp at h
  · next d hd =>
    obtain ⟨l1, l2, hl, _⟩ := List.lookup_eq_some_iff.1 hd
    exact plain_of_normalise (registry_plain (normaliseName s, d) (by rw [hl]; simp))

/-- A value which isn't animated is recognised again after saving. -/
theorem fromTag_reload {F : Fl} {v : Node} {c : VCls} (hna : v.name ≠ "animated")
    (h : fromTag v = .ok c) : fromTag (v.reload F) = .ok c ∧ Plain v.name.toList := by
  simp only [fromTag, if_neg hna] at h
  have hp : Plain v.name.toList := by
    cases hreg : valueRegistry.fromName v.name.toList with
    | error e => simp [hreg] at h
    | ok d => exact plain_of_registered hreg
  refine ⟨?_, hp⟩
  have hv : vectorCheck (v.reload F) = vectorCheck v := by
    simp only [vectorCheck, reload_name, if_neg hna, reload_kidNames]
  have hc : compositeCheck v = .ok () → compositeCheck (v.reload F) = .ok () := by
    intro hc
    simp only [compositeCheck] at hc
    split at hc
    · simp at hc
    · next s hs =>
      split at hc
      · next hl =>
        have : Plain s := plain_of_lower (by rw [hl]; decide)
        simp only [compositeCheck, reload_strAttr hs, attrSpaces_id this, if_pos hl]
      · simp at hc
  simp only [fromTag, reload_name, if_neg hna, hv]
  cases hreg : valueRegistry.fromName v.name.toList with
  | error e => simp [hreg] at h
  | ok d =>
    simp only [hreg] at h ⊢
    cases d
    case composite =>
      simp only at h ⊢
      cases hcc : compositeCheck v with
      | error e => simp [hcc] at h
      | ok u => simp only [hcc] at h; rw [hc hcc]; exact h
    all_goals exact h

theorem checkInterp_plain {s t : Str} (h : checkInterp s = .ok t) : Plain s := by
  simp only [checkInterp] at h
  split at h
  · simp at h
  · split at h
    · next h2 =>
      have key : ∀ x ∈ interpolationTypes.map fun p => p.1.toList, Plain x := by decide +kernel
      exact key s (by simpa using h2)
    · split at h
      · next u hu =>
        obtain ⟨l1, l2, hl, _⟩ := List.lookup_eq_some_iff.1 hu
        have key : ∀ x ∈ interpolationSynonyms.map fun p => (p.1.toList, p.2.toList), Plain x.1 := by
          decide +kernel
        exact key (s, u) (by rw [hl]; simp)
      · simp at h

/-! ### times -/

theorem natStr_plain (n : ℕ) : Plain (natStr n) := by
  intro c hc
  have := natStr_digits n c hc
  refine ⟨?_, ?_, ?_⟩ <;> rintro rfl <;> revert this <;> decide

theorem specText_plain (l : List (ℕ × TimeUnit)) (neg : Bool) :
    Plain (specText (mkParts neg l) []) := by
  intro c hc
  simp only [specText, List.append_nil, List.mem_flatMap] at hc
  obtain ⟨p, hp, hc⟩ := hc
  have key : ∀ (b : Str) (ng : Bool) (a : ℕ) (u : TimeUnit), (b = [] ∨ b = [' ']) →
      c ∈ b ++ Amount.text ⟨ng, natStr a, []⟩ ++ [u.char] → c ≠ '\r' ∧ c ≠ '\n' ∧ c ≠ '\t' := by
    intro b ng a u hb hc
    simp only [Amount.text, if_true, List.append_nil, List.mem_append, List.mem_singleton] at hc
    rcases hc with (hc | hc | hc) | hc
    · rcases hb with rfl | rfl
      · simp at hc
      · simp only [List.mem_singleton] at hc; subst hc; decide
    · cases ng
      · simp at hc
      · simp only [if_true, List.mem_singleton] at hc; subst hc; decide
    · exact natStr_plain a c hc
    · subst hc; cases u <;> decide
  cases l with
  | nil => simp [mkParts] at hp
  | cons x r =>
    obtain ⟨a, u⟩ := x
    simp only [mkParts, List.mem_cons, List.mem_map] at hp
    rcases hp with rfl | ⟨x, _, rfl⟩
    · exact key _ _ _ _ (.inl rfl) hc
    · exact key _ _ _ _ (.inr rfl) hc

end Sang
