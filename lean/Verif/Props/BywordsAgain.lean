import Verif.Spec.BywordsAgain
import Verif.Lemmas.Untext

/-!
# C146: running bywords again
-/

namespace Sang

open Spec

mutual
theorem bare_of : ∀ {n : Node}, (∀ q z, nodeAt q n = some z → z.name ≠ "layer" ∧ z.name ≠ "param") → Bare n
  | .text s, _ => trivial
  | .tag n a ks, h => ⟨(h [] _ rfl).1, (h [] _ rfl).2, bareAll_of fun i q x hx z hz =>
      h (i :: q) z (by rw [nodeAt_cons]; simp only [Node.kids, hx]; exact hz)⟩

theorem bareAll_of : ∀ {ks : List Node},
    (∀ (i : ℕ) q x, ks[i]? = some x → ∀ z, nodeAt q x = some z → z.name ≠ "layer" ∧ z.name ≠ "param") → BareAll ks
  | [], _ => trivial
  | x :: _, h => ⟨bare_of fun q z hz => h 0 q x rfl z hz, bareAll_of fun i q y hy => h (i + 1) q y hy⟩
end

mutual
theorem simple_of : ∀ {n : Node}, PlainParams n → Simple n
  | .text s, _ => trivial
  | .tag n a ks, h => by
    rw [Simple]
    split
    · next ht =>
      refine bareAll_of fun i q x hx z hz => h [] _ rfl (ht.imp isParam_iff.1 isParam_iff.1) (i :: q) z (by simp) ?_
      rw [nodeAt_cons]
      simp only [Node.kids, hx]
      exact hz
    · exact simpleAll_of fun i x hx p y hy => h (i :: p) y (by
        rw [nodeAt_cons]; simp only [Node.kids, hx]; exact hy)

theorem simpleAll_of : ∀ {ks : List Node}, (∀ (i : ℕ) x, ks[i]? = some x → PlainParams x) → SimpleAll ks
  | [], _ => trivial
  | x :: _, h => ⟨simple_of (h 0 x rfl), simpleAll_of fun i y hy => h (i + 1) y hy⟩
end

/-! ## What it leaves alone -/

theorem sameBut_trans {P : List ℕ → Prop} {a b c : Node} (h : SameBut P a b) (h' : SameBut P b c) : SameBut P a c :=
  fun p hp => (h' p hp).trans (h p hp)

theorem sameBut_mono {P Q : List ℕ → Prop} {a b : Node} (h : SameBut P a b) (hPQ : ∀ p, P p → Q p) : SameBut Q a b :=
  fun p hp => h p fun hq => hp (hPQ p hq)

theorem Matched.back {F : Fl} {lines : List Str} {n e : Node} (hn : Simple n) (he : Retexted n e) {p : Place}
    (h : Matched F lines e p) : Matched F lines n p := by
  obtain ⟨q, r, g, x, rfl, h0, hr0, hg, hB, ⟨l, hl, hsay⟩, hx, hxl⟩ := h
  have hs := he.symm hn
  obtain ⟨g', hg', eg⟩ := hs.at he.2 hg (.inl hB.1.1)
  have hxe : nodeAt (q ++ r) e = some x := by rw [nodeAt_append, hg]; exact hx
  obtain ⟨x', hx', ex⟩ := hs.at he.2 hxe (.inl hxl.1)
  have hnt : textParam g = false := by simp [isParam, hB.1.1]
  refine ⟨q, r, g', x', rfl, h0, hr0, hg', (same_bywordsGroup eg).2 hB, ⟨l, hl, ?_⟩, ?_, (same_isLayer ex).2 hxl⟩
  · rw [hsay, same_groupWords (simple_at he.2 hg) (simple_at hn hg') hnt eg]
  · rw [nodeAt_append, hg'] at hx'
    exact hx'

theorem InParam.back {f : String} {P Q : List ℕ → Prop} {n e : Node} (hn : Simple n) (he : Retexted n e)
    (hPQ : ∀ p, P p → Q p) {p : Place} (h : InParam f P e p) : InParam f Q n p := by
  obtain ⟨q, r, i, s, rfl, hq, y, hy, hyp⟩ := h
  obtain ⟨y', hy', ey⟩ := (he.symm hn).at he.2 hy (.inr hyp.1)
  refine ⟨q, r, i, s, rfl, hPQ _ hq, y', hy', ?_⟩
  rw [IsParam, same_name ey, same_attrs ey]
  exact hyp

theorem useAll_retexted (F : Fl) (d : Defaults) : ∀ (us : List BywordsUse) {n : Node}, Simple n →
    Retexted n (useAll F d us n).1
  | [], _, hn => .refl hn
  | u :: us, n, hn => by
    have h := adjust_retexted F d u.perm u.letters u.lines hn
    rw [useAll]
    split
    · next e => rw [e] at h; exact h
    · next e => rw [e] at h; exact Retexted.trans h (useAll_retexted F d us h.2)

theorem useAll_same (F : Fl) (d : Defaults) (lines : List Str) {n : Node} (hn : Simple n) :
    ∀ (us : List BywordsUse) {e : Node}, Retexted n e → (∀ u ∈ us, ∀ l ∈ u.lines, l.text ∈ lines) →
      SameBut (InParam "text" (Matched F lines n) n) n e →
      SameBut (InParam "text" (Matched F lines n) n) n (useAll F d us e).1
  | [], _, _, _, h => h
  | u :: us, e, he, hl, h => by
    have h1 := adjust_retexted F d u.perm u.letters u.lines he.2
    have h2 := c126_rest F d u.perm_perm u.letters u.lines e
    have h3 := sameBut_trans h (sameBut_mono (Q := InParam "text" (Matched F lines n) n) h2 fun p hp => InParam.back hn he (by
      rintro q ⟨a, b, g, x, e1, e2, e3, e4, e5, ⟨l, hl', hsay⟩, e6, e7⟩
      refine Matched.back hn he ⟨a, b, g, x, e1, e2, e3, e4, e5, ⟨l, ?_, hsay⟩, e6, e7⟩
      obtain ⟨s, hs, rfl⟩ := List.mem_map.1 hl'
      exact hl u (by simp) s hs) hp)
    rw [useAll]
    split
    · next e' => rw [e'] at h3; exact h3
    · next e' =>
      rw [e'] at h1 h3
      exact useAll_same F d lines hn us (he.trans h1) (fun u' hu' => hl u' (by simp [hu'])) h3

/-- C146. However often bywords is used on an animation, with whatever subtitles, and whether or not it fails in the
end, nothing changes but the texts of the text layers in bywords groups which say what one of the lines says. -/
theorem c146_rest (F : Fl) (d : Defaults) (us : List BywordsUse) {n : Node} (hn : PlainParams n) :
    SameBut (InParam "text" (Matched F (us.flatMap fun u => u.lines.map SubLine.text) n) n) n (useAll F d us n).1 :=
  useAll_same F d _ (simple_of hn) us (.refl (simple_of hn)) (by
    intro u hu l hl
    exact List.mem_flatMap.2 ⟨u, hu, List.mem_map.2 ⟨l, hl, rfl⟩⟩) (sameBut_refl _ _)

/-! ## What it shows -/

/-- An animation which bywords can be used on: it has a frame rate, no text layer is in another and no bywords group
in another, the groups can be read (`gs`), and the texts in them are strings. -/
structure Fit (F : Fl) (d : Defaults) (gs : List BGroup) (rate : ℚ) (n : Node) : Prop where
  groups : bwGroups F d n = .ok gs
  rate : readFps F (animRoot n) = .ok (some rate)
  texts : NoneInAnother (IsLayer "text") n
  apart : NoneInAnother (BywordsGroup F) n
  strings : ∀ q r g x, q ≠ [] → nodeAt q n = some g → BywordsGroup F g → r ≠ [] → nodeAt r g = some x →
    IsLayer "text" x → ∃ c v, getParam "text".toList x = .ok (c, v) ∧ (unAnimate F (textCtx n) v).2 = .ok () ∧
      Legal "string".toList (unAnimate F (textCtx n) v).1

theorem Fit.matched {F : Fl} {d : Defaults} {gs : List BGroup} {rate : ℚ} {n : Node} (h : Fit F d gs rate n)
    (lines : List Str) : ∀ p x, Matched F lines n p → nodeAt p n = some x →
      ∃ c v, getParam "text".toList x = .ok (c, v) ∧ (unAnimate F (textCtx n) v).2 = .ok () ∧
        Legal "string".toList (unAnimate F (textCtx n) v).1 := by
  rintro p x ⟨q, r, g, y, rfl, h0, hr0, hg, hB, -, hy, hyl⟩ hx
  rw [nodeAt_append, hg] at hx
  simp only [Option.bind_some] at hx
  rw [hy] at hx
  injection hx with hx
  subst hx
  exact h.strings q r g y h0 hg hB hr0 hy hyl

/-- What a schedule puts in a text: nothing at first, then each of the scheduled texts from the frame nearest to its
time. -/
def scheduledMap (F : Fl) (rate : ℚ) (words : List WordTiming) (item : ℕ × ℕ) : TMap :=
  (TMap.empty.set 0 (heldText [])).setAll
    ((words.filter fun s => s.item = item).map fun s => (F.rnd (s.time * rate), heldText s.text))

theorem setAll_held {l : List (ℚ × Entry)} {m : TMap} (h : ∀ q e, m q = some e → ∃ s, e = heldText s)
    (hl : ∀ p ∈ l, ∃ s, p.2 = heldText s) : ∀ q e, m.setAll l q = some e → ∃ s, e = heldText s := by
  induction l generalizing m with
  | nil => exact h
  | cons p l ih =>
    refine ih (m := m.set p.1 p.2) ?_ fun p hp => hl p (by simp [hp])
    intro q e he
    rw [TMap.set] at he
    split at he
    · injection he with he
      subst he
      exact hl p (by simp)
    · exact h q e he

theorem setAll_ne_none {l : List (ℚ × Entry)} {m : TMap} {q : ℚ} (h : m q ≠ none) : m.setAll l q ≠ none := by
  induction l generalizing m with
  | nil => exact h
  | cons p l ih =>
    refine ih (m := m.set p.1 p.2) ?_
    rw [TMap.set]
    split
    · simp
    · exact h

/-- A text with a schedule can be un-animated. -/
theorem scheduled_ready {F : Fl} {ctx : Ctx} (hp : ctx.hasParent = true) {rate : ℚ} {words : List WordTiming}
    {item : ℕ × ℕ} {w : Node} (h : TimelineIs F ctx "string".toList w (scheduledMap F rate words item)) :
    Ready F ctx w := by
  obtain ⟨ws, hws, -, hl⟩ := h.read
  have hs : ∀ x ∈ ws, ∃ s, x.entry = heldText s := by
    intro x hx
    refine setAll_held (m := TMap.empty.set 0 (heldText [])) ?_ ?_ _ _ ((hl _ _).2 ⟨x, hx, rfl, rfl⟩)
    · intro q e he
      rw [TMap.set] at he
      split at he
      · injection he with he
        exact ⟨[], he.symm⟩
      · cases he
    · intro p hp
      obtain ⟨y, -, rfl⟩ := List.mem_map.1 hp
      exact ⟨_, rfl⟩
  have h0 : scheduledMap F rate words item 0 ≠ none := setAll_ne_none (by simp [TMap.set])
  obtain ⟨e, he⟩ := Option.ne_none_iff_exists'.1 h0
  obtain ⟨x, hx, -⟩ := (hl _ _).1 he
  rw [Ready, unAnimate]
  by_cases ha : w.name = "animated"
  · rw [if_neg (by simpa using ha)]
    cases ws with
    | nil => cases hx
    | cons y ws =>
      obtain ⟨s, hy⟩ := hs y (by simp)
      have hv : y.val = .tag "string" [] [.text s] := congrArg Entry.value hy
      simp only [hws, hp, if_true, hv, true_and]
      exact ⟨rfl, by simp [Node.name], rfl, .string, fromTag_string rfl⟩
  · rw [if_pos ha]
    refine ⟨rfl, h.tag, ha, ?_, .string, fromTag_string h.type⟩
    have := h.type
    rw [ourType, if_neg ha] at this
    injection this

theorem fit_root {F : Fl} {d : Defaults} {gs : List BGroup} {rate : ℚ} {n : Node} (h : Fit F d gs rate n) :
    textParam n = false := by
  have hr := h.rate
  by_contra hc
  have hc : isParam "text".toList n = true := Bool.of_not_eq_false hc
  rw [isParam_iff] at hc
  have : animRoot n = none := by
    rw [animRoot, canvasRoot]
    simp only
    rw [if_neg (by rw [hc.1]; decide)]
  rw [this] at hr
  simp [readFps] at hr

/-- One use, in these terms. -/
theorem fit_adjust {F : Fl} (hF : F.Lawful) {d : Defaults} {gs : List BGroup} {rate : ℚ} {n : Node} (hn : Simple n)
    (h : Fit F d gs rate n) {perm : List (ℕ × ℕ) → List (ℕ × ℕ)} (hperm : ∀ l, (perm l).Perm l) {letters : Bool}
    {lines : List SubLine} {words : List WordTiming} {no : List Str}
    (hs : bywords F letters gs lines = .ok (words, no)) (htime : ∀ w ∈ words, Plain10 w.time) :
    (adjust F d perm letters lines n).2 = .ok () ∧ Fit F d gs rate (adjust F d perm letters lines n).1 := by
  have hre := adjust_retexted F d perm letters lines hn
  obtain ⟨hok, hall⟩ := c126_texts_partial hF d hperm letters lines h.groups hs h.rate htime h.texts h.apart
    (h.matched _)
  have hroot := fit_root h
  have hctx := same_textCtx hre.1
  have hs' := hre.symm hn
  refine ⟨hok, ?_, ?_, ?_, ?_, ?_⟩
  · rw [(same_groups hn hroot hre).1]; exact h.groups
  · rw [same_animRoot hre.1]; exact h.rate
  · intro p q x y hp hq hx hy hne
    obtain ⟨x', hx', ex⟩ := hs'.at hre.2 hp (.inl hx.1)
    obtain ⟨y', hy', ey⟩ := hs'.at hre.2 hq (.inl hy.1)
    exact h.texts p q x' y' hx' hy' ((same_isLayer ex).2 hx) ((same_isLayer ey).2 hy) hne
  · intro p q x y hp hq hx hy hne
    obtain ⟨x', hx', ex⟩ := hs'.at hre.2 hp (.inl hx.1.1)
    obtain ⟨y', hy', ey⟩ := hs'.at hre.2 hq (.inl hy.1.1)
    exact h.apart p q x' y' hx' hy' ((same_bywordsGroup ex).2 hx) ((same_bywordsGroup ey).2 hy) hne
  · intro q r g x h0 hg hB hr0 hx hxl
    have hxe : nodeAt (q ++ r) (adjust F d perm letters lines n).1 = some x := by rw [nodeAt_append, hg]; exact hx
    obtain ⟨g', hg', eg⟩ := hs'.at hre.2 hg (.inl hB.1.1)
    obtain ⟨x', hx', ex⟩ := hs'.at hre.2 hxe (.inl hxl.1)
    have hB' := (same_bywordsGroup eg).2 hB
    have hxl' := (same_isLayer ex).2 hxl
    have hx'' : nodeAt r g' = some x' := by rw [nodeAt_append, hg'] at hx'; exact hx'
    obtain ⟨c, v, hv, hr⟩ := h.strings q r g' x' h0 hg' hB' hr0 hx'' hxl'
    obtain ⟨bg, -, t, -, -, -, hw⟩ := hall q r g' x' h0 hg' hB' hr0 hx'' hxl'
    obtain ⟨y, c', w, hy, hyw, hgo, hno⟩ := hw c v hv
    rw [hxe] at hy
    injection hy with hy
    subst hy
    refine ⟨c', w, hyw, ?_⟩
    rw [hctx]
    show Ready F (textCtx n) w
    by_cases hgoes : ∃ l ∈ lines, GoesTo gs l bg
    · obtain ⟨a, b⟩ := hgo hgoes
      by_cases hsch : ∃ s ∈ words, s.item = t.item
      · exact scheduled_ready rfl (a hsch)
      · rw [b hsch]
        exact Ready.again hr
    · rw [hno hgoes]
      exact hr

/-- A schedule can be made for this use of bywords, with no tiny times (see C93). -/
def Schedules (F : Fl) (gs : List BGroup) (u : BywordsUse) (words : List WordTiming) : Prop :=
  (∃ no, bywords F u.letters gs u.lines = .ok (words, no)) ∧ ∀ w ∈ words, Plain10 w.time

/-- A line of it goes to this group. -/
def Reaches (gs : List BGroup) (u : BywordsUse) (bg : BGroup) : Prop := ∃ l ∈ u.lines, GoesTo gs l bg

theorem useAll_items {F : Fl} (hF : F.Lawful) {d : Defaults} {gs : List BGroup} {rate : ℚ} {tbl : List (List Place)} :
    ∀ (us : List BywordsUse), (∀ u ∈ us, ∃ words, Schedules F gs u words) →
    ∀ {n : Node}, Simple n → Fit F d gs rate n → bwPlaces F d n = .ok tbl →
    (useAll F d us n).2 = .ok () ∧ Fit F d gs rate (useAll F d us n).1 ∧
    ∀ bg ∈ gs, ∀ t ∈ bg.texts, ∀ p x, placeOf tbl t.item = some p → nodeAt p n = some x →
      ∀ c v, getParam "text".toList x = .ok (c, v) →
      ∃ y c' w, nodeAt p (useAll F d us n).1 = some y ∧ getParam "text".toList y = .ok (c', w) ∧
        ((∀ u ∈ us, ¬ Reaches gs u bg) → w = v) ∧
        ∀ a u b words, us = a ++ u :: b → Schedules F gs u words → Reaches gs u bg → (∀ u' ∈ b, ¬ Reaches gs u' bg) →
          ((∃ s ∈ words, s.item = t.item) → TimelineIs F (textCtx n) "string".toList w (scheduledMap F rate words t.item)) ∧
          ((¬ ∃ s ∈ words, s.item = t.item) → Legal "string".toList w)
  | [], _, n, hn, h, _ => ⟨rfl, h, fun bg _ t _ p x _ hx c v hv => ⟨x, c, v, hx, hv, fun _ => rfl, by
      intro a u b words e
      cases a <;> cases e⟩⟩
  | u :: us, hus, n, hn, h, ht => by
    obtain ⟨words, ⟨no, hs⟩, htime⟩ := hus u (by simp)
    obtain ⟨hok, hfit⟩ := fit_adjust hF hn h u.perm_perm hs htime
    have hre := adjust_retexted F d u.perm u.letters u.lines hn
    have hroot := fit_root h
    have ht' : bwPlaces F d (adjust F d u.perm u.letters u.lines n).1 = .ok tbl := by
      rw [(same_groups hn hroot hre).2]; exact ht
    obtain ⟨i1, i2, i3⟩ := useAll_items hF us (fun u' hu' => hus u' (by simp [hu'])) hre.2 hfit ht'
    obtain ⟨-, hitem⟩ := adjust_item hF d u.perm_perm u.letters u.lines h.groups hs h.rate htime h.texts h.apart
      (h.matched _) ht
    have hu : useAll F d (u :: us) n = useAll F d us (adjust F d u.perm u.letters u.lines n).1 := by
      have : adjust F d u.perm u.letters u.lines n = ((adjust F d u.perm u.letters u.lines n).1, .ok ()) :=
        Prod.ext rfl hok
      rw [useAll, this]
    rw [hu]
    refine ⟨i1, i2, ?_⟩
    intro bg hbg t htm p x hp hx c v hv
    obtain ⟨y, c', w, hy, hyw, hgo, hno⟩ := hitem bg hbg t htm p x hp hx c v hv
    obtain ⟨y', c'', w', hy', hyw', hsame, hlast⟩ := i3 bg hbg t htm p y hp hy c' w hyw
    refine ⟨y', c'', w', hy', hyw', fun hnone => ?_, ?_⟩
    · rw [hsame fun u' hu' => hnone u' (by simp [hu']), hno (hnone u (by simp))]
    · intro a u1 b words1 e hs1 hr1 hb
      cases a with
      | nil =>
        injection e with e1 e2
        subst e1; subst e2
        obtain ⟨⟨no1, hs1⟩, -⟩ := hs1
        rw [hs] at hs1
        injection hs1 with hs1
        injection hs1 with hs1 _
        subst hs1
        rw [hsame hb]
        obtain ⟨g1, g2⟩ := hgo hr1
        refine ⟨g1, fun hns => ?_⟩
        rw [g2 hns]
        obtain ⟨i, gp, gn, ps, h0, hat, hB, hfull, hi, hts⟩ := group_info h.groups ht hbg
        obtain ⟨j, r, z, hit, hj, hr0, hrx, hz, -⟩ := hts t htm
        have hp' : placeOf tbl t.item = some (gp ++ r) := by rw [placeOf, hit]; simp only [hi, hj]
        rw [hp] at hp'
        injection hp' with hp'
        subst hp'
        have hzx : x = z := by
          rw [nodeAt_append, hat] at hx
          simp only [Option.bind_some] at hx
          rw [hrx] at hx
          injection hx with hx
          exact hx.symm
        subst hzx
        obtain ⟨c0, v0, hv0, -, hr0⟩ := h.strings gp r gn x h0 hat hB hr0 hrx hz
        rw [hv] at hv0
        injection hv0 with hv0
        injection hv0 with _ hv0
        subst hv0
        exact hr0
      | cons u2 a =>
        injection e with e1 e2
        subst e1
        have := hlast a u1 b words1 e2 hs1 hr1 hb
        rwa [same_textCtx hre.1] at this

/-- C146. Bywords can be used on an animation as often as one likes. In the end the text of each layer in a bywords
group is as the last of the subtitles with a line for that group say, whatever was there before: nothing at first,
then each of the layer's scheduled texts from the frame nearest to its time. (If those schedule nothing for it, it isn't
animated.) Texts of groups for which none has a line are as they were in the beginning. -/
theorem c146_last_use_partial {F : Fl} (hF : F.Lawful) {d : Defaults} {gs : List BGroup} {rate : ℚ} {n : Node}
    (hn : PlainParams n) (h : Fit F d gs rate n) {us : List BywordsUse}
    (hus : ∀ u ∈ us, ∃ words, Schedules F gs u words) :
    (useAll F d us n).2 = .ok () ∧ bwGroups F d (useAll F d us n).1 = .ok gs ∧
    ∀ q r g x, q ≠ [] → nodeAt q n = some g → BywordsGroup F g → r ≠ [] → nodeAt r g = some x → IsLayer "text" x →
      ∃ bg ∈ gs, ∃ t ∈ bg.texts, bg.fullText = groupWords F g ∧ getDesc F x = some t.desc ∧
        ∀ c v, getParam "text".toList x = .ok (c, v) →
          ∃ y c' w, nodeAt (q ++ r) (useAll F d us n).1 = some y ∧ getParam "text".toList y = .ok (c', w) ∧
            ((∀ u ∈ us, ¬ Reaches gs u bg) → w = v) ∧
            ∀ a u b words, us = a ++ u :: b → Schedules F gs u words → Reaches gs u bg →
              (∀ u' ∈ b, ¬ Reaches gs u' bg) →
              ((∃ s ∈ words, s.item = t.item) →
                TimelineIs F (textCtx n) "string".toList w (scheduledMap F rate words t.item)) ∧
              ((¬ ∃ s ∈ words, s.item = t.item) → Legal "string".toList w) := by
  obtain ⟨tbl, ht⟩ := places_exist h.groups
  obtain ⟨h1, h2, h3⟩ := useAll_items hF us hus (simple_of hn) h ht
  refine ⟨h1, h2.groups, ?_⟩
  intro q r g x h0 hat hB hr0 hrx hx
  obtain ⟨bg, hbg, t, htm, hfull, hp, hd⟩ := text_item h.groups ht h0 hat hB hr0 hrx hx
  have hxn : nodeAt (q ++ r) n = some x := by rw [nodeAt_append, hat]; exact hrx
  exact ⟨bg, hbg, t, htm, hfull, hd, h3 bg hbg t htm _ x hp hxn⟩

/-- C146. Using bywords a second time with the same subtitles ends without an exception and leaves each text showing at
each time what it showed after the first. -/
theorem c146_again_partial {F : Fl} (hF : F.Lawful) {d : Defaults} {gs : List BGroup} {rate : ℚ} {n : Node}
    (hn : PlainParams n) (h : Fit F d gs rate n) {u : BywordsUse} {words : List WordTiming}
    (hu : Schedules F gs u words) :
    (useAll F d [u, u] n).2 = .ok () ∧
    ∀ q r g x, q ≠ [] → nodeAt q n = some g → BywordsGroup F g → r ≠ [] → nodeAt r g = some x → IsLayer "text" x →
      ∃ y c w y' c' w', nodeAt (q ++ r) (useAll F d [u] n).1 = some y ∧ getParam "text".toList y = .ok (c, w) ∧
        nodeAt (q ++ r) (useAll F d [u, u] n).1 = some y' ∧ getParam "text".toList y' = .ok (c', w') ∧
        (w' = w ∨ ∃ m, TimelineIs F (textCtx n) "string".toList w m ∧ TimelineIs F (textCtx n) "string".toList w' m) := by
  obtain ⟨tbl, ht⟩ := places_exist h.groups
  have hs := simple_of hn
  obtain ⟨⟨no, hb⟩, htime⟩ := hu
  obtain ⟨hok, hfit⟩ := fit_adjust hF hs h u.perm_perm hb htime
  have hre := adjust_retexted F d u.perm u.letters u.lines hs
  have ht' : bwPlaces F d (adjust F d u.perm u.letters u.lines n).1 = .ok tbl := by
    rw [(same_groups hs (fit_root h) hre).2]; exact ht
  obtain ⟨-, i1⟩ := adjust_item hF d u.perm_perm u.letters u.lines h.groups hb h.rate htime h.texts h.apart
    (h.matched _) ht
  obtain ⟨hok', i2⟩ := adjust_item hF d u.perm_perm u.letters u.lines hfit.groups hb hfit.rate htime hfit.texts
    hfit.apart (hfit.matched _) ht'
  have e1 : useAll F d [u] n = ((adjust F d u.perm u.letters u.lines n).1, .ok ()) := by
    have : adjust F d u.perm u.letters u.lines n = ((adjust F d u.perm u.letters u.lines n).1, .ok ()) :=
      Prod.ext rfl hok
    rw [useAll, this]
    rfl
  have e2 : useAll F d [u, u] n =
      ((adjust F d u.perm u.letters u.lines (adjust F d u.perm u.letters u.lines n).1).1, .ok ()) := by
    have h1 : adjust F d u.perm u.letters u.lines n = ((adjust F d u.perm u.letters u.lines n).1, .ok ()) :=
      Prod.ext rfl hok
    generalize hm : (adjust F d u.perm u.letters u.lines n).1 = m at h1 hok' ⊢
    have h2 : adjust F d u.perm u.letters u.lines m = ((adjust F d u.perm u.letters u.lines m).1, .ok ()) :=
      Prod.ext rfl hok'
    rw [useAll, h1]
    simp only
    rw [useAll, h2]
    rfl
  rw [e1, e2]
  refine ⟨rfl, ?_⟩
  intro q r g x h0 hat hB hr0 hrx hx
  obtain ⟨bg, hbg, t, htm, hfull, hp, hd⟩ := text_item h.groups ht h0 hat hB hr0 hrx hx
  have hxn : nodeAt (q ++ r) n = some x := by rw [nodeAt_append, hat]; exact hrx
  obtain ⟨c, v, hv, -, hr⟩ := h.strings q r g x h0 hat hB hr0 hrx hx
  obtain ⟨y, c1, w, hy, hyw, g1, g2⟩ := i1 bg hbg t htm _ x hp hxn c v hv
  obtain ⟨y', c2, w', hy', hyw', g3, g4⟩ := i2 bg hbg t htm _ y hp hy c1 w hyw
  refine ⟨y, c1, w, y', c2, w', hy, hyw, hy', hyw', ?_⟩
  rw [same_textCtx hre.1] at g3
  by_cases hgo : ∃ l ∈ u.lines, GoesTo gs l bg
  · by_cases hsch : ∃ s ∈ words, s.item = t.item
    · exact .inr ⟨_, (g1 hgo).1 hsch, (g3 hgo).1 hsch⟩
    · refine .inl ?_
      have a := (g1 hgo).2 hsch
      have b := (g3 hgo).2 hsch
      rw [← a] at hr
      rw [b, unAnimate_legal hr]
  · exact .inl (g4 hgo)

/-! ## A case -/

theorem plainParams_of {n : Node} (h : ∀ a ∈ placesOf [] n, isParam "text".toList a.2 ∨ isParam "type_".toList a.2 →
    ∀ b ∈ placesOf [] a.2, b.1 ≠ [] → b.2.name ≠ "layer" ∧ b.2.name ≠ "param") : PlainParams n := by
  intro p y hy hp q z hq hz
  cases z with
  | text s => exact ⟨by simp [Node.name], by simp [Node.name]⟩
  | tag a b ks =>
    have hyt : y.isTag = true := by
      cases y with
      | text s => rcases hp with hp | hp <;> simp [IsParam, Node.name] at hp
      | tag => rfl
    exact h (p, y) (mem_placesOf.2 ⟨p, rfl, hy, hyt⟩) (hp.imp isParam_iff.2 isParam_iff.2) (q, .tag a b ks)
      (mem_placesOf.2 ⟨q, rfl, hz, rfl⟩) hq

/-- The groups of `exLyrics`. -/
def exGroups : List BGroup := [⟨"Bywords 1".toList, [⟨(0, 0), "Hello, World".toList⟩]⟩]

/-- Using bywords on it, and using it again with the line at another time. -/
def exUses : List BywordsUse :=
  [⟨false, exLines, id, fun _ => .rfl⟩, ⟨false, [⟨4000, 1000, "hello world".toList⟩], id, fun _ => .rfl⟩]

/-- They meet the conditions. -/
theorem exUses_ok : PlainParams exLyrics ∧ Fit double .initial exGroups 24 exLyrics ∧
    (∀ u ∈ exUses, ∃ words, Schedules double exGroups u words ∧ words.length = 2) ∧
    ∀ u ∈ exUses, ∃ bg ∈ exGroups, Reaches exGroups u bg := by
  obtain ⟨h1, ⟨words, h2, h3, h4⟩, h5, h6, h7, h8⟩ := exLyrics_ok
  refine ⟨plainParams_of (by decide +kernel), ⟨h1, h5, h6, h7, ?_⟩, ?_, ?_⟩
  · intro q r g x h0 hg hB hr0 hx hxl
    have hgt : g.isTag = true := by
      cases g with
      | text s => simp [BywordsGroup, IsLayer, Node.name] at hB
      | tag => rfl
    have hxt : x.isTag = true := by
      cases x with
      | text s => simp [IsLayer, Node.name] at hxl
      | tag => rfl
    have hin : ∀ a ∈ placesOf [] exLyrics, IsLayer "group" a.2 → ∀ b ∈ placesOf [] a.2, b.1 ≠ [] →
        IsLayer "text" b.2 → b.2 = exLyric := by decide +kernel
    have hx : x = exLyric := hin (q, g) (mem_placesOf.2 ⟨q, rfl, hg, hgt⟩) hB.1 (r, x)
      (mem_placesOf.2 ⟨r, rfl, hx, hxt⟩) hr0 hxl
    subst hx
    exact ⟨.string, .tag "string" [] [.text "Text".toList], by decide +kernel, by decide +kernel, by decide +kernel,
      by decide +kernel, by decide +kernel, .string, by decide +kernel⟩
  · intro u hu
    simp only [exUses, List.mem_cons, List.not_mem_nil, or_false] at hu
    rcases hu with rfl | rfl
    · exact ⟨words, ⟨⟨_, h2⟩, h4⟩, h3⟩
    · refine ⟨_, ⟨⟨[], rfl⟩, ?_⟩, by decide +kernel⟩
      have : ∀ w ∈ (match bywords double false exGroups [⟨4000, 1000, "hello world".toList⟩] with
        | .ok (l, _) => l
        | .error _ => []), (10:ℚ) ^ (-4:ℤ) ≤ w.time ∧ w.time < (10:ℚ) ^ (16:ℤ) := by decide +kernel
      exact fun w hw => .inr (this w hw)
  · intro u hu
    simp only [exUses, List.mem_cons, List.not_mem_nil, or_false] at hu
    rcases hu with rfl | rfl
    · exact ⟨_, .head _, ⟨1000, 2000, "HELLO world!".toList⟩, .head _, [], [], rfl, by simp, by decide +kernel⟩
    · exact ⟨_, .head _, ⟨4000, 1000, "hello world".toList⟩, .head _, [], [], rfl, by simp, by decide +kernel⟩

/-- C146. But a text which had an animation of its own, or another text, does not get it back. -/
theorem c146_no_undo :
    let a := (useAll double .initial [⟨false, exLines, id, fun _ => .rfl⟩, ⟨false, [], id, fun _ => .rfl⟩] exLyrics).1
    a = (useAll double .initial [⟨false, exLines, id, fun _ => .rfl⟩] exLyrics).1 ∧ a ≠ exLyrics := by decide +kernel

end Sang
