import Verif.Lemmas.SungText
import Verif.Props.BywordsAgain

/-!
# What bywords makes of an animation, and saving and opening it between
-/

namespace Sang

open Spec

/-- The words of a schedule are at times which saving keeps well enough. -/
def WellTimed (F : Fl) (k : ℕ) (words : List WordTiming) : Prop := ∀ w ∈ words, Written (F.rnd (w.time * k)) k

/-- What is so of an animation read from a file, and stays so while bywords is used on it, and while it is saved and
opened again. -/
structure Steady (F : Fl) (d : Defaults) (gs : List BGroup) (tbl : List (List Place)) (k : ℕ) (e : Node) : Prop where
  groups : bwGroups F d e = .ok gs
  places : bwPlaces F d e = .ok tbl
  calm : Calm false e
  xml : e.XmlOk F
  tag : e.isTag = true
  clean : Clean e
  rate : readFps F (animRoot e) = .ok (some (k:ℚ))
  texts : ∀ x p, placeOf tbl x = some p → ∃ v, itemText tbl e x = some v ∧ Ready F (textCtx e) v ∧ TextKind k v

theorem touched_place {F : Fl} {d : Defaults} {n : Node} {gs : List BGroup} {tbl : List (List Place)}
    (hg : bwGroups F d n = .ok gs) (ht : bwPlaces F d n = .ok tbl) {lines : List SubLine} {x : ℕ × ℕ}
    (h : Touched gs lines x) : ∃ p, placeOf tbl x = some p := by
  obtain ⟨l, hl, g, hgo, t, htm, rfl⟩ := h
  obtain ⟨i, gp, gn, ps, h0, hat, hB, hfull, hi, hts⟩ := group_info hg ht (goesTo_mem hgo)
  obtain ⟨j, r, z, hit, hj, -⟩ := hts t htm
  exact ⟨gp ++ r, by rw [placeOf, hit]; simp only [hi, hj]⟩

theorem itemText_xml {F : Fl} {tbl : List (List Place)} {e v : Node} {x : ℕ × ℕ} (hx : e.XmlOk F)
    (h : itemText tbl e x = some v) : v.XmlOk F := by
  obtain ⟨p, y, c, -, hy, hv⟩ := itemText_some.1 h
  obtain ⟨q, i, hq, -⟩ := getParam_place hv
  exact xmlOk_at (xmlOk_at hx hy) hq

theorem itemText_tidy {tbl : List (List Place)} {e v : Node} {x : ℕ × ℕ} (hx : e.Tidy)
    (h : itemText tbl e x = some v) : v.Tidy := by
  obtain ⟨p, y, c, -, hy, hv⟩ := itemText_some.1 h
  obtain ⟨q, i, hq, -⟩ := getParam_place hv
  exact tidy_at (tidy_at hx hy) hq

theorem itemText_none {tbl : List (List Place)} {e : Node} {x : ℕ × ℕ} (h : placeOf tbl x = none) :
    itemText tbl e x = none := by
  rw [itemText, h]

theorem opened_twice {F : Fl} {n : Node} (hx : n.XmlOk F) : (n.opened F).opened F = n.opened F := by
  cases n with
  | text s => rfl
  | tag a b ks => exact opened_opened hx rfl

/-- Opening keeps it. -/
theorem Steady.opened {F : Fl} (hF : F.Lawful) {d : Defaults} {gs : List BGroup} {tbl : List (List Place)} {k : ℕ}
    (hk : 1 ≤ k) (hk6 : k < 10 ^ 6) {e : Node} (h : Steady F d gs tbl k e) : Steady F d gs tbl k (e.opened F) := by
  have hknown := known_of_groups h.groups
  have htidy := opened_tidy h.xml h.tag
  have hn := new_opened h.xml h.clean
  have hrate : readFps F (animRoot (e.opened F)) = .ok (some (k:ℚ)) := hn.1.trans h.rate
  refine ⟨?_, ?_, opened_calm h.xml h.clean h.calm, htidy.xmlOk F, ?_, htidy.clean, hrate, ?_⟩
  · rw [opened_bwGroups d h.xml h.clean h.calm hknown]; exact h.groups
  · rw [opened_bwPlaces d h.xml h.clean h.calm hknown]; exact h.places
  · have := h.tag
    cases e with
    | text s => cases this
    | tag => rw [opened_tag]; rfl
  · intro x p hp
    obtain ⟨v, hv, hr, hv'⟩ := h.texts x p hp
    have ho := itemText_opened h.xml h.clean hv
    exact ⟨_, ho, (hv'.opened hF (ctx := textCtx e) (ctx' := textCtx (e.opened F)) hk hk6 h.rate hrate rfl rfl
      (itemText_xml h.xml hv) hr).1, .inl (itemText_tidy htidy ho)⟩

open Classical in
/-- Using bywords keeps it, and succeeds. -/
theorem Steady.adjust {F : Fl} (hF : F.Lawful) {d : Defaults} {gs : List BGroup} {tbl : List (List Place)} {k : ℕ}
    (hk : 1 ≤ k) (hk6 : k < 10 ^ 6) (ha : Apart' tbl) {e : Node} (h : Steady F d gs tbl k e) {u : BywordsUse}
    {words : List WordTiming} (hs : Schedules F gs u words) (hw : WellTimed F k words) :
    (adjust F d u.perm u.letters u.lines e).2 = .ok () ∧ Steady F d gs tbl k (adjust F d u.perm u.letters u.lines e).1 ∧
    Kept tbl e (adjust F d u.perm u.letters u.lines e).1 ∧
    ∀ x, itemText tbl (adjust F d u.perm u.letters u.lines e).1 x =
      if ∃ w ∈ words, w.item = x then
        (itemText tbl e x).map fun v => (adjustText F (textCtx e) x words (unAnimate F (textCtx e) v).1).1
      else if Touched gs u.lines x then (itemText tbl e x).map fun v => (unAnimate F (textCtx e) v).1
      else itemText tbl e x := by
  obtain ⟨⟨no, hs⟩, htime⟩ := hs
  obtain ⟨r, K, I⟩ := adjust_summary hF d u.perm_perm u.letters u.lines h.groups h.places ha hs h.rate htime
    (fun x hx => by
      obtain ⟨p, hp⟩ := touched_place h.groups h.places hx
      obtain ⟨v, h1, h2, -⟩ := h.texts x p hp
      exact ⟨v, h1, h2⟩) (kept_start h.places h.calm)
  refine ⟨r, ?_, K, I⟩
  obtain ⟨x1, x2⟩ := adjust_good d u.perm u.letters u.lines e ⟨h.xml, h.tag⟩
  obtain ⟨g1, g2⟩ := groups_of_bared d d h.calm K.calm K.bare h.groups h.places
  have hctx := textCtx_of_bared K.bare
  have hroot := animRoot_of_bared K.bare
  have hwt : ∀ w ∈ words, F.rep w.time ∧ Plain10 w.time ∧ Written (F.rnd (w.time * k)) k := fun w hwm =>
    ⟨c93_times_are_floats hF hs w hwm, htime w hwm, hw w hwm⟩
  have hun : ∀ x v, itemText tbl e x = some v → Ready F (textCtx e) v → TextKind k v →
      Ready F (textCtx e) (unAnimate F (textCtx e) v).1 ∧ TextKind k (unAnimate F (textCtx e) v).1 := by
    intro x v hv hr hv'
    exact ⟨hr.again, (hv'.opened hF (ctx := textCtx e) (ctx' := textCtx e) hk hk6 h.rate h.rate rfl rfl
      (itemText_xml h.xml hv) hr).2.2⟩
  have htexts : ∀ x p, placeOf tbl x = some p → ∃ v, itemText tbl (Sang.adjust F d u.perm u.letters u.lines e).1 x = some v ∧
      Ready F (textCtx e) v ∧ TextKind k v := by
    intro x p hp
    obtain ⟨v, hv, hr, hv'⟩ := h.texts x p hp
    obtain ⟨u1, u2⟩ := hun x v hv hr hv'
    have hI := I x
    rw [hv] at hI
    split at hI
    · obtain ⟨-, a2⟩ := sung_adjust hF (ctx := textCtx e) h.rate rfl (x := x) hwt hr.2
      refine ⟨_, hI, ?_, .inr (.inl a2)⟩
      obtain ⟨s, e1, -, -⟩ := a2.unAnimate hF (ctx := textCtx e) (ctx' := textCtx e) hk hk6 h.rate h.rate rfl rfl
        (itemText_xml x1 hI)
      rw [Ready, e1]
      exact ⟨rfl, held_legal s⟩
    · split at hI
      · exact ⟨_, hI, u1, u2⟩
      · exact ⟨_, hI, hr, hv'⟩
  refine ⟨g1, g2, K.calm, x1, x2, ?_, by rw [hroot]; exact h.rate, ?_⟩
  · refine Kept.clean (kept_start h.places h.calm) K h.clean fun x v hv => ?_
    cases hp : placeOf tbl x with
    | none => rw [itemText_none hp] at hv; cases hv
    | some p =>
      obtain ⟨v', hv', -, hk'⟩ := htexts x p hp
      rw [hv] at hv'
      injection hv' with hv'
      subst hv'
      exact hk'.clean
  · rw [hctx]
    exact htexts

/-- Opening the animation first makes no difference once it is saved and opened afterwards. -/
theorem Steady.commute {F : Fl} (hF : F.Lawful) {d : Defaults} {gs : List BGroup} {tbl : List (List Place)} {k : ℕ}
    (hk : 1 ≤ k) (hk6 : k < 10 ^ 6) (ha : Apart' tbl) {e : Node} (h : Steady F d gs tbl k e) {u : BywordsUse}
    {words : List WordTiming} (hs : Schedules F gs u words) (hw : WellTimed F k words) :
    (Sang.adjust F d u.perm u.letters u.lines (e.opened F)).1.opened F =
      (Sang.adjust F d u.perm u.letters u.lines e).1.opened F := by
  classical
  have ho := h.opened hF hk hk6
  obtain ⟨-, s1, K1, I1⟩ := h.adjust hF hk hk6 ha hs hw
  obtain ⟨-, s2, K2, I2⟩ := ho.adjust hF hk hk6 ha hs hw
  have k0 := kept_start h.places h.calm
  have k0' := kept_start ho.places ho.calm
  have o1 := k0.opened K1 h.clean h.xml s1.clean s1.xml
  have o2 := k0'.opened K2 ho.clean ho.xml s2.clean s2.xml
  rw [opened_twice h.xml] at o2
  refine k0'.ext o2 o1 fun x => ?_
  cases hp : placeOf tbl x with
  | none => rw [itemText_none hp, itemText_none hp]
  | some p =>
    obtain ⟨v, hv, hr, hv'⟩ := h.texts x p hp
    have hvo := itemText_opened h.xml h.clean hv
    obtain ⟨t1, t2, -⟩ := hv'.opened hF (ctx := textCtx e) (ctx' := textCtx (e.opened F)) hk hk6 h.rate ho.rate rfl rfl
      (itemText_xml h.xml hv) hr
    have i1 := I1 x
    have i2 := I2 x
    rw [hv] at i1
    rw [hvo] at i2
    have fin : ∀ a b, itemText tbl (Sang.adjust F d u.perm u.letters u.lines e).1 x = some a →
        itemText tbl (Sang.adjust F d u.perm u.letters u.lines (e.opened F)).1 x = some b →
        b.opened F = a.opened F →
        itemText tbl ((Sang.adjust F d u.perm u.letters u.lines (e.opened F)).1.opened F) x =
          itemText tbl ((Sang.adjust F d u.perm u.letters u.lines e).1.opened F) x := by
      intro a b h1 h2 h3
      rw [itemText_opened s1.xml s1.clean h1, itemText_opened s2.xml s2.clean h2, h3]
    by_cases hx : ∃ w ∈ words, w.item = x
    · rw [if_pos hx] at i1 i2
      refine fin _ _ i1 i2 ?_
      have c : ∀ m, adjustText F (textCtx (e.opened F)) x words m = adjustText F (textCtx e) x words m := fun m =>
        adjustText_ctx (new_opened h.xml h.clean).2 true x words m
      simp only [c]
      rw [adjustText_any hF (ctx := textCtx e) h.rate rfl t1.2 hr.2]
    · rw [if_neg hx] at i1 i2
      by_cases htx : Touched gs u.lines x
      · rw [if_pos htx] at i1 i2
        refine fin _ _ i1 i2 ?_
        simp only [t2]
        exact opened_twice (itemText_xml s1.xml i1)
      · rw [if_neg htx] at i1 i2
        exact fin _ _ i1 i2 (opened_twice (itemText_xml h.xml hv))

/-- Using bywords several times. -/
theorem Steady.useAll {F : Fl} (hF : F.Lawful) {d : Defaults} {gs : List BGroup} {tbl : List (List Place)} {k : ℕ}
    (hk : 1 ≤ k) (hk6 : k < 10 ^ 6) (ha : Apart' tbl) : ∀ {us : List BywordsUse},
    (∀ u ∈ us, ∃ words, Schedules F gs u words ∧ WellTimed F k words) → ∀ {e : Node}, Steady F d gs tbl k e →
    (Spec.useAll F d us e).2 = .ok () ∧ Steady F d gs tbl k (Spec.useAll F d us e).1
  | [], _, e, h => ⟨rfl, h⟩
  | u :: us, hus, e, h => by
    obtain ⟨words, hs, hw⟩ := hus u (by simp)
    obtain ⟨r, s, -⟩ := h.adjust hF hk hk6 ha hs hw
    have : Sang.adjust F d u.perm u.letters u.lines e = ((Sang.adjust F d u.perm u.letters u.lines e).1, .ok ()) :=
      Prod.ext rfl r
    rw [Spec.useAll, this]
    exact Steady.useAll hF hk hk6 ha (fun u' hu' => hus u' (by simp [hu'])) s

theorem Steady.useAll_opened {F : Fl} (hF : F.Lawful) {d : Defaults} {gs : List BGroup} {tbl : List (List Place)} {k : ℕ}
    (hk : 1 ≤ k) (hk6 : k < 10 ^ 6) (ha : Apart' tbl) : ∀ {us : List BywordsUse},
    (∀ u ∈ us, ∃ words, Schedules F gs u words ∧ WellTimed F k words) → ∀ {e e' : Node}, Steady F d gs tbl k e →
    Steady F d gs tbl k e' → e.opened F = e'.opened F →
    (Spec.useAll F d us e).1.opened F = (Spec.useAll F d us e').1.opened F
  | [], _, _, _, _, _, he => he
  | u :: us, hus, e, e', h, h', he => by
    obtain ⟨words, hs, hw⟩ := hus u (by simp)
    obtain ⟨r, s, -⟩ := h.adjust hF hk hk6 ha hs hw
    obtain ⟨r', s', -⟩ := h'.adjust hF hk hk6 ha hs hw
    have e1 : Sang.adjust F d u.perm u.letters u.lines e = ((Sang.adjust F d u.perm u.letters u.lines e).1, .ok ()) :=
      Prod.ext rfl r
    have e2 : Sang.adjust F d u.perm u.letters u.lines e' = ((Sang.adjust F d u.perm u.letters u.lines e').1, .ok ()) :=
      Prod.ext rfl r'
    rw [Spec.useAll, Spec.useAll, e1, e2]
    refine Steady.useAll_opened hF hk hk6 ha (fun u' hu' => hus u' (by simp [hu'])) s s' ?_
    have c1 := h.commute hF hk hk6 ha hs hw
    have c2 := h'.commute hF hk hk6 ha hs hw
    rw [← c1, ← c2, he]

end Sang
