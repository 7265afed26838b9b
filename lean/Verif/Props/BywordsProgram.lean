import Verif.Spec.BywordsProgram
import Verif.Props.Program
import Verif.Props.Adjust
import Verif.Props.Subscripts

/-!
# C126: bywords, from the subtitles to the animation
-/

namespace Sang

open Spec

/-! ## Which layers the items are -/

theorem group_targets :
    posArg {pos := [.cls "Group".toList]} = .ok (.none, [("type", .cls "Group".toList)]) ∧
    criteria {pos := [.cls "Group".toList]} [("type", .cls "Group".toList)] =
      .ok [("type_", .str "group".toList)] := 
  ⟨rfl, by
    have h : normaliseName "Group".toList = "group".toList := by decide
    show Except.ok [("type_", PV.str (normaliseName "Group".toList))] = _
    rw [h]⟩

theorem matcher_group {F : Fl} {d : Defaults} {x : Node} (hx : isLayerElt x = true) :
    matcher F d .none [("type_", .str "group".toList)] x = .ok true ↔ IsLayer "group" x :=
  matcher_type (lc := lcGroup) (by decide +kernel) (by decide +kernel) (by decide +kernel) hx

/-- The groups for bywords, with or without their places. -/
theorem wantedAt_wanted (F : Fl) (ys : List (Place × LObj)) :
    bwWanted F (ys.map Prod.snd) = (bwWantedAt F ys).map fun p => ((getDesc F p.2).getD [], p.2) := by
  simp only [bwWanted, bwWantedAt]
  generalize "bywords".toList = pre
  induction ys with
  | nil => rfl
  | cons y ys ih =>
    rw [List.map_cons, List.filterMap_cons, List.filterMap_cons]
    cases hd : getDesc F y.2.2 with
    | none => exact ih
    | some s =>
      by_cases hp : pre.isPrefixOf (lower s) = true
      · simp only [hp, if_true, List.map_cons, hd, Option.getD_some, ih]
      · simp only [hp, ih, Bool.false_eq_true, if_false]

theorem mapRes_at {α β : Type} {f : α → Res β} {l : List α} {r : List β} (h : mapRes f l = .ok r) {j : ℕ} {x : α}
    (hx : l[j]? = some x) : ∃ y, r[j]? = some y ∧ f x = .ok y := by
  have hl := mapRes_length h
  have hj : j < r.length := by
    rw [hl]; exact (List.getElem?_eq_some_iff.1 hx).1
  obtain ⟨x', hx', hy⟩ := mapRes_get h j hj
  rw [hx] at hx'
  injection hx' with hx'
  subst hx'
  exact ⟨_, List.getElem?_eq_getElem hj, hy⟩

theorem mem_wantedAt {F : Fl} {ys : List (Place × LObj)} {p : Place × Node} (h : p ∈ bwWantedAt F ys) :
    ∃ c, (p.1, (c, p.2)) ∈ ys ∧ ∃ s, getDesc F p.2 = some s ∧ "bywords".toList <+: lower s := by
  rw [bwWantedAt, List.mem_filterMap] at h
  obtain ⟨y, hy, h⟩ := h
  split at h
  · next s hs =>
    split at h
    · next hp =>
      injection h with h
      subst h
      exact ⟨y.2.1, hy, s, hs, List.isPrefixOf_iff_prefix.1 hp⟩
    · cases h
  · cases h

theorem wantedAt_nodup {F : Fl} {ys : List (Place × LObj)} (h : (ys.map Prod.fst).Nodup) :
    ((bwWantedAt F ys).map Prod.fst).Nodup := by
  refine List.Nodup.sublist ?_ h
  clear h
  induction ys with
  | nil => exact List.Sublist.refl _
  | cons y ys ih =>
    rw [bwWantedAt, List.filterMap_cons]
    rw [bwWantedAt] at ih
    split
    · exact ih.cons _
    · next b hb =>
      have hb1 : b.1 = y.1 := by
        split at hb
        · split at hb
          · injection hb with hb; rw [← hb]
          · cases hb
        · cases hb
      rw [List.map_cons, List.map_cons, hb1]
      exact ih.cons_cons _

/-- What a search for text layers finds. -/
theorem found_texts {F : Fl} {d : Defaults} {p : Place} {g : Node} {zs : List (Place × LObj)}
    (h : findAllAt F d {pos := [.str "text".toList]} p g = .ok zs) : zs.map (fun z => z.2.2) = textLayers g := by
  have h1 : findAllLayers F d {pos := [.str "text".toList]} true g = .ok (zs.map Prod.snd) := by
    rw [findAllAt_layers F d _ p g, h]
  obtain ⟨h2, h3, -⟩ := (search_ok text_targets.1 text_targets.2).1 h1
  rw [List.map_map] at h3
  rw [show zs.map (fun z => z.2.2) = zs.map (Prod.snd ∘ Prod.snd) from rfl, h3, textLayers]
  apply List.filter_congr
  intro x hx
  have hl := layersBelow_isLayer hx
  have hm := matcher_text (F := F) (d := d) hl
  obtain ⟨b, hb⟩ := h2 x hx
  rw [hb] at hm ⊢
  cases b
  · simp only [Except.ok.injEq, Bool.false_eq_true, false_iff] at hm
    simp only
    symm
    rw [decide_eq_false_iff_not]
    intro e
    exact hm ⟨name_of_isLayerElt hl, e⟩
  · simp only [true_iff] at hm
    simp only
    symm
    rw [decide_eq_true_eq]
    exact hm.2

/-- What the groups and the places of an animation have to do with it. -/
theorem group_info {F : Fl} {d : Defaults} {n : Node} {gs : List BGroup} {tbl : List (List Place)}
    (h : bwGroups F d n = .ok gs) (ht : bwPlaces F d n = .ok tbl) {g : BGroup} (hg : g ∈ gs) :
    ∃ i gp gn ps, gp ≠ [] ∧ nodeAt gp n = some gn ∧ BywordsGroup F gn ∧ g.fullText = groupWords F gn ∧
      tbl[i]? = some ps ∧
      ∀ t ∈ g.texts, ∃ j r x, t.item = (i, j) ∧ ps[j]? = some (gp ++ r) ∧ r ≠ [] ∧ nodeAt r gn = some x ∧
        IsLayer "text" x ∧ getDesc F x = some t.desc := by
  simp only [bwPlaces] at ht
  cases hf : findAllAt F d {pos := [.cls "Group".toList]} [] n with
  | error e => rw [hf] at ht; cases ht
  | ok ys =>
    rw [hf] at ht
    simp only at ht
    have h1 : findAllLayers F d {pos := [.cls "Group".toList]} true n = .ok (ys.map Prod.snd) := by
      rw [findAllAt_layers F d _ [] n, hf]
    simp only [bwGroups, h1, wantedAt_wanted] at h
    split at h
    · cases h
    next gs' hgs =>
    injection h with h
    subst h
    have hg := (List.mem_insertionSort _).1 hg
    obtain ⟨⟨⟨s, gn⟩, i⟩, hmem, hgr⟩ := mapRes_mem hgs hg
    simp only at hgr
    have hw : ((bwWantedAt F ys).map fun p => ((getDesc F p.2).getD [], p.2))[i]? = some (s, gn) := by
      have := List.mem_zipIdx_iff_getElem?.1 hmem
      exact this
    rw [List.getElem?_map] at hw
    cases hwi : (bwWantedAt F ys)[i]? with
    | none => rw [hwi] at hw; cases hw
    | some q =>
      obtain ⟨gp, gn'⟩ := q
      rw [hwi] at hw
      simp only [Option.map_some, Option.some.injEq, Prod.mk.injEq] at hw
      obtain ⟨hs, rfl⟩ := hw
      obtain ⟨ps, hps, hta⟩ := mapRes_at ht hwi
      obtain ⟨c, hc, s', hs', hpre⟩ := mem_wantedAt (List.mem_of_getElem? hwi)
      simp only at hc hs'
      obtain ⟨⟨gp', hgp, h0, hat⟩, hl, -, hm⟩ := (mem_findAllAt group_targets.1 group_targets.2 hf).1 hc
      simp only [List.nil_append] at hgp
      subst hgp
      have hBG : BywordsGroup F gn' := ⟨(matcher_group hl).1 hm, s', hs', hpre⟩
      simp only [bwTextsAt] at hta
      split at hta
      · cases hta
      next zs hzs =>
      injection hta with hta
      subst hta
      have hxs : findAllLayers F d {pos := [.str "text".toList]} true gn' = .ok (zs.map Prod.snd) := by
        rw [findAllAt_layers F d _ gp gn', hzs]
      refine ⟨i, gp, gn', _, h0, hat, hBG, ?_, hps, ?_⟩
      · obtain ⟨-, xs, hx1, hx2⟩ := c94_texts hgr
        rw [hxs] at hx1
        injection hx1 with hx1
        subst hx1
        rw [fullText_eq, groupText, groupWords, ← found_texts hzs]
        congr 1
        have e1 : g.texts.map (fun t => normal t.desc) =
            (g.texts.map fun t => some t.desc).map fun o => normal (o.getD []) := by
          rw [List.map_map]; rfl
        rw [e1, ← hx2]
        simp only [← List.map_reverse, List.map_map]
        rfl
      · intro t htm
        simp only [bwGroup, hxs] at hgr
        split at hgr
        · cases hgr
        next ts hts =>
        injection hgr with hgr
        subst hgr
        obtain ⟨⟨z, j⟩, hz, hzt⟩ := mapRes_mem hts htm
        simp only at hzt
        split at hzt
        · cases hzt
        next sd hsd =>
        injection hzt with hzt
        subst hzt
        have hz := List.mem_zipIdx_iff_getElem?.1 hz
        simp only at hz
        rw [← List.map_reverse, List.getElem?_map] at hz
        cases hzj : zs.reverse[j]? with
        | none => rw [hzj] at hz; cases hz
        | some w =>
          rw [hzj] at hz
          simp only [Option.map_some, Option.some.injEq] at hz
          subst hz
          have hwz : w ∈ zs := List.mem_reverse.1 (List.mem_of_getElem? hzj)
          obtain ⟨wp, wc, wx⟩ := w
          obtain ⟨⟨r, hr, hr0, hrx⟩, hrl, -, hrm⟩ := (mem_findAllAt text_targets.1 text_targets.2 hzs).1 hwz
          refine ⟨j, r, wx, rfl, ?_, hr0, hrx, (matcher_text hrl).1 hrm, hsd⟩
          rw [← List.map_reverse, List.getElem?_map, hzj, ← hr]
          rfl

/-! ## What it leaves alone -/

theorem onText_same {want : List ℕ → Prop} {d e : Node} {tbl : List (List Place)} {x : ℕ × ℕ}
    {g : Node → Node × Res Unit} (hx : ∀ p, placeOf tbl x = some p → want p)
    (he : SameBut (InParam "text" want d) d e) : SameBut (InParam "text" want d) d (onText tbl x g e).1 := by
  rw [onText]
  split
  · exact he
  · next p hp => exact actAt_same (fun _ _ hr => onParam_other hr) (hx p hp) he

theorem clearTexts_same {F : Fl} {ctx : Ctx} {want : List ℕ → Prop} {d : Node} {tbl : List (List Place)}
    {l : List (ℕ × ℕ)} (hl : ∀ x ∈ l, ∀ p, placeOf tbl x = some p → want p) {e : Node}
    (he : SameBut (InParam "text" want d) d e) :
    SameBut (InParam "text" want d) d (clearTexts F ctx tbl l e).1 := by
  induction l generalizing e with
  | nil => exact he
  | cons x l ih =>
    have h := onText_same (g := unAnimate F ctx) (hl x (by simp)) he
    rw [clearTexts]
    split
    · next h' => rw [h'] at h; exact h
    · next h' => rw [h'] at h; exact ih (fun y hy => hl y (by simp [hy])) h

theorem firstMatchDoc_same {F : Fl} {ctx : Ctx} {letters : Bool} {l : SubLine} {want : List ℕ → Prop} {d : Node}
    {tbl : List (List Place)} {gs : List BGroup}
    (hg : ∀ g ∈ gs, tidy l.text = g.fullText → ∀ t ∈ g.texts, ∀ p, placeOf tbl t.item = some p → want p)
    {e : Node} (he : SameBut (InParam "text" want d) d e) :
    SameBut (InParam "text" want d) d (firstMatchDoc F ctx tbl letters l gs e).1 ∧
    ∀ ws, (firstMatchDoc F ctx tbl letters l gs e).2 = .ok (some ws) →
      ∀ w ∈ ws, ∀ p, placeOf tbl w.item = some p → want p := by
  induction gs generalizing e with
  | nil => exact ⟨he, fun ws h => by simp [firstMatchDoc] at h⟩
  | cons g gs ih =>
    have ih := fun {e} => ih (e := e) fun g' hg' => hg g' (by simp [hg'])
    rw [firstMatchDoc]
    split
    · exact ih he
    next hm =>
    have hm : tidy l.text = g.fullText := not_not.1 hm
    have hg' := hg g (by simp) hm
    have h := clearTexts_same (F := F) (ctx := ctx) (tbl := tbl) (l := g.texts.map BText.item) (by
      intro x hx
      obtain ⟨t, ht, rfl⟩ := List.mem_map.1 hx
      exact hg' t ht) he
    split
    · next h' => rw [h'] at h; exact ⟨h, fun ws hw => by cases hw⟩
    next h' =>
    rw [h'] at h
    split
    · exact ⟨h, fun ws hw => by cases hw⟩
    · next w ws hws =>
      refine ⟨h, fun ws' hw' => ?_⟩
      injection hw' with hw'
      injection hw' with hw'
      subst hw'
      intro w' hw'
      have hmem : (w'.text, w'.item) ∈ g.shown letters := by
        rw [← bwMatches_texts hws]
        exact List.mem_map.2 ⟨w', hw', rfl⟩
      obtain ⟨t, ht, hs⟩ := List.mem_flatMap.1 hmem
      obtain ⟨s, -, hs⟩ := List.mem_map.1 hs
      injection hs with _ hs
      rw [← hs]
      exact hg' t ht
    · exact ih h

theorem of_mem_putWord {w x : WordTiming} {d : List WordTiming} (h : x ∈ putWord w d) : x = w ∨ x ∈ d := by
  induction d with
  | nil => simpa [putWord] using h
  | cons y d ih =>
    rw [putWord] at h
    split at h
    · rcases List.mem_cons.1 h with h | h
      · exact .inl h
      · exact .inr (by simp [h])
    · rcases List.mem_cons.1 h with h | h
      · exact .inr (by simp [h])
      · rcases ih h with h | h
        · exact .inl h
        · exact .inr (by simp [h])

theorem mem_putWords {x : WordTiming} {ws d : List WordTiming}
    (h : x ∈ ws.foldl (fun d w => putWord w d) d) : x ∈ ws ∨ x ∈ d := by
  induction ws generalizing d with
  | nil => exact .inr h
  | cons w ws ih =>
    rcases ih h with h | h
    · exact .inl (by simp [h])
    · rcases of_mem_putWord h with rfl | h
      · exact .inl (by simp)
      · exact .inr h

theorem matchLinesDoc_same {F : Fl} {ctx : Ctx} {letters : Bool} {lines : List SubLine} {want : List ℕ → Prop}
    {d : Node} {tbl : List (List Place)} {gs : List BGroup}
    (hg : ∀ l ∈ lines, ∀ g ∈ gs, tidy l.text = g.fullText →
      ∀ t ∈ g.texts, ∀ p, placeOf tbl t.item = some p → want p)
    {dict : List WordTiming} (hd : ∀ w ∈ dict, ∀ p, placeOf tbl w.item = some p → want p)
    {e : Node} (he : SameBut (InParam "text" want d) d e) :
    SameBut (InParam "text" want d) d (matchLinesDoc F ctx tbl letters gs dict lines e).1 ∧
    ∀ ws, (matchLinesDoc F ctx tbl letters gs dict lines e).2 = .ok ws →
      ∀ w ∈ ws, ∀ p, placeOf tbl w.item = some p → want p := by
  induction lines generalizing dict e with
  | nil =>
    refine ⟨he, fun ws h => ?_⟩
    simp only [matchLinesDoc] at h
    injection h with h
    subst h
    exact hd
  | cons l lines ih =>
    have ih := fun {dict} hd {e} => ih (dict := dict) (e := e) (fun l' hl' => hg l' (by simp [hl'])) hd
    obtain ⟨h1, h2⟩ := firstMatchDoc_same (F := F) (ctx := ctx) (letters := letters) (hg l (by simp)) he
    rw [matchLinesDoc]
    split
    · next h' => rw [h'] at h1; exact ⟨h1, fun ws hw => by cases hw⟩
    · next ws h' =>
      rw [h'] at h1 h2
      refine ih (fun w hw => ?_) h1
      rcases mem_putWords hw with hw | hw
      · exact h2 ws rfl w hw
      · exact hd w hw
    · next h' => rw [h'] at h1; exact ih hd h1

theorem adjustItems_same {F : Fl} {ctx : Ctx} {words : List WordTiming} {want : List ℕ → Prop} {d : Node}
    {tbl : List (List Place)} {l : List (ℕ × ℕ)} (hl : ∀ x ∈ l, ∀ p, placeOf tbl x = some p → want p) {e : Node}
    (he : SameBut (InParam "text" want d) d e) :
    SameBut (InParam "text" want d) d (adjustItems F ctx tbl words l e).1 := by
  induction l generalizing e with
  | nil => exact he
  | cons x l ih =>
    have h := onText_same (g := adjustText F ctx x words) (hl x (by simp)) he
    rw [adjustItems]
    split
    · next h' => rw [h'] at h; exact h
    · next h' => rw [h'] at h; exact ih (fun y hy => hl y (by simp [hy])) h

/-- The layers of a group which says what one of the lines says. -/
theorem item_matched {F : Fl} {d : Defaults} {n : Node} {gs : List BGroup} {tbl : List (List Place)}
    (h : bwGroups F d n = .ok gs) (ht : bwPlaces F d n = .ok tbl) {g : BGroup} (hg : g ∈ gs) {lines : List SubLine}
    {l : SubLine} (hl : l ∈ lines) (hm : tidy l.text = g.fullText) {t : BText} (htm : t ∈ g.texts) {p : Place}
    (hp : placeOf tbl t.item = some p) : Matched F (lines.map SubLine.text) n p := by
  obtain ⟨i, gp, gn, ps, h0, hat, hB, hw, hi, hts⟩ := group_info h ht hg
  obtain ⟨j, r, x, hit, hj, hr0, hrx, hx, -⟩ := hts t htm
  rw [placeOf, hit] at hp
  simp only [hi, hj, Option.some.injEq] at hp
  refine ⟨gp, r, gn, x, hp.symm, h0, hr0, hat, hB, ⟨l.text, List.mem_map.2 ⟨l, hl, rfl⟩, ?_⟩, hrx, hx⟩
  rw [← hw, ← hm, tidy_normal]

/-- C126. Whatever is in the subtitles and in the animation, whether or not it raises, `adjust` changes nothing
but the texts of the text layers in bywords groups which say what one of the lines says. (`perm` is the order
in which Python happens to go through a set.) -/
theorem c126_rest (F : Fl) (d : Defaults) {perm : List (ℕ × ℕ) → List (ℕ × ℕ)} (hperm : ∀ l, (perm l).Perm l)
    (letters : Bool) (lines : List SubLine) (n : Node) :
    SameBut (InParam "text" (Matched F (lines.map SubLine.text) n) n) n (adjust F d perm letters lines n).1 := by
  rw [adjust]
  split
  · exact sameBut_refl _ _
  · exact sameBut_refl _ _
  next gs tbl h ht =>
  obtain ⟨h1, h2⟩ := matchLinesDoc_same (F := F) (ctx := textCtx n) (letters := letters) (lines := lines)
    (want := Matched F (lines.map SubLine.text) n) (d := n) (tbl := tbl) (gs := gs) (dict := []) (e := n)
    (fun l hl g hg hm t htm p hp => item_matched h ht hg hl hm htm hp) (by simp) (sameBut_refl _ _)
  split
  · next h' => rw [h'] at h1; exact h1
  · next m dict h' =>
    rw [h'] at h1 h2
    refine adjustItems_same (fun x hx => ?_) h1
    have hx := (hperm _).mem_iff.1 hx
    obtain ⟨w, hw, rfl⟩ := List.mem_map.1 (List.mem_dedup.1 hx)
    exact h2 dict rfl w ((List.mem_insertionSort _).1 hw)

/-! ## Where the items are -/

theorem mapRes_total {α β : Type} {f : α → Res β} {l : List α} (h : ∀ x ∈ l, ∃ y, f x = .ok y) :
    ∃ r, mapRes f l = .ok r := by
  induction l with
  | nil => exact ⟨[], rfl⟩
  | cons x l ih =>
    obtain ⟨y, hy⟩ := h x (by simp)
    obtain ⟨r, hr⟩ := ih fun z hz => h z (by simp [hz])
    exact ⟨y :: r, by simp only [mapRes, hy, hr]⟩

theorem mem_wantedAt_of {F : Fl} {ys : List (Place × LObj)} {p : Place} {c : LClass} {x : Node} {s : Str}
    (h : (p, (c, x)) ∈ ys) (hs : getDesc F x = some s) (hp : "bywords".toList <+: lower s) :
    (p, x) ∈ bwWantedAt F ys := by
  rw [bwWantedAt, List.mem_filterMap]
  refine ⟨_, h, ?_⟩
  simp only [hs]
  rw [if_pos (List.isPrefixOf_iff_prefix.2 hp)]

/-- What `bwGroups` and `bwPlaces` come from. -/
theorem groups_from {F : Fl} {d : Defaults} {n : Node} {gs : List BGroup} (h : bwGroups F d n = .ok gs) :
    ∃ ys, findAllAt F d {pos := [.cls "Group".toList]} [] n = .ok ys ∧
      ∃ gs', gs'.Perm gs ∧
        mapRes (fun p : (Str × Node) × ℕ => bwGroup F d p.2 p.1.1 p.1.2)
          ((bwWantedAt F ys).map fun p => ((getDesc F p.2).getD [], p.2)).zipIdx = .ok gs' := by
  have hfl := findAllAt_layers F d {pos := [.cls "Group".toList]} [] n
  cases hf : findAllAt F d {pos := [.cls "Group".toList]} [] n with
  | error e =>
    rw [hf] at hfl
    simp only [bwGroups, hfl] at h
    cases h
  | ok ys =>
    rw [hf] at hfl
    simp only [bwGroups, hfl, wantedAt_wanted] at h
    split at h
    · cases h
    next gs' hgs =>
    injection h with h
    subst h
    exact ⟨ys, rfl, gs', (List.perm_insertionSort _ _).symm, hgs⟩

theorem places_exist {F : Fl} {d : Defaults} {n : Node} {gs : List BGroup} (h : bwGroups F d n = .ok gs) :
    ∃ tbl, bwPlaces F d n = .ok tbl := by
  obtain ⟨ys, hf, gs', -, hgs⟩ := groups_from h
  simp only [bwPlaces, hf]
  apply mapRes_total
  intro q hq
  obtain ⟨i, hi⟩ := List.mem_iff_getElem?.1 hq
  have hm : (((getDesc F q.2).getD [], q.2), i) ∈
      ((bwWantedAt F ys).map fun p => ((getDesc F p.2).getD [], p.2)).zipIdx := by
    rw [List.mem_zipIdx_iff_getElem?, List.getElem?_map, hi]; rfl
  obtain ⟨j, hj⟩ := List.mem_iff_getElem?.1 hm
  obtain ⟨g, -, hg⟩ := mapRes_at hgs hj
  simp only [bwGroup, findAllAt_layers F d _ q.1 q.2] at hg
  simp only [bwTextsAt]
  split at hg
  · cases hg
  next xs hxs =>
  cases hz : findAllAt F d {pos := [.str "text".toList]} q.1 q.2 with
  | error e => rw [hz] at hxs; cases hxs
  | ok zs => exact ⟨_, rfl⟩

/-- What is at the place of an item. -/
theorem placeOf_info {F : Fl} {d : Defaults} {n : Node} {tbl : List (List Place)}
    (ht : bwPlaces F d n = .ok tbl) {i j : ℕ} {p : Place} (hp : placeOf tbl (i, j) = some p) :
    ∃ ys gp gn zs r x, findAllAt F d {pos := [.cls "Group".toList]} [] n = .ok ys ∧
      (bwWantedAt F ys)[i]? = some (gp, gn) ∧ nodeAt gp n = some gn ∧ BywordsGroup F gn ∧
      findAllAt F d {pos := [.str "text".toList]} gp gn = .ok zs ∧
      (zs.map Prod.fst).reverse[j]? = some p ∧ p = gp ++ r ∧ nodeAt r gn = some x ∧ IsLayer "text" x := by
  simp only [bwPlaces] at ht
  split at ht
  · cases ht
  next ys hys =>
  rw [placeOf] at hp
  split at hp
  · cases hp
  next ps hps =>
  simp only at hps hp
  have hlt : i < tbl.length := (List.getElem?_eq_some_iff.1 hps).1
  obtain ⟨q, hq, hta⟩ := mapRes_get ht i hlt
  have hps' : tbl[i] = ps := (List.getElem?_eq_some_iff.1 hps).2
  rw [hps'] at hta
  obtain ⟨gp, gn⟩ := q
  simp only [bwTextsAt] at hta
  split at hta
  · cases hta
  next zs hzs =>
  injection hta with hta
  subst hta
  obtain ⟨c, hc, s', hs', hpre⟩ := mem_wantedAt (List.mem_of_getElem? hq)
  obtain ⟨⟨gp', hgp, h0, hat⟩, hl, -, hm⟩ := (mem_findAllAt group_targets.1 group_targets.2 hys).1 hc
  simp only [List.nil_append] at hgp
  subst hgp
  have hpm : p ∈ zs.map Prod.fst := List.mem_reverse.1 (List.mem_of_getElem? hp)
  obtain ⟨r, hr, -, x, hx, hxl⟩ := (mem_texts hzs).1 hpm
  exact ⟨ys, gp, gn, zs, r, x, hys, hq, hat, ⟨(matcher_group hl).1 hm, s', hs', hpre⟩, hzs, hp, hr, hx, hxl⟩

theorem nodup_getElem? {α : Type} {l : List α} (h : l.Nodup) {i j : ℕ} {x : α} (hi : l[i]? = some x)
    (hj : l[j]? = some x) : i = j := by
  obtain ⟨h1, h2⟩ := List.getElem?_eq_some_iff.1 hi
  obtain ⟨h3, h4⟩ := List.getElem?_eq_some_iff.1 hj
  exact (List.Nodup.getElem_inj_iff h).1 (h2.trans h4.symm)

/-- Different items are in different places, not in one another. -/
def Apart' (tbl : List (List Place)) : Prop :=
  ∀ a b p q, a ≠ b → placeOf tbl a = some p → placeOf tbl b = some q → NotNested p q

theorem places_apart {F : Fl} {d : Defaults} {n : Node} {tbl : List (List Place)}
    (ht : bwPlaces F d n = .ok tbl) (h1 : NoneInAnother (IsLayer "text") n)
    (h2 : NoneInAnother (BywordsGroup F) n) : Apart' tbl := by
  rintro ⟨i, j⟩ ⟨i', j'⟩ p q hne hp hq
  obtain ⟨ys, gp, gn, zs, r, x, hys, hi, hat, hB, hzs, hj, hr, hx, hxl⟩ := placeOf_info ht hp
  obtain ⟨ys', gp', gn', zs', r', x', hys', hi', hat', hB', hzs', hj', hr', hx', hxl'⟩ := placeOf_info ht hq
  rw [hys] at hys'
  injection hys' with hys'
  subst hys'
  have hxn : nodeAt p n = some x := by rw [hr, nodeAt_append, hat]; exact hx
  have hxn' : nodeAt q n = some x' := by rw [hr', nodeAt_append, hat']; exact hx'
  refine h1 p q x x' hxn hxn' hxl hxl' ?_
  rintro rfl
  have hgp : gp = gp' := by
    by_contra hn
    have h := h2 gp gp' gn gn' hat hat' hB hB' hn
    rcases List.prefix_or_prefix_of_prefix (l₁ := gp) (l₂ := gp') (l₃ := p) ⟨r, hr.symm⟩ ⟨r', hr'.symm⟩ with h' | h'
    · exact h.1 h'
    · exact h.2 h'
  subst hgp
  rw [hat] at hat'
  injection hat' with hat'
  subst hat'
  rw [hzs] at hzs'
  injection hzs' with hzs'
  subst hzs'
  have hii : i = i' := by
    refine nodup_getElem? (x := gp) (wantedAt_nodup (F := F) (findAllAt_nodup hys)) ?_ ?_
    · rw [List.getElem?_map, hi]; rfl
    · rw [List.getElem?_map, hi']; rfl
  have hjj : j = j' := nodup_getElem? (List.nodup_reverse.2 (findAllAt_nodup hzs)) hj hj'
  exact hne (by rw [hii, hjj])

/-- Every text layer in a bywords group is one of the texts of one of the groups. -/
theorem text_item {F : Fl} {d : Defaults} {n : Node} {gs : List BGroup} {tbl : List (List Place)}
    (h : bwGroups F d n = .ok gs) (ht : bwPlaces F d n = .ok tbl) {gp r : Place} {gn x : Node} (h0 : gp ≠ [])
    (hat : nodeAt gp n = some gn) (hB : BywordsGroup F gn) (hr0 : r ≠ []) (hrx : nodeAt r gn = some x)
    (hx : IsLayer "text" x) :
    ∃ g ∈ gs, ∃ t ∈ g.texts, g.fullText = groupWords F gn ∧ placeOf tbl t.item = some (gp ++ r) ∧
      getDesc F x = some t.desc := by
  obtain ⟨ys, hf, gs', hperm, hgs⟩ := groups_from h
  simp only [bwPlaces, hf] at ht
  obtain ⟨hgl, s, hs, hpre⟩ := hB
  have hl : isLayerElt gn = true := by
    cases gn with
    | text s => simp [IsLayer, Node.name] at hgl
    | tag nm at' ks => simpa [isLayerElt, Node.name] using hgl.1
  have hmem : (gp, gn) ∈ bwWantedAt F ys := by
    have hreg : layerRegistry.fromName "group".toList = .ok lcGroup := by decide +kernel
    refine mem_wantedAt_of (c := lcGroup) ((mem_findAllAt group_targets.1 group_targets.2 hf).2
      ⟨⟨gp, by simp, h0, hat⟩, hl, ?_, (matcher_group hl).2 hgl⟩) hs hpre
    simp only [layerOf, hgl.2, hreg]
  obtain ⟨i, hi⟩ := List.mem_iff_getElem?.1 hmem
  have hm : (((bwWantedAt F ys).map fun p => ((getDesc F p.2).getD [], p.2)).zipIdx)[i]? =
      some (((getDesc F gn).getD [], gn), i) := by
    rw [List.getElem?_zipIdx, List.getElem?_map, hi]
    simp
  obtain ⟨g, hg, hgr⟩ := mapRes_at hgs hm
  simp only at hgr
  obtain ⟨ps, hps, hta⟩ := mapRes_at ht hi
  simp only [bwTextsAt] at hta
  split at hta
  · cases hta
  next zs hzs =>
  injection hta with hta
  subst hta
  have hxs : findAllLayers F d {pos := [.str "text".toList]} true gn = .ok (zs.map Prod.snd) := by
    rw [findAllAt_layers F d _ gp gn, hzs]
  have hpm : gp ++ r ∈ zs.map Prod.fst := (mem_texts hzs).2 ⟨r, rfl, hr0, x, hrx, hx⟩
  obtain ⟨z, hz, hzp⟩ := List.mem_map.1 hpm
  obtain ⟨j, hj⟩ := List.mem_iff_getElem?.1 (List.mem_reverse.2 hz)
  have hzx : z.2.2 = x := by
    obtain ⟨zp, zc, zx⟩ := z
    simp only at hzp
    subst hzp
    obtain ⟨⟨r', hr', -, hx'⟩, -⟩ := (mem_findAllAt text_targets.1 text_targets.2 hzs).1 hz
    have := List.append_cancel_left hr'
    subst this
    rw [hrx] at hx'
    injection hx' with hx'
    exact hx'.symm
  have hfull : g.fullText = groupWords F gn := by
    obtain ⟨-, xs, hx1, hx2⟩ := c94_texts hgr
    rw [hxs] at hx1
    injection hx1 with hx1
    subst hx1
    rw [fullText_eq, groupText, groupWords, ← found_texts hzs]
    congr 1
    have e1 : g.texts.map (fun t => normal t.desc) =
        (g.texts.map fun t => some t.desc).map fun o => normal (o.getD []) := by
      rw [List.map_map]; rfl
    rw [e1, ← hx2]
    simp only [← List.map_reverse, List.map_map]
    rfl
  simp only [bwGroup, hxs] at hgr
  split at hgr
  · cases hgr
  next ts hts =>
  injection hgr with hgr
  have hzj : ((zs.map Prod.snd).reverse.zipIdx)[j]? = some (z.2, j) := by
    rw [List.getElem?_zipIdx, ← List.map_reverse, List.getElem?_map, hj]
    simp
  obtain ⟨t, htj, hzt⟩ := mapRes_at hts hzj
  simp only at hzt
  split at hzt
  · cases hzt
  next sd hsd =>
  injection hzt with hzt
  refine ⟨g, hperm.mem_iff.1 (List.mem_of_getElem? hg), t, by rw [← hgr]; exact List.mem_of_getElem? htj, hfull, ?_, ?_⟩
  · rw [← hzt, placeOf]
    simp only [hps]
    rw [← List.map_reverse, List.getElem?_map, hj, Option.map_some, hzp]
  · rw [← hzx, hsd, ← hzt]

/-! ## The texts of the items -/

/-- The element of the text of an item. -/
def itemText (tbl : List (List Place)) (e : Node) (x : ℕ × ℕ) : Option Node :=
  match placeOf tbl x with
  | none => none
  | some p => match nodeAt p e with
    | none => none
    | some y => match getParam "text".toList y with
      | .error _ => none
      | .ok (_, v) => some v

theorem itemText_some {tbl : List (List Place)} {e : Node} {x : ℕ × ℕ} {v : Node} :
    itemText tbl e x = some v ↔ ∃ p y c, placeOf tbl x = some p ∧ nodeAt p e = some y ∧
      getParam "text".toList y = .ok (c, v) := by
  rw [itemText]
  constructor
  · intro h
    split at h
    · cases h
    next p hp =>
    split at h
    · cases h
    next y hy =>
    split at h
    · cases h
    next c w hw =>
    injection h with h
    subst h
    exact ⟨p, y, c, hp, hy, hw⟩
  · rintro ⟨p, y, c, hp, hy, hv⟩
    simp only [hp, hy, hv]

/-- What happens to a layer when something happens to its text. -/
theorem onParam_at {f : Str} {g : VCls → Node → Node × Res Unit} {n v : Node} {c c' : VCls}
    (h : getParam f n = .ok (c, v)) (h1 : (g c v).1.isTag = true) (h2 : fromTag (g c v).1 = .ok c') :
    (onParam f g n).2 = (g c v).2 ∧ getParam f (onParam f g n).1 = .ok (c', (g c v).1) := by
  rw [getParam] at h
  split at h
  · cases h
  next p hp =>
  split at h
  · cases h
  next s c0 u hv =>
  injection h with h
  injection h with e1 e2
  subst e1; subst e2
  obtain ⟨hp1, hp2, -⟩ := findParam_some hp
  have hk : p.tagKids = [u] ∧ p.name = "param" ∧ p.attrs.get "name" = some (.str s) := by
    simp only [nameAndValue] at hv
    split at hv
    · cases hv
    next hn =>
    split at hv
    · cases hv
    · next s' hs' =>
      split at hv
      · next v' hv' =>
        split at hv
        · cases hv
        · injection hv with hv; injection hv with e1 hv; injection hv with e2 e3
          subst e1; subst e3
          exact ⟨hv', by simpa using hn, hs'⟩
      · cases hv
    · cases hv
  have hsame : ∀ m, (replaceValue m p).name = p.name ∧ (replaceValue m p).attrs = p.attrs ∧
      (replaceValue m p).isTag = true := by
    intro m
    cases p with
    | text s => cases hp2
    | tag a b ks => exact ⟨rfl, rfl, rfl⟩
  obtain ⟨s1, s2, s3⟩ := hsame (g c0 u).1
  have hf : findParam f (updFirst (isParam f) (replaceValue (g c0 u).1) n) = some (replaceValue (g c0 u).1 p) :=
    findParam_upd hp s3 (by rw [isParam, s1, s2]; exact hp1)
  simp only [onParam, hp, hv, true_and]
  simp only [getParam, hf, nameAndValue, s1, s2, hk.2.1, hk.2.2, ne_eq, not_true,
    if_false, tagKids_replace hp2 hk.1 h1, h2]

theorem onText_step {tbl : List (List Place)} (ha : Apart' tbl) {x : ℕ × ℕ} {g : Node → Node × Res Unit} {e v : Node}
    (hv : itemText tbl e x = some v) (h1 : (g v).1.isTag = true) {c' : VCls} (h2 : fromTag (g v).1 = .ok c') :
    (onText tbl x g e).2 = (g v).2 ∧ itemText tbl (onText tbl x g e).1 x = some (g v).1 ∧
    ∀ y, y ≠ x → itemText tbl (onText tbl x g e).1 y = itemText tbl e y := by
  obtain ⟨p, z, c, hp, hz, hg⟩ := itemText_some.1 hv
  obtain ⟨a1, a2⟩ := onParam_at (g := fun _ => g) hg h1 h2
  obtain ⟨b1, b2⟩ := actAt_at (g := onParam "text".toList fun _ => g) hz
  have ho : onText tbl x g e = actAt (onParam "text".toList fun _ => g) p e := by simp only [onText, hp]
  rw [ho]
  refine ⟨b2.trans a1, itemText_some.2 ⟨p, _, c', hp, b1, a2⟩, fun y hy => ?_⟩
  rw [itemText, itemText]
  cases hq : placeOf tbl y with
  | none => rfl
  | some q =>
    simp only
    rw [actAt_apart (ha x y p q (Ne.symm hy) hp hq)]

/-- A text which can be un-animated, and then is a string. -/
def Ready (F : Fl) (ctx : Ctx) (v : Node) : Prop :=
  (unAnimate F ctx v).2 = .ok () ∧ Legal "string".toList (unAnimate F ctx v).1

theorem unAnimate_legal {F : Fl} {ctx : Ctx} {ty : Str} {v : Node} (h : Legal ty v) :
    unAnimate F ctx v = (v, .ok ()) := by
  rw [unAnimate, if_pos h.2.1]

theorem Ready.again {F : Fl} {ctx : Ctx} {v : Node} (h : Ready F ctx v) : Ready F ctx (unAnimate F ctx v).1 := by
  rw [Ready, unAnimate_legal h.2]
  exact ⟨rfl, h.2⟩

theorem fromTag_string {v : Node} (h : ourType v = .ok "string".toList) : fromTag v = .ok .string := by
  have hr : valueRegistry.fromName "string".toList = .ok .string := by decide +kernel
  rw [ourType] at h
  simp only [fromTag, h, hr]

theorem ourType_legal {ty : Str} {v : Node} (h : Legal ty v) : ourType v = .ok ty := by
  rw [ourType, if_neg h.2.1, h.2.2.1]

open Classical in
theorem clearTexts_spec {F : Fl} {ctx : Ctx} {tbl : List (List Place)} (ha : Apart' tbl) {l : List (ℕ × ℕ)} {e : Node}
    (hl : ∀ x ∈ l, ∃ v, itemText tbl e x = some v ∧ Ready F ctx v) :
    (clearTexts F ctx tbl l e).2 = .ok () ∧
    ∀ x, itemText tbl (clearTexts F ctx tbl l e).1 x =
      if x ∈ l then (itemText tbl e x).map fun v => (unAnimate F ctx v).1 else itemText tbl e x := by
  induction l generalizing e with
  | nil => exact ⟨rfl, fun x => by rw [if_neg (by simp)]; rfl⟩
  | cons y l ih =>
    obtain ⟨v, hv, hr⟩ := hl y (by simp)
    obtain ⟨h1, h2, h3⟩ := onText_step ha (g := unAnimate F ctx) hv hr.2.1 (fromTag_string (ourType_legal hr.2))
    rw [hr.1] at h1
    have ho : onText tbl y (unAnimate F ctx) e = ((onText tbl y (unAnimate F ctx) e).1, .ok ()) := Prod.ext rfl h1
    have hc : clearTexts F ctx tbl (y :: l) e = clearTexts F ctx tbl l (onText tbl y (unAnimate F ctx) e).1 := by
      rw [clearTexts, ho]
    obtain ⟨i1, i2⟩ := ih (e := (onText tbl y (unAnimate F ctx) e).1) (by
      intro x hx
      by_cases hxy : x = y
      · subst hxy
        exact ⟨_, h2, hr.again⟩
      · obtain ⟨w, hw, hrw⟩ := hl x (by simp [hx])
        exact ⟨w, by rw [h3 x hxy, hw], hrw⟩)
    rw [hc]
    refine ⟨i1, fun x => ?_⟩
    rw [i2 x]
    by_cases hxy : x = y
    · subst hxy
      rw [if_pos (by simp : x ∈ x :: l), h2, hv]
      split
      · simp only [Option.map_some]
        rw [unAnimate_legal hr.2]
      · rfl
    · rw [h3 x hxy]
      simp only [List.mem_cons, hxy, false_or]

/-- The items of groups to which some line goes. -/
def Touched (gs : List BGroup) (lines : List SubLine) (x : ℕ × ℕ) : Prop :=
  ∃ l ∈ lines, ∃ g, GoesTo gs l g ∧ ∃ t ∈ g.texts, t.item = x

theorem goesTo_unique {gs : List BGroup} {l : SubLine} {g g' : BGroup} (h : GoesTo gs l g) (h' : GoesTo gs l g') :
    g = g' := by
  induction gs with
  | nil => obtain ⟨a, b, e, -⟩ := h; simp at e
  | cons x gs ih =>
    obtain ⟨a, b, e, h1, h2⟩ := h
    obtain ⟨a', b', e', h1', h2'⟩ := h'
    cases a with
    | nil =>
      injection e with e3 e4
      cases a' with
      | nil => injection e' with e5 e6; rw [← e3, ← e5]
      | cons y a' =>
        injection e' with e5 e6
        exact absurd (by rw [← e5, e3]; exact h2) (h1' y (by simp))
    | cons y a =>
      injection e with e3 e4
      cases a' with
      | nil =>
        injection e' with e5 e6
        exact absurd (by rw [← e3, e5]; exact h2') (h1 y (by simp))
      | cons y' a' =>
        injection e' with e5 e6
        exact ih ⟨a, b, e4, fun z hz => h1 z (by simp [hz]), h2⟩
          ⟨a', b', e6, fun z hz => h1' z (by simp [hz]), h2'⟩

theorem goesTo_mem {gs : List BGroup} {l : SubLine} {g : BGroup} (h : GoesTo gs l g) : g ∈ gs := by
  obtain ⟨a, b, e, -⟩ := h
  rw [e]; simp

/-- What a line does: nothing, or clearing the texts of the group it goes to. -/
theorem firstMatchDoc_eq {F : Fl} {ctx : Ctx} {tbl : List (List Place)} {letters : Bool} {l : SubLine}
    {gs : List BGroup} {e : Node} :
    (Unmatched gs l → firstMatchDoc F ctx tbl letters l gs e = (e, .ok none)) ∧
    ∀ g ws, GoesTo gs l g → bwMatches F letters (tidy l.text) l.duration l.start g = .ok (some ws) →
      (clearTexts F ctx tbl (g.texts.map BText.item) e).2 = .ok () →
      firstMatchDoc F ctx tbl letters l gs e =
        ((clearTexts F ctx tbl (g.texts.map BText.item) e).1, .ok (some ws)) := by
  induction gs with
  | nil =>
    refine ⟨fun _ => rfl, fun g ws h => ?_⟩
    obtain ⟨a, b, e, -⟩ := h
    simp at e
  | cons x gs ih =>
    constructor
    · intro hu
      have hx := hu x (by simp)
      rw [firstMatchDoc, if_pos (by rw [tidy_normal, fullText_eq]; exact hx)]
      exact ih.1 fun g hg => hu g (by simp [hg])
    · rintro g ws ⟨a, b, hab, h1, h2⟩ hw hc
      cases a with
      | nil =>
        injection hab with e1 e2
        subst e1
        rw [firstMatchDoc, if_neg (by rw [tidy_normal, fullText_eq]; exact not_not.2 h2)]
        have ho : clearTexts F ctx tbl (x.texts.map BText.item) e =
          ((clearTexts F ctx tbl (x.texts.map BText.item) e).1, .ok ()) := Prod.ext rfl hc
        rw [ho]
        simp only [hw]
        cases ws with
        | nil => exact (bwMatches_not_nil _ _ _ _ _ _ hw).elim
        | cons w ws => rfl
      | cons y a =>
        injection hab with e1 e2
        subst e1
        rw [firstMatchDoc, if_pos (by rw [tidy_normal, fullText_eq]; exact h1 x (by simp))]
        exact ih.2 g ws ⟨a, b, e2, fun z hz => h1 z (by simp [hz]), h2⟩ hw hc

open Classical in
theorem matchLinesDoc_spec {F : Fl} {ctx : Ctx} {tbl : List (List Place)} (ha : Apart' tbl) {letters : Bool}
    {gs : List BGroup} {lines : List SubLine} {dict ws : List WordTiming} {no no' : List Str} {e : Node}
    (hm : matchLines F letters gs dict no lines = .ok (ws, no'))
    (ht : ∀ x, Touched gs lines x → ∃ v, itemText tbl e x = some v ∧ Ready F ctx v) :
    (matchLinesDoc F ctx tbl letters gs dict lines e).2 = .ok ws ∧
    ∀ x, itemText tbl (matchLinesDoc F ctx tbl letters gs dict lines e).1 x =
      if Touched gs lines x then (itemText tbl e x).map fun v => (unAnimate F ctx v).1 else itemText tbl e x := by
  induction lines generalizing dict no e with
  | nil =>
    injection hm with hm
    injection hm with hm
    subst hm
    refine ⟨rfl, fun x => ?_⟩
    rw [if_neg]
    · rfl
    · rintro ⟨l, hl, -⟩
      simp at hl
  | cons l lines ih =>
    have hsub : ∀ x, Touched gs lines x → Touched gs (l :: lines) x := by
      rintro x ⟨l', hl', h⟩
      exact ⟨l', by simp [hl'], h⟩
    rw [matchLines] at hm
    rcases firstMatch_cases F letters gs l with ⟨hu, hf⟩ | ⟨hu, g, hg, hf⟩
    · simp only [hf] at hm
      obtain ⟨i1, i2⟩ := ih hm fun x hx => ht x (hsub x hx)
      have heq : matchLinesDoc F ctx tbl letters gs dict (l :: lines) e =
          matchLinesDoc F ctx tbl letters gs dict lines e := by
        rw [matchLinesDoc, firstMatchDoc_eq.1 hu]
      rw [heq]
      refine ⟨i1, fun x => ?_⟩
      rw [i2 x]
      congr 1
      refine propext ⟨hsub x, ?_⟩
      rintro ⟨l', hl', g, hg, h⟩
      rcases List.mem_cons.1 hl' with rfl | hl'
      · obtain ⟨a, b, hab, -, h2⟩ := hg
        exact absurd h2 (hu g (by rw [hab]; simp))
      · exact ⟨l', hl', g, hg, h⟩
    · rw [hf] at hm
      cases hw : bwMatches F letters (tidy l.text) l.duration l.start g with
      | error er => rw [hw] at hm; cases hm
      | ok o =>
        cases o with
        | none =>
          have := (c68_matches_iff F letters (tidy l.text) l.duration l.start g).1 hw
          obtain ⟨a, b, hab, -, h2⟩ := hg
          rw [tidy_normal] at this
          exact absurd h2 this
        | some ws' =>
          rw [hw] at hm
          simp only at hm
          have hc := clearTexts_spec (F := F) (ctx := ctx) ha (l := g.texts.map BText.item) (e := e) (by
            intro x hx
            obtain ⟨t, htm, rfl⟩ := List.mem_map.1 hx
            exact ht _ ⟨l, by simp, g, hg, t, htm, rfl⟩)
          obtain ⟨c1, c2⟩ := hc
          have hfd := firstMatchDoc_eq (F := F) (ctx := ctx) (tbl := tbl) (letters := letters) (gs := gs) (e := e) |>.2 g ws' hg hw c1
          obtain ⟨i1, i2⟩ := ih hm (e := (clearTexts F ctx tbl (g.texts.map BText.item) e).1) (by
            intro x hx
            obtain ⟨v, hv, hr⟩ := ht x (hsub x hx)
            rw [c2 x]
            split
            · exact ⟨_, by rw [hv]; rfl, hr.again⟩
            · exact ⟨v, hv, hr⟩)
          have heq : matchLinesDoc F ctx tbl letters gs dict (l :: lines) e =
              matchLinesDoc F ctx tbl letters gs (ws'.foldl (fun d w => putWord w d) dict) lines
                (clearTexts F ctx tbl (g.texts.map BText.item) e).1 := by
            rw [matchLinesDoc, hfd]
          rw [heq]
          refine ⟨i1, fun x => ?_⟩
          rw [i2 x, c2 x]
          by_cases hx : x ∈ g.texts.map BText.item
          · have htx : Touched gs (l :: lines) x := by
              obtain ⟨t, htm, rfl⟩ := List.mem_map.1 hx
              exact ⟨l, by simp, g, hg, t, htm, rfl⟩
            rw [if_pos hx, if_pos htx]
            split
            · obtain ⟨v, hv, hr⟩ := ht x htx
              rw [hv]
              simp only [Option.map_some]
              rw [unAnimate_legal hr.2]
            · rfl
          · rw [if_neg hx]
            congr 1
            refine propext ⟨hsub x, ?_⟩
            rintro ⟨l', hl', g', hg', t, htm, rfl⟩
            rcases List.mem_cons.1 hl' with rfl | hl'
            · rw [goesTo_unique hg' hg] at htm
              exact absurd (List.mem_map.2 ⟨t, htm, rfl⟩) hx
            · exact ⟨l', hl', g', hg', t, htm, rfl⟩

theorem adjustItems_spec {F : Fl} (hF : F.Lawful) {ctx : Ctx} {r : ℚ} (hf : readFps F ctx.root = .ok (some r))
    (hp : ctx.hasParent = true) {tbl : List (List Place)} (ha : Apart' tbl) {words : List WordTiming}
    (hw : ∀ w ∈ words, F.rep w.time ∧ Plain10 w.time) {l : List (ℕ × ℕ)} (hn : l.Nodup) {e : Node}
    (hl : ∀ x ∈ l, ∃ v, itemText tbl e x = some v ∧ Legal "string".toList v) :
    (adjustItems F ctx tbl words l e).2 = .ok () ∧
    ∀ x, itemText tbl (adjustItems F ctx tbl words l e).1 x =
      if x ∈ l then (itemText tbl e x).map fun v => (adjustText F ctx x words v).1 else itemText tbl e x := by
  induction l generalizing e with
  | nil => exact ⟨rfl, fun x => by rw [if_neg (by simp)]; rfl⟩
  | cons y l ih =>
    obtain ⟨hy, hn⟩ := List.nodup_cons.1 hn
    obtain ⟨v, hv, hr⟩ := hl y (by simp)
    obtain ⟨a1, a2⟩ := c93_adjust_partial hF hf hp hr y (words := words) fun w hw' _ => hw w hw'
    obtain ⟨h1, h2, h3⟩ := onText_step ha (g := adjustText F ctx y words) hv a2.tag (fromTag_string a2.type)
    rw [a1] at h1
    have ho : onText tbl y (adjustText F ctx y words) e = ((onText tbl y (adjustText F ctx y words) e).1, .ok ()) :=
      Prod.ext rfl h1
    have hc : adjustItems F ctx tbl words (y :: l) e =
        adjustItems F ctx tbl words l (onText tbl y (adjustText F ctx y words) e).1 := by
      rw [adjustItems, ho]
    obtain ⟨i1, i2⟩ := ih hn (e := (onText tbl y (adjustText F ctx y words) e).1) (by
      intro x hx
      obtain ⟨w, hw, hrw⟩ := hl x (by simp [hx])
      exact ⟨w, by rw [h3 x (fun e => hy (e ▸ hx)), hw], hrw⟩)
    rw [hc]
    refine ⟨i1, fun x => ?_⟩
    rw [i2 x]
    by_cases hxy : x = y
    · subst hxy
      rw [if_neg hy, if_pos (by simp), h2, hv]; rfl
    · rw [h3 x hxy]
      simp only [List.mem_cons, hxy, false_or]

theorem mapRes_item {F : Fl} {d : Defaults} {i : ℕ} {desc : Str} {n : Node} {g : BGroup}
    (h : bwGroup F d i desc n = .ok g) : (∀ t ∈ g.texts, t.item.1 = i) ∧
      ∀ t ∈ g.texts, ∀ t' ∈ g.texts, t.item = t'.item → t = t' := by
  simp only [bwGroup] at h
  split at h
  · cases h
  next xs hxs =>
  split at h
  · cases h
  next ts hts =>
  injection h with h
  subst h
  have key : ∀ t ∈ ts, ∃ z j, xs.reverse[j]? = some z ∧ t.item = (i, j) ∧ getDesc F z.2 = some t.desc := by
    intro t ht
    obtain ⟨⟨z, j⟩, hz, hzt⟩ := mapRes_mem hts ht
    simp only at hzt
    split at hzt
    · cases hzt
    next sd hsd =>
    injection hzt with hzt
    subst hzt
    exact ⟨z, j, List.mem_zipIdx_iff_getElem?.1 hz, rfl, hsd⟩
  constructor
  · intro t ht
    obtain ⟨z, j, -, e, -⟩ := key t ht
    rw [e]
  · intro t ht t' ht' he
    obtain ⟨z, j, hz, e, hd⟩ := key t ht
    obtain ⟨z', j', hz', e', hd'⟩ := key t' ht'
    rw [e, e'] at he
    injection he with _ he
    subst he
    rw [hz] at hz'
    injection hz' with hz'
    subst hz'
    rw [hd] at hd'
    injection hd' with hd'
    cases t; cases t'
    simp only at e e' hd'
    rw [e, e', hd']

/-- C126. Each text of each group is an item of its own. -/
theorem c126_items {F : Fl} {d : Defaults} {n : Node} {gs : List BGroup} (h : bwGroups F d n = .ok gs)
    {g g' : BGroup} (hg : g ∈ gs) (hg' : g' ∈ gs) {t t' : BText} (ht : t ∈ g.texts) (ht' : t' ∈ g'.texts)
    (he : t.item = t'.item) : g = g' ∧ t = t' := by
  obtain ⟨ys, -, gs', hperm, hgs⟩ := groups_from h
  obtain ⟨⟨w, i⟩, hm, hb⟩ := mapRes_mem hgs (hperm.mem_iff.2 hg)
  obtain ⟨⟨w', i'⟩, hm', hb'⟩ := mapRes_mem hgs (hperm.mem_iff.2 hg')
  simp only at hb hb'
  obtain ⟨a1, a2⟩ := mapRes_item hb
  obtain ⟨b1, -⟩ := mapRes_item hb'
  have hi : i = i' := by rw [← a1 t ht, ← b1 t' ht', he]
  subst hi
  have hw := List.mem_zipIdx_iff_getElem?.1 hm
  rw [List.mem_zipIdx_iff_getElem?.1 hm'] at hw
  injection hw with hw
  simp only at hw
  subst hw
  rw [hb] at hb'
  injection hb' with hb'
  subst hb'
  exact ⟨rfl, a2 t ht t' ht' he⟩

/-- The same, for one of the texts of the groups. -/
theorem adjust_item {F : Fl} (hF : F.Lawful) (d : Defaults) {perm : List (ℕ × ℕ) → List (ℕ × ℕ)}
    (hperm : ∀ l, (perm l).Perm l) (letters : Bool) (lines : List SubLine) {n : Node} {gs : List BGroup}
    (hg : bwGroups F d n = .ok gs) {words : List WordTiming} {no : List Str}
    (hs : bywords F letters gs lines = .ok (words, no)) {rate : ℚ} (hf : readFps F (animRoot n) = .ok (some rate))
    (htime : ∀ w ∈ words, Plain10 w.time) (h1 : NoneInAnother (IsLayer "text") n)
    (h2 : NoneInAnother (BywordsGroup F) n)
    (htext : ∀ p x, Matched F (lines.map SubLine.text) n p → nodeAt p n = some x →
      ∃ c v, getParam "text".toList x = .ok (c, v) ∧ (unAnimate F (textCtx n) v).2 = .ok () ∧
        Legal "string".toList (unAnimate F (textCtx n) v).1)
    {tbl : List (List Place)} (ht : bwPlaces F d n = .ok tbl) :
    (adjust F d perm letters lines n).2 = .ok () ∧
    ∀ bg ∈ gs, ∀ t ∈ bg.texts, ∀ p x, placeOf tbl t.item = some p → nodeAt p n = some x →
      ∀ c v, getParam "text".toList x = .ok (c, v) →
      ∃ y c' w, nodeAt p (adjust F d perm letters lines n).1 = some y ∧
        getParam "text".toList y = .ok (c', w) ∧
        ((∃ l ∈ lines, GoesTo gs l bg) →
          ((∃ s ∈ words, s.item = t.item) →
            TimelineIs F (textCtx n) "string".toList w
              ((TMap.empty.set 0 (heldText [])).setAll
                ((words.filter fun s => s.item = t.item).map fun s => (F.rnd (s.time * rate), heldText s.text)))) ∧
          ((¬ ∃ s ∈ words, s.item = t.item) → w = (unAnimate F (textCtx n) v).1)) ∧
        ((¬ ∃ l ∈ lines, GoesTo gs l bg) → w = v) := by
  classical
  have ha := places_apart ht h1 h2
  have hs0 := hs
  simp only [bywords] at hs
  split at hs
  · cases hs
  next dict no' hm =>
  injection hs with hs
  injection hs with hw hno
  subst hno
  -- the texts of the groups to which lines go
  have hready : ∀ x, Touched gs lines x → ∃ v, itemText tbl n x = some v ∧ Ready F (textCtx n) v := by
    rintro x ⟨l, hl, g, hgo, t, htm, rfl⟩
    obtain ⟨i, gp, gn, ps, h0, hat, hB, hfull, hi, hts⟩ := group_info hg ht (goesTo_mem hgo)
    obtain ⟨j, r, z, hit, hj, hr0, hrx, hz, -⟩ := hts t htm
    have hp : placeOf tbl t.item = some (gp ++ r) := by
      rw [placeOf, hit]; simp only [hi, hj]
    have hzn : nodeAt (gp ++ r) n = some z := by rw [nodeAt_append, hat]; exact hrx
    obtain ⟨_, _, _, _, hsay⟩ := id hgo
    obtain ⟨c, v, hv, hr⟩ := htext (gp ++ r) z
      (item_matched hg ht (goesTo_mem hgo) hl (by rw [tidy_normal, fullText_eq]; exact hsay) htm hp) hzn
    exact ⟨v, itemText_some.2 ⟨_, z, c, hp, hzn, hv⟩, hr⟩
  obtain ⟨m1, m2⟩ := matchLinesDoc_spec ha (ctx := textCtx n) hm hready
  -- whose the words are
  have htouch : ∀ w ∈ words, Touched gs lines w.item := by
    intro w hwm
    obtain ⟨-, per, hper, hall⟩ := c69_last_word_wins hs0
    obtain ⟨a, b, e, -⟩ := (hall w).1 hwm
    have hmem : w ∈ per.flatMap fun o => o.getD [] := by rw [e]; simp
    obtain ⟨o, ho, hwo⟩ := List.mem_flatMap.1 hmem
    obtain ⟨l, hl, hlo⟩ := mapRes_mem hper ho
    rcases firstMatch_cases F letters gs l with ⟨_, h'⟩ | ⟨_, g, hgo, h'⟩
    · rw [h'] at hlo
      injection hlo with hlo
      subst hlo
      simp at hwo
    · rw [h'] at hlo
      cases o with
      | none => simp at hwo
      | some ws =>
        have hsh : (w.text, w.item) ∈ g.shown letters := by
          rw [← bwMatches_texts hlo]
          exact List.mem_map.2 ⟨w, hwo, rfl⟩
        obtain ⟨t, htm, hst⟩ := List.mem_flatMap.1 hsh
        obtain ⟨s, -, hst⟩ := List.mem_map.1 hst
        injection hst with _ hst
        exact ⟨l, hl, g, hgo, t, htm, hst⟩
  have hmemI : ∀ x, x ∈ itemsOf perm words ↔ ∃ w ∈ words, w.item = x := by
    intro x
    rw [itemsOf, (hperm _).mem_iff, List.mem_dedup, List.mem_map]
  have hnd : (itemsOf perm words).Nodup := ((hperm _).nodup_iff).2 (List.nodup_dedup _)
  obtain ⟨a1, a2⟩ := adjustItems_spec hF (ctx := textCtx n) hf rfl ha
    (fun w hwm => ⟨c93_times_are_floats hF hs0 w hwm, htime w hwm⟩) hnd
    (e := (matchLinesDoc F (textCtx n) tbl letters gs [] lines n).1) (by
      intro x hx
      obtain ⟨w, hwm, rfl⟩ := (hmemI x).1 hx
      have htx := htouch w hwm
      obtain ⟨v, hv, hr⟩ := hready _ htx
      exact ⟨_, by rw [m2, if_pos htx, hv]; rfl, hr.2⟩)
  have hadj : adjust F d perm letters lines n =
      adjustItems F (textCtx n) tbl words (itemsOf perm words)
        (matchLinesDoc F (textCtx n) tbl letters gs [] lines n).1 := by
    have hml : matchLinesDoc F (textCtx n) tbl letters gs [] lines n =
        ((matchLinesDoc F (textCtx n) tbl letters gs [] lines n).1, .ok dict) := Prod.ext rfl m1
    simp only [adjust, hg, ht]
    rw [hml]
    simp only [hw]
  rw [hadj]
  refine ⟨a1, ?_⟩
  intro bg hbg t htm p x hp hxn c v hv
  have hiv : itemText tbl n t.item = some v := itemText_some.2 ⟨_, x, c, hp, hxn, hv⟩
  have hto : Touched gs lines t.item ↔ ∃ l ∈ lines, GoesTo gs l bg := by
    constructor
    · rintro ⟨l, hl, g', hgo, t', ht', e⟩
      obtain ⟨rfl, -⟩ := c126_items hg (goesTo_mem hgo) hbg ht' htm e
      exact ⟨l, hl, hgo⟩
    · rintro ⟨l, hl, hgo⟩
      exact ⟨l, hl, bg, hgo, t, htm, rfl⟩
  have hfin := a2 t.item
  rw [m2 t.item, hiv] at hfin
  have hfin' : ∃ w, itemText tbl (adjustItems F (textCtx n) tbl words (itemsOf perm words)
      (matchLinesDoc F (textCtx n) tbl letters gs [] lines n).1).1 t.item = some w := by
    rw [hfin]
    split <;> split <;> exact ⟨_, rfl⟩
  obtain ⟨w, hwt⟩ := hfin'
  obtain ⟨p', y, c', hp', hy, hw'⟩ := itemText_some.1 hwt
  rw [hp] at hp'
  injection hp' with hp'
  subst hp'
  rw [hwt] at hfin
  refine ⟨y, c', w, hy, hw', fun hgo => ?_, fun hno => ?_⟩
  · have htx := hto.2 hgo
    rw [if_pos htx] at hfin
    refine ⟨fun hsome => ?_, fun hnone => ?_⟩
    · rw [if_pos ((hmemI _).2 hsome)] at hfin
      injection hfin with hfin
      subst hfin
      obtain ⟨v', hv', hr⟩ := hready _ htx
      rw [hiv] at hv'
      injection hv' with hv'
      subst hv'
      exact (c93_adjust_partial hF (ctx := textCtx n) hf rfl hr.2 t.item (words := words)
        fun w hwm _ => ⟨c93_times_are_floats hF hs0 w hwm, htime w hwm⟩).2
    · rw [if_neg fun h => hnone ((hmemI _).1 h)] at hfin
      injection hfin
  · have htx := mt hto.1 hno
    have : t.item ∉ itemsOf perm words := by
      intro h
      obtain ⟨s, hsm, hse⟩ := (hmemI _).1 h
      exact htx (hse ▸ htouch s hsm)
    rw [if_neg htx, if_neg this] at hfin
    injection hfin

/-- C126. What `adjust` does to the texts, for subtitles from which a schedule can be made (`words`, see C65 to
C69): it ends without an exception, and
* in a group to which a line goes, the text of each layer shows nothing at first, and then each of the layer's
  scheduled texts from the frame nearest to its time; if none is scheduled for it, it is no longer animated
  but keeps the first text it had;
* in other groups, texts are as they were.

This is as long as a frame rate is known, no scheduled time is tiny (see C93), no text layer is in another
and no bywords group in another, and the texts of the groups which say what one of the lines says are strings. -/
theorem c126_texts_partial {F : Fl} (hF : F.Lawful) (d : Defaults) {perm : List (ℕ × ℕ) → List (ℕ × ℕ)}
    (hperm : ∀ l, (perm l).Perm l) (letters : Bool) (lines : List SubLine) {n : Node} {gs : List BGroup}
    (hg : bwGroups F d n = .ok gs) {words : List WordTiming} {no : List Str}
    (hs : bywords F letters gs lines = .ok (words, no)) {rate : ℚ} (hf : readFps F (animRoot n) = .ok (some rate))
    (htime : ∀ w ∈ words, Plain10 w.time) (h1 : NoneInAnother (IsLayer "text") n)
    (h2 : NoneInAnother (BywordsGroup F) n)
    (htext : ∀ p x, Matched F (lines.map SubLine.text) n p → nodeAt p n = some x →
      ∃ c v, getParam "text".toList x = .ok (c, v) ∧ (unAnimate F (textCtx n) v).2 = .ok () ∧
        Legal "string".toList (unAnimate F (textCtx n) v).1) :
    (adjust F d perm letters lines n).2 = .ok () ∧
    ∀ q r g x, q ≠ [] → nodeAt q n = some g → BywordsGroup F g → r ≠ [] → nodeAt r g = some x → IsLayer "text" x →
      ∃ bg ∈ gs, ∃ t ∈ bg.texts, bg.fullText = groupWords F g ∧ getDesc F x = some t.desc ∧
        ∀ c v, getParam "text".toList x = .ok (c, v) →
          ∃ y c' w, nodeAt (q ++ r) (adjust F d perm letters lines n).1 = some y ∧
            getParam "text".toList y = .ok (c', w) ∧
            ((∃ l ∈ lines, GoesTo gs l bg) →
              ((∃ s ∈ words, s.item = t.item) →
                TimelineIs F (textCtx n) "string".toList w
                  ((TMap.empty.set 0 (heldText [])).setAll
                    ((words.filter fun s => s.item = t.item).map fun s => (F.rnd (s.time * rate), heldText s.text)))) ∧
              ((¬ ∃ s ∈ words, s.item = t.item) → w = (unAnimate F (textCtx n) v).1)) ∧
            ((¬ ∃ l ∈ lines, GoesTo gs l bg) → w = v) := by
  obtain ⟨tbl, ht⟩ := places_exist hg
  obtain ⟨h, hall⟩ := adjust_item hF d hperm letters lines hg hs hf htime h1 h2 htext ht
  refine ⟨h, ?_⟩
  intro q r g x h0 hat hB hr0 hrx hx
  obtain ⟨bg, hbg, t, htm, hfull, hp, hd⟩ := text_item hg ht h0 hat hB hr0 hrx hx
  have hxn : nodeAt (q ++ r) n = some x := by rw [nodeAt_append, hat]; exact hrx
  exact ⟨bg, hbg, t, htm, hfull, hd, hall bg hbg t htm _ x hp hxn⟩

/-! ## It can be saved -/

theorem nodeAt_ok {F : Fl} : ∀ {p : List ℕ} {n x : Node}, n.XmlOk F → nodeAt p n = some x → x.XmlOk F
  | [], n, x, h, hx => by injection hx with hx; subst hx; exact h
  | i :: p, .text s, x, h, hx => by rw [nodeAt_text (by simp)] at hx; cases hx
  | i :: p, .tag a b ks, x, h, hx => by
    rw [nodeAt_cons, Node.kids] at hx
    cases hi : ks[i]? with
    | none => rw [hi] at hx; cases hx
    | some y =>
      rw [hi] at hx
      exact nodeAt_ok (xmlOkKids_iff.1 h.2.2 y (List.mem_of_getElem? hi)) hx

theorem getDesc_legal {F : Fl} {x : Node} (h : x.XmlOk F) {s : Str} (hs : getDesc F x = some s) : LegalText s := by
  cases x with
  | text t => simp [getDesc, Node.attrs, Attrs.get] at hs
  | tag a b ks =>
    rw [getDesc, Node.attrs] at hs
    split at hs
    · cases hs
    next v hv =>
    injection hs with hs
    subst hs
    obtain ⟨l1, l2, hl, -⟩ := List.lookup_eq_some_iff.1 hv
    exact legal_iff.2 (h.2.1.2 ("desc", v) (by rw [hl]; simp)).2

theorem shown_legal {letters : Bool} {desc s : Str} (h : LegalText desc) (hs : s ∈ shownTexts letters desc) :
    LegalText s := by
  obtain ⟨i, -, rfl⟩ := List.mem_map.1 hs
  intro c hc
  exact h c (List.mem_of_mem_take hc)

theorem onParam_keeps {F : Fl} {f : Str} {g : Node → Node × Res Unit} (hg : ∀ v, Good F v → Good F (g v).1) :
    Keeps F (onParam f fun _ => g) := by
  constructor
  · intro x hx
    cases x with
    | text s => exact hx
    | tag n a ks =>
      rw [onParam]
      split
      · exact hx
      next p hp =>
      split
      · exact hx
      next s c v hv =>
      obtain ⟨q, i, -, h2, -⟩ := value_place hp hv
      have hvt : v.isTag = true := by
        simp only [nameAndValue] at hv
        split at hv
        · cases hv
        split at hv
        · cases hv
        · split at hv
          · next u hu =>
            split at hv
            · cases hv
            · injection hv with hv; injection hv with _ hv; injection hv with _ hv
              subst hv
              have : u ∈ p.tagKids := by rw [hu]; simp
              exact (List.mem_filter.1 this).2
          · cases hv
        · cases hv
      exact (updFirst_good (fun y hy => replaceValue_good (hg v ⟨nodeAt_ok hx h2, hvt⟩) hy) (n := .tag n a ks) ⟨hx, rfl⟩).1
  · intro x
    cases x with
    | text s => rfl
    | tag n a ks =>
      rw [onParam]
      split
      · rfl
      · split <;> rfl

theorem onText_keeps {F : Fl} {tbl : List (List Place)} {x : ℕ × ℕ} {g : Node → Node × Res Unit}
    (hg : ∀ v, Good F v → Good F (g v).1) {n : Node} (hn : Good F n) : Good F (onText tbl x g n).1 := by
  rw [onText]
  split
  · exact hn
  · exact (actAt_keeps (onParam_keeps hg) _).good hn

theorem setConstant_good {F : Fl} {ctx : Ctx} {time value : Str} (hv : LegalText value) {n : Node} (hn : Good F n) :
    Good F (setConstant F ctx time value n).1 := by
  rw [setConstant]
  split
  · exact hn
  next v hnew =>
  split
  · exact hn
  split
  · exact hn
  next w hw =>
  refine addWaypoints_good (fun w' hw' => ?_) hn
  rw [List.mem_singleton.1 hw']
  exact waypoint_new_legal (.val (newValue_good (.str hv) hnew)) hw

theorem setWords_good {F : Fl} {ctx : Ctx} {words : List WordTiming} (hw : ∀ w ∈ words, LegalText w.text) {n : Node}
    (hn : Good F n) : Good F (setWords F ctx words n).1 := by
  induction words generalizing n with
  | nil => exact hn
  | cons w ws ih =>
    have h := setConstant_good (ctx := ctx) (time := reprF F w.time) (hw w (by simp)) hn
    rw [setWords]
    split
    · next e => rw [e] at h; exact h
    · next e => rw [e] at h; exact ih (fun x hx => hw x (by simp [hx])) h

theorem adjustText_good {F : Fl} {ctx : Ctx} {x : ℕ × ℕ} {words : List WordTiming}
    (hw : ∀ w ∈ words, LegalText w.text) {n : Node} (hn : Good F n) : Good F (adjustText F ctx x words n).1 := by
  have h := setConstant_good (ctx := ctx) (time := ['0']) legal_nil hn
  rw [adjustText]
  split
  · next e => rw [e] at h; exact h
  · next e => rw [e] at h; exact setWords_good (fun w hwm => hw w (List.mem_filter.1 hwm).1) h

theorem clearTexts_good {F : Fl} {ctx : Ctx} {tbl : List (List Place)} {l : List (ℕ × ℕ)} {n : Node}
    (hn : Good F n) : Good F (clearTexts F ctx tbl l n).1 := by
  induction l generalizing n with
  | nil => exact hn
  | cons x l ih =>
    have h := onText_keeps (tbl := tbl) (x := x) (g := unAnimate F ctx) (fun v hv => unAnimate_good hv) hn
    rw [clearTexts]
    split
    · next e => rw [e] at h; exact h
    · next e => rw [e] at h; exact ih h

theorem adjustItems_good {F : Fl} {ctx : Ctx} {tbl : List (List Place)} {words : List WordTiming}
    (hw : ∀ w ∈ words, LegalText w.text) {l : List (ℕ × ℕ)} {n : Node} (hn : Good F n) :
    Good F (adjustItems F ctx tbl words l n).1 := by
  induction l generalizing n with
  | nil => exact hn
  | cons x l ih =>
    have h := onText_keeps (tbl := tbl) (x := x) (g := adjustText F ctx x words) (fun v hv => adjustText_good hw hv) hn
    rw [adjustItems]
    split
    · next e => rw [e] at h; exact h
    · next e => rw [e] at h; exact ih h

theorem firstMatchDoc_good {F : Fl} {ctx : Ctx} {tbl : List (List Place)} {letters : Bool} {l : SubLine}
    {gs : List BGroup} (hg : ∀ g ∈ gs, ∀ t ∈ g.texts, LegalText t.desc) {n : Node} (hn : Good F n) :
    Good F (firstMatchDoc F ctx tbl letters l gs n).1 ∧
    ∀ ws, (firstMatchDoc F ctx tbl letters l gs n).2 = .ok (some ws) → ∀ w ∈ ws, LegalText w.text := by
  induction gs generalizing n with
  | nil => exact ⟨hn, fun ws h => by simp [firstMatchDoc] at h⟩
  | cons g gs ih =>
    have ih := fun {n} => ih (n := n) fun g' hg' => hg g' (by simp [hg'])
    rw [firstMatchDoc]
    split
    · exact ih hn
    have h := clearTexts_good (ctx := ctx) (tbl := tbl) (l := g.texts.map BText.item) hn
    split
    · next e => rw [e] at h; exact ⟨h, fun ws hw => by cases hw⟩
    next e =>
    rw [e] at h
    split
    · exact ⟨h, fun ws hw => by cases hw⟩
    · next w ws hws =>
      refine ⟨h, fun ws' hw' => ?_⟩
      injection hw' with hw'
      injection hw' with hw'
      subst hw'
      intro w' hw'
      have hmem : (w'.text, w'.item) ∈ g.shown letters := by
        rw [← bwMatches_texts hws]
        exact List.mem_map.2 ⟨w', hw', rfl⟩
      obtain ⟨t, ht, hs⟩ := List.mem_flatMap.1 hmem
      obtain ⟨s, hs1, hs⟩ := List.mem_map.1 hs
      injection hs with hs _
      rw [← hs]
      exact shown_legal (hg g (by simp) t ht) hs1
    · exact ih h

theorem matchLinesDoc_good {F : Fl} {ctx : Ctx} {tbl : List (List Place)} {letters : Bool} {gs : List BGroup}
    (hg : ∀ g ∈ gs, ∀ t ∈ g.texts, LegalText t.desc) {lines : List SubLine} {dict : List WordTiming}
    (hd : ∀ w ∈ dict, LegalText w.text) {n : Node} (hn : Good F n) :
    Good F (matchLinesDoc F ctx tbl letters gs dict lines n).1 ∧
    ∀ ws, (matchLinesDoc F ctx tbl letters gs dict lines n).2 = .ok ws → ∀ w ∈ ws, LegalText w.text := by
  induction lines generalizing dict n with
  | nil =>
    refine ⟨hn, fun ws h => ?_⟩
    injection h with h
    subst h
    exact hd
  | cons l lines ih =>
    obtain ⟨h1, h2⟩ := firstMatchDoc_good (F := F) (ctx := ctx) (tbl := tbl) (letters := letters) (l := l) hg hn
    rw [matchLinesDoc]
    split
    · next e => rw [e] at h1; exact ⟨h1, fun ws hw => by cases hw⟩
    · next ws e =>
      rw [e] at h1 h2
      refine ih (fun w hw => ?_) h1
      rcases mem_putWords hw with hw | hw
      · exact h2 ws rfl w hw
      · exact hd w hw
    · next e => rw [e] at h1; exact ih hd h1

theorem adjust_good {F : Fl} (d : Defaults) (perm : List (ℕ × ℕ) → List (ℕ × ℕ)) (letters : Bool)
    (lines : List SubLine) (n : Node) (hn : Good F n) : Good F (adjust F d perm letters lines n).1 := by
  rw [adjust]
  split
  · exact hn
  · exact hn
  next gs tbl h ht =>
  obtain ⟨h1, h2⟩ := matchLinesDoc_good (F := F) (ctx := textCtx n) (tbl := tbl) (letters := letters) (gs := gs)
    (lines := lines) (dict := []) (by
      intro g hg t htm
      obtain ⟨i, gp, gn, ps, -, hat, -, -, -, hts⟩ := group_info h ht hg
      obtain ⟨j, r, x, -, -, -, hrx, -, hd⟩ := hts t htm
      exact getDesc_legal (nodeAt_ok (nodeAt_ok hn.1 hat) hrx) hd) (by simp) hn
  split
  · next e => rw [e] at h1; exact h1
  · next m dict e =>
    rw [e] at h1 h2
    exact adjustItems_good (fun w hw => h2 dict rfl w ((List.mem_insertionSort _).1 hw)) h1

/-- C126, from file to file: when the program ends without an exception, the file opens as what `adjust` made of
the animation it was; when there is an exception, no file is changed; and no other file is ever changed. -/
theorem c126_file {F : Fl} (short : Node → Bool) {gzip : Bytes → Bytes} {gunzip : Bytes → Res Bytes}
    {canOpen : Str → Bool} (h1 : ∀ b, gunzip (gzip b) = .ok b) (h2 : ∀ b, ∃ r, gzip b = 0x1f :: 0x8b :: r)
    (d : Defaults) (perm : List (ℕ × ℕ) → List (ℕ × ℕ)) (letters : Bool) (lines : List SubLine) (sif : Str)
    (fs : Disk) :
    let run := runProgram (xmlCodec F short gzip gunzip canOpen)
      (onXml (adjust F d perm letters lines) (adjust_good d perm letters lines)) sif sif fs
    (∀ q, q ≠ sif → run.1 q = fs q) ∧
    (run.2 = .ok () → ∃ a f y, Anim.load (xmlCodec F short gzip gunzip canOpen) fs sif = .ok a ∧
      (adjust F d perm letters lines a.doc.1).2 = .ok () ∧
      Anim.load (xmlCodec F short gzip gunzip canOpen) run.1 sif = .ok ⟨f, some sif, y⟩ ∧
      ReadBack F (adjust F d perm letters lines a.doc.1).1 y.1) ∧
    (∀ a e, Anim.load (xmlCodec F short gzip gunzip canOpen) fs sif = .ok a →
      (adjust F d perm letters lines a.doc.1).2 = .error e → run = (fs, .error e)) := by
  obtain ⟨c1, -, c3, -⟩ := c125_files (xmlCodec_lawful F short canOpen h1 h2)
    (onXml (adjust F d perm letters lines) (adjust_good d perm letters lines)) sif sif fs
  exact ⟨c1, fun h => run_xml short h1 h2 (adjust_good d perm letters lines) sif sif fs h,
    fun a e ha he => c3 a _ e ha (Prod.ext rfl he)⟩

/-- C126. Unless another name is given, the subtitles are in the same directory and have the same name, but with
".srt" for its extension. -/
theorem c126_subtitles (p dir stem ext : Str) (h : IsPath p dir (stem ++ '.' :: ext))
    (hstem : ∃ c ∈ stem, c ≠ '.') (hext : '.' ∉ ext) : IsPath (srtName p) dir (stem ++ ".srt".toList) := by
  have hx : ∀ x ∈ ext.reverse, (x != '.') = true := by
    intro x hx
    simp only [List.mem_reverse] at hx
    simp only [bne_iff_ne, ne_eq]
    rintro rfl; exact hext hx
  have hs : splitext p = '.' :: ext := by
    unfold splitext
    rw [base_of_isPath h]
    simp only [List.reverse_append, List.reverse_cons, List.append_assoc, List.singleton_append]
    obtain ⟨h1, h2⟩ := takeWhile_stop (p := (· != '.')) ext.reverse '.' stem.reverse hx (by decide)
    rw [h1, h2]
    have : stem.reverse.any (· != '.') = true := by
      obtain ⟨c, hc, hne⟩ := hstem
      rw [List.any_eq_true]
      exact ⟨c, by simpa using hc, by simpa using hne⟩
    simp [this]
  obtain ⟨h1, h2, h3⟩ := h
  refine ⟨?_, h2, ?_⟩
  · have e : p = (dir ++ stem) ++ '.' :: ext := by rw [h1, List.append_assoc]
    rw [srtName, hs, e, List.length_append, Nat.add_sub_cancel, List.take_left', List.append_assoc]
    rfl
  · intro hc
    rcases List.mem_append.1 hc with hc | hc
    · exact h3 (List.mem_append_left _ hc)
    · exact absurd hc (by decide)

example : srtName "a/my.film.sif".toList = "a/my.film.srt".toList := by decide +kernel

/-! ## A case -/

theorem noneInAnother_of {want : Node → Prop} (ht : ∀ x, want x → x.isTag = true) {n : Node}
    (h : ∀ a ∈ placesOf [] n, ∀ b ∈ placesOf [] n, want a.2 → want b.2 → a.1 ≠ b.1 → NotNested a.1 b.1) :
    NoneInAnother want n := by
  intro p q x y hp hq hx hy hne
  exact h (p, x) (mem_placesOf.2 ⟨p, rfl, hp, ht x hx⟩) (q, y) (mem_placesOf.2 ⟨q, rfl, hq, ht y hy⟩) hx hy hne

instance (ty : String) (n : Node) : Decidable (IsLayer ty n) := inferInstanceAs (Decidable (_ ∧ _))

instance (p q : List ℕ) : Decidable (NotNested p q) := inferInstanceAs (Decidable (_ ∧ _))

/-- A text layer in a group. -/
def exLyric : Node :=
  .tag "layer" [("type", .str "text".toList), ("desc", .str "Hello, World".toList)]
    [.tag "param" [("name", .str "text".toList)] [.tag "string" [] [.text "Text".toList]]]

/-- An animation with a group for bywords. -/
def exLyrics : Node :=
  .tag "canvas" exRoot
    [exWord "blue",
     .tag "layer" [("type", .str "group".toList), ("desc", .str "Bywords 1".toList)]
      [.tag "param" [("name", .str "canvas".toList)] [.tag "canvas" [] [exLyric]]]]

/-- Its subtitles. -/
def exLines : List SubLine := [⟨1000, 2000, "HELLO world!".toList⟩, ⟨3000, 1000, "something else".toList⟩]

/-- It meets the conditions. -/
theorem exLyrics_ok :
    bwGroups double .initial exLyrics = .ok [⟨"Bywords 1".toList, [⟨(0, 0), "Hello, World".toList⟩]⟩] ∧
    (∃ words, bywords double false [⟨"Bywords 1".toList, [⟨(0, 0), "Hello, World".toList⟩]⟩] exLines =
      .ok (words, ["something else".toList]) ∧ words.length = 2 ∧ ∀ w ∈ words, Plain10 w.time) ∧
    readFps double (animRoot exLyrics) = .ok (some 24) ∧
    NoneInAnother (IsLayer "text") exLyrics ∧ NoneInAnother (BywordsGroup double) exLyrics ∧
    (∀ p x, Matched double (exLines.map SubLine.text) exLyrics p → nodeAt p exLyrics = some x →
      ∃ c v, getParam "text".toList x = .ok (c, v) ∧ (unAnimate double (textCtx exLyrics) v).2 = .ok () ∧
        Legal "string".toList (unAnimate double (textCtx exLyrics) v).1) := by
  have htag : ∀ ty x, IsLayer ty x → x.isTag = true := by
    intro ty x h
    cases x with
    | text s => simp [IsLayer, Node.name] at h
    | tag a b ks => rfl
  refine ⟨by decide +kernel, ⟨_, rfl, by decide +kernel, ?_⟩, by decide +kernel, ?_, ?_, ?_⟩
  · have : ∀ w ∈ (match bywords double false [⟨"Bywords 1".toList, [⟨(0, 0), "Hello, World".toList⟩]⟩] exLines with
        | .ok (l, _) => l
        | .error _ => []), (10:ℚ) ^ (-4:ℤ) ≤ w.time ∧ w.time < (10:ℚ) ^ (16:ℤ) := by decide +kernel
    exact fun w hw => .inr (this w hw)
  · exact noneInAnother_of (htag _) (by decide +kernel)
  · intro p q x y hp hq hx hy hne
    have : NoneInAnother (IsLayer "group") exLyrics := noneInAnother_of (htag _) (by decide +kernel)
    exact this p q x y hp hq hx.1 hy.1 hne
  · rintro p x ⟨q, r, g, y, rfl, h0, hr0, hg, hB, ⟨l, hl, hsay⟩, hy, hty⟩ hp
    have hyn : nodeAt (q ++ r) exLyrics = some y := by rw [nodeAt_append, hg]; exact hy
    rw [hp] at hyn
    injection hyn with hyn
    subst hyn
    have hgt : g.isTag = true := htag _ _ hB.1
    have hB' : IsLayer "group" g := hB.1
    have hin : ∀ a ∈ placesOf [] exLyrics, IsLayer "group" a.2 → ∀ b ∈ placesOf [] a.2, b.1 ≠ [] →
        IsLayer "text" b.2 → b.2 = exLyric := by decide +kernel
    have hx : x = exLyric := hin (q, g) (mem_placesOf.2 ⟨q, rfl, hg, hgt⟩) hB' (r, x)
      (mem_placesOf.2 ⟨r, rfl, hy, htag _ _ hty⟩) hr0 hty
    subst hx
    exact ⟨.string, .tag "string" [] [.text "Text".toList], by decide +kernel, by decide +kernel, by decide +kernel,
      by decide +kernel, by decide +kernel, .string, by decide +kernel⟩

/-- C126. A text layer in such a group but without a text stops it: `KeyError`. The texts of the other layers have
lost their animation by then (though only in memory, since nothing is saved). -/
theorem c126_no_text_fails :
    (adjust double .initial id false [⟨0, 1000, "b a".toList⟩] (.tag "canvas" exRoot
      [.tag "layer" [("type", .str "group".toList), ("desc", .str "bywords".toList)]
        [.tag "layer" [("type", .str "text".toList), ("desc", .str "a".toList)] [],
         .tag "layer" [("type", .str "text".toList), ("desc", .str "b".toList)]
          [.tag "param" [("name", .str "text".toList)]
            [.tag "animated" [("type", .str "string".toList)]
              [.tag "waypoint" [("time", .str "0s".toList), ("before", .str "constant".toList),
                ("after", .str "constant".toList)] [.tag "string" [] [.text "z".toList]]]]]]])) =
    (.tag "canvas" exRoot
      [.tag "layer" [("type", .str "group".toList), ("desc", .str "bywords".toList)]
        [.tag "layer" [("type", .str "text".toList), ("desc", .str "a".toList)] [],
         .tag "layer" [("type", .str "text".toList), ("desc", .str "b".toList)]
          [.tag "param" [("name", .str "text".toList)] [.tag "string" [] [.text "z".toList]]]]],
      .error .key) := by decide +kernel

/-- C126. So does an animation without a frame rate, if anything matches: `KeyError`. -/
theorem c126_no_rate_fails :
    (adjust double .initial id false [⟨1000, 1000, "a".toList⟩] (.tag "canvas" []
      [.tag "layer" [("type", .str "group".toList), ("desc", .str "bywords".toList)]
        [.tag "layer" [("type", .str "text".toList), ("desc", .str "a".toList)]
          [.tag "param" [("name", .str "text".toList)] [.tag "string" [] [.text "z".toList]]]]])).2 =
      .error .key := by decide +kernel

end Sang
