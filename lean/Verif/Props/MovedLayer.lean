import Verif.DomRoot
import Verif.Props.GroupLists
import Verif.Props.RateChange

/-!
# C170: layers moved between animations
-/

namespace Sang

open Spec Relation

namespace Dom

theorem upTo_stable {h : Dom} (hf : Forest h) : ∀ (n m x : ℕ), h.size ≤ n + h.rank x → h.size ≤ m + h.rank x →
    h.upTo n x = h.upTo m x := by
  have top : ∀ x, h.size ≤ h.rank x → h.parent x = none := by
    intro x hx
    by_contra hne
    obtain ⟨p, hp⟩ := Option.ne_none_iff_exists'.1 hne
    have := rank_lt hf (c := x) (p := p) hp
    have := rank_le h p
    omega
  intro n
  induction n with
  | zero =>
    intro m x hx _
    cases m with
    | zero => rfl
    | succ m => simp [upTo, top x (by omega)]
  | succ n ih =>
    intro m x hx hm
    cases m with
    | zero => simp [upTo, top x (by omega)]
    | succ m =>
      simp only [upTo]
      cases hp : h.parent x with
      | none => rfl
      | some p =>
        have := rank_lt hf (c := x) (p := p) hp
        simp only [ih m p (by omega) (by omega)]

theorem up_eq {h : Dom} (hf : Forest h) (x : ℕ) :
    h.up x = match h.parent x with
      | none => []
      | some p => p :: h.up p := by
  have : h.up x = h.upTo (h.size + 1) x := upTo_stable hf _ _ x (by omega) (by omega)
  rw [this]; rfl

theorem up_top {h : Dom} (hf : Forest h) {x : ℕ} (hp : h.parent x = none) : h.up x = [] := by rw [up_eq hf, hp]

theorem up_par {h : Dom} (hf : Forest h) {x p : ℕ} (hp : Par h x p) : h.up x = p :: h.up p := by
  have : h.parent x = some p := hp
  rw [up_eq hf, this]

theorem up_last {h : Dom} (hf : Forest h) {z d : ℕ} (hz : Within h z d) (hd : h.parent d = none) : (h.up z).getLastD z = d := by
  induction hz using ReflTransGen.head_induction_on with
  | refl => rw [up_top hf hd]; rfl
  | head hab _ ih => rw [up_par hf hab, List.getLastD_cons]; exact ih

/-- In a document, every object's root is the document's. -/
theorem rootOf_in {h : Dom} (hf : Forest h) {docs : ℕ → Bool} {z d : ℕ} (hz : Within h z d) (hd : h.parent d = none)
    (hdoc : docs d = true) (hc : (h.bare d).name = "canvas") : h.rootOf docs z = some (h.bare d).attrs := by
  have hl := up_last hf hz hd
  rw [rootOf, hl, if_pos hdoc]
  cases hu : h.up z with
  | nil =>
    rw [hu] at hl
    simp only [List.getLastD_nil] at hl
    subst hl
    simp [canvasRoot, hc]
  | cons y r =>
    rw [hu, List.getLastD_cons] at hl
    have e : (r.map fun y => ((h.bare y).name, (h.bare y).attrs)) ++ [("[document]", [])] ≠ [] := by simp
    have hlast : (((y :: r).map fun y => ((h.bare y).name, (h.bare y).attrs)) ++ [("[document]", [])]).dropLast.getLast? =
        some ((h.bare d).name, (h.bare d).attrs) := by
      rw [List.dropLast_concat, List.getLast?_map, List.getLast?_cons, ← List.getLastD_eq_getLast?, hl]
      rfl
    rw [List.map_cons, List.cons_append] at hlast ⊢
    cases hw : (r.map fun y => ((h.bare y).name, (h.bare y).attrs)) ++ [("[document]", [])] with
    | nil => exact absurd hw e
    | cons a t =>
      rw [hw] at hlast
      simp only [canvasRoot, hlast]
      simp [hc]

/-- What isn't in a document has no root. -/
theorem rootOf_loose {h : Dom} (hf : Forest h) {docs : ℕ → Bool} {z x : ℕ} (hz : Within h z x) (hx : h.parent x = none)
    (hdoc : docs x = false) (hk : ∀ y ∈ h.kids x, (h.bare y).name ≠ "canvas") : h.rootOf docs z = none := by
  have hl := up_last hf hz hx
  rw [rootOf, hl, hdoc]
  simp only [Bool.false_eq_true, if_false, List.append_nil]
  rcases ReflTransGen.cases_tail hz with rfl | ⟨y, hzy, hyx⟩
  · rw [up_top hf hx]; rfl
  · have hy := hk y ((hf.child x y).2 hyx)
    have key : ∃ L, h.up z = L ++ [x] ∧ L.getLastD z = y := by
      clear hl hz
      induction hzy using ReflTransGen.head_induction_on with
      | refl => exact ⟨[], by rw [up_par hf hyx, up_top hf hx]; rfl, rfl⟩
      | @head a b hab _ ih =>
        obtain ⟨L, h1, h2⟩ := ih
        exact ⟨b :: L, by rw [up_par hf hab, h1]; rfl, by rw [List.getLastD_cons]; exact h2⟩
    obtain ⟨L, h1, h2⟩ := key
    rw [h1]
    cases L with
    | nil =>
      simp only [List.getLastD_nil] at h2
      subst h2
      simp [canvasRoot, hy]
    | cons a r =>
      rw [List.getLastD_cons] at h2
      have hlast : (((a :: r) ++ [x]).map fun y => ((h.bare y).name, (h.bare y).attrs)).dropLast.getLast? =
          some ((h.bare y).name, (h.bare y).attrs) := by
        rw [List.map_append, List.map_singleton, List.dropLast_concat, List.getLast?_map, List.getLast?_cons,
          ← List.getLastD_eq_getLast?, h2]
        rfl
      have e : ((r ++ [x]).map fun y => ((h.bare y).name, (h.bare y).attrs)) ≠ [] := by simp
      rw [List.cons_append, List.map_cons] at hlast ⊢
      cases hw : (r ++ [x]).map fun y => ((h.bare y).name, (h.bare y).attrs) with
      | nil => exact absurd hw e
      | cons b t =>
        rw [hw] at hlast
        simp only [canvasRoot, hlast]
        simp [hy]

theorem Put.parent_same {h h' : Dom} {x c z : ℕ} (m : Put h x c h') (hz : z < h.size) (ht : (h.bare z).isTag = true)
    (hzx : ¬ Within h z x) : h'.parent z = h.parent z :=
  m.root z hz (by rintro rfl; exact hzx .refl) ht

/-- What isn't in the layer has the same parents. -/
theorem Put.up_same {h h' : Dom} (hf : Forest h) {x c : ℕ} (m : Put h x c h') : ∀ z, z < h.size → (h.bare z).isTag = true →
    ¬ Within h z x → h'.up z = h.up z := by
  have : ∀ n z, z < h.size → (h.bare z).isTag = true → ¬ Within h z x → h'.upTo n z = h.upTo n z := by
    intro n
    induction n with
    | zero => intros; rfl
    | succ n ih =>
      intro z hz ht hzx
      simp only [upTo, m.parent_same hz ht hzx]
      cases hp : h.parent z with
      | none => rfl
      | some p =>
        have hp' : Par h z p := hp
        simp only [ih p (hf.made p z hp').1 (isTag_of_kid hf hp') fun hpx => hzx (ReflTransGen.head hp' hpx)]
  intro z hz ht hzx
  have e := upTo_stable hf h'.size h.size z (by have := m.size; omega) (by omega)
  rw [up, this _ z hz ht hzx, e]; rfl

theorem up_made {h : Dom} (hf : Forest h) : ∀ n z y, y ∈ h.upTo n z → y < h.size := by
  intro n
  induction n with
  | zero => intro z y hy; simp [upTo] at hy
  | succ n ih =>
    intro z y hy
    rw [upTo] at hy
    cases hp : h.parent z with
    | none => rw [hp] at hy; simp at hy
    | some p =>
      rw [hp] at hy
      simp only [List.mem_cons] at hy
      rcases hy with rfl | hy
      · exact (hf.made y z hp).1
      · exact ih p y hy

theorem Put.rootOf_same {h h' : Dom} (hf : Forest h) {x c z : ℕ} (m : Put h x c h') {docs : ℕ → Bool} (hz : z < h.size)
    (ht : (h.bare z).isTag = true) (hzx : ¬ Within h z x) : h'.rootOf docs z = h.rootOf docs z := by
  have hu := m.up_same hf z hz ht hzx
  rw [rootOf, rootOf, hu, m.bare hz]
  have : (h.up z).map (fun y => ((h'.bare y).name, (h'.bare y).attrs)) = (h.up z).map fun y => ((h.bare y).name, (h.bare y).attrs) :=
    List.map_congr_left fun y hy => by rw [m.bare (up_made hf _ _ y hy)]
  rw [this]

theorem Put.within_keep {h h' : Dom} (hf : Forest h) {x c z d : ℕ} (m : Put h x c h') (hzd : Within h z d) (hz : z < h.size)
    (ht : (h.bare z).isTag = true) (hzx : ¬ Within h z x) : Within h' z d := by
  induction hzd using ReflTransGen.head_induction_on with
  | refl => exact .refl
  | @head a b hab _ ih =>
    have : Par h' a b := (m.parent_same hz ht hzx).trans hab
    exact ReflTransGen.head this (ih (hf.made b a hab).1 (isTag_of_kid hf hab) fun hbx => hzx (ReflTransGen.head hab hbx))

/-- The contents of the layer are the same. -/
theorem Put.kids_in {h h' : Dom} (hf : Forest h) {x c z : ℕ} (m : Put h x c h') (hx : x < h.size) (hin : ¬ Within h c x)
    (hz : Within h z x) : h'.kids z = h.kids z ∧ h'.lbl z = h.lbl z := by
  have hzs := inside_made hf hz hx
  refine ⟨?_, m.lbl z hzs⟩
  rw [m.there z (by rintro rfl; exact hin hz) hzs]
  apply filter_ne_self
  intro hm
  have hxz : Par h x z := (hf.child z x).1 hm
  exact hf.acyclic x (TransGen.head' hxz hz)

theorem Put.within_in {h h' : Dom} (hf : Forest h) {x c z : ℕ} (m : Put h x c h') (hx : x < h.size) (hin : ¬ Within h c x)
    (hz : Within h z x) : Within h' z x := by
  induction hz using ReflTransGen.head_induction_on with
  | refl => exact .refl
  | @head a b hab hb ih =>
    refine ReflTransGen.head ((m.forest.child b a).1 ?_) ih
    rw [(m.kids_in hf hx hin hb).1]
    exact (hf.child b a).2 hab

/-- An operation that raises nothing has put the layer in the group's canvas. -/
theorem run_put {h h' : Dom} (hf : Forest h) {o : MoveOp} {c : ℕ} {l : List ℕ} (hh : HolderAt h o.group.1 o.group.2 c)
    (hl : h.children o.group.1 o.group.2 = .ok l) (hx : o.layer < h.size) (hin : ¬ Within h c o.layer)
    (ho : o.run h = (h', .ok ())) : Put h o.layer c h' := by
  cases o with
  | append k g x =>
    simp only [MoveOp.run, MoveOp.group, MoveOp.layer] at *
    have hlast : l.getLast? ≠ some x := by
      intro he
      have := c71_append_last_child_fails hf hl he
      rw [ho] at this
      simp at this
    have := append_put hf hh hl hx hin hlast
    rw [ho] at this
    exact this
  | insert k g i x =>
    simp only [MoveOp.run, MoveOp.group, MoveOp.layer] at *
    cases hi : pyIndex l i with
    | error e =>
      rw [Dom.groupInsert, hl] at ho
      simp [hi] at ho
    | ok y =>
      have hxy : x ≠ y := by
        rintro rfl
        have := (insert_self_put hf hh hl hi).1
        rw [ho] at this
        simp at this
      have := insert_put hf hh hl hi hx hin hxy
      rw [ho] at this
      exact this

/-- C170. When a layer has been appended to or inserted in a group of an animation, whatever it was in before, everything in it
looks as it did, and its times are now reckoned with that animation's rate; nothing has changed for what isn't in the layer. -/
theorem c170_new_home {h h' : Dom} (hf : Forest h) {o : MoveOp} {c d : ℕ} {l : List ℕ} {docs : ℕ → Bool}
    (hh : HolderAt h o.group.1 o.group.2 c) (hl : h.children o.group.1 o.group.2 = .ok l) (hx : o.layer < h.size)
    (hin : ¬ Within h c o.layer) (ho : o.run h = (h', .ok ())) (hd : Within h o.group.2 d) (hroot : h.parent d = none)
    (hdoc : docs d = true) (hc : (h.bare d).name = "canvas") :
    (∀ z, Within h z o.layer → h'.node z = h.node z ∧ h'.rootOf docs z = some (h.bare d).attrs) ∧
    ∀ z, z < h.size → (h.bare z).isTag = true → ¬ Within h z o.layer → h'.rootOf docs z = h.rootOf docs z := by
  have m := run_put hf hh hl hx hin ho
  refine ⟨fun z hz => ⟨?_, ?_⟩, fun z hz ht hzx => m.rootOf_same hf hz ht hzx⟩
  · exact node_congr hf m.forest z fun w hw => m.kids_in hf hx hin (hw.trans hz)
  · have hcd : Within h c d := (canvas_inside hf (holderAt_canvas hf hh)).trans hd
    have hcs : c < h.size := inside_made hf (canvas_inside hf (holderAt_canvas hf hh)) hh.2.1
    have hds : d < h.size := by
      rcases ReflTransGen.cases_tail hd with e | ⟨b, _, hb⟩
      · rw [e]; exact hh.2.1
      · exact (hf.made d b hb).1
    have hct : (h.bare c).isTag = true := name_isTag hh.1 (by decide)
    have h1 : Within h' c d := m.within_keep hf hcd hcs hct hin
    have h2 : Within h' z d := ((m.within_in hf hx hin hz).tail m.here).trans h1
    have hdx : ¬ Within h d o.layer := fun hdx => hin (hcd.trans hdx)
    have h3 : h'.parent d = none := (m.parent_same hds (name_isTag hc (by decide)) hdx).trans hroot
    rw [rootOf_in m.forest h2 h3 hdoc (by rw [m.bare hds]; exact hc), m.bare hds]

/-- C170. A time in the layer, written in seconds and frames, is then as many seconds of the new animation, and as many frames; at
the same moment as in an animation with `k` frames per second exactly if it was at a whole second, or the rates are the same. -/
theorem c170_times {F : Fl} (hF : F.Lawful) {h h' : Dom} (hf : Forest h) {o : MoveOp} {c d : ℕ} {l : List ℕ} {docs : ℕ → Bool}
    (hh : HolderAt h o.group.1 o.group.2 c) (hl : h.children o.group.1 o.group.2 = .ok l) (hx : o.layer < h.size)
    (hin : ¬ Within h c o.layer) (ho : o.run h = (h', .ok ())) (hd : Within h o.group.2 d) (hroot : h.parent d = none)
    (hdoc : docs d = true) (hc : (h.bare d).name = "canvas") {k r : ℕ} (hk : 1 ≤ k) (hr : 1 ≤ r)
    (hfps : HasFps F (h.bare d).attrs r) {z : ℕ} (hz : Within h z o.layer) {s : Str} {a b : ℕ} (hs : GivesTime s a b)
    (hb : a * r + b ≤ 2 ^ 53) :
    T.new F (h'.rootOf docs z) (.str s) = .ok ⟨((a * r + b : ℕ) : ℚ), some (r:ℚ)⟩ ∧
    (((a * r + b : ℕ) : ℚ) / r = ((a * k + b : ℕ) : ℚ) / k ↔ b = 0 ∨ r = k) := by
  rw [((c170_new_home hf hh hl hx hin ho hd hroot hdoc hc).1 z hz).2]
  exact ⟨gives_new hF hr hfps hs hb, c168_same_moment_iff a b k r hk hr⟩

/-- C170. A layer moved from an animation, with root `d₀`, to one whose rate is no less: its timelines have the same waypoints,
in the same order, at the same seconds and frames. -/
theorem c170_faster {F : Fl} (hF : F.Lawful) {h h' : Dom} (hf : Forest h) {o : MoveOp} {c d d₀ : ℕ} {l : List ℕ} {docs : ℕ → Bool}
    (hh : HolderAt h o.group.1 o.group.2 c) (hl : h.children o.group.1 o.group.2 = .ok l) (hx : o.layer < h.size)
    (hin : ¬ Within h c o.layer) (ho : o.run h = (h', .ok ())) (hd : Within h o.group.2 d) (hroot : h.parent d = none)
    (hdoc : docs d = true) (hc : (h.bare d).name = "canvas")
    (hd₀ : Within h o.layer d₀) (hroot₀ : h.parent d₀ = none) (hdoc₀ : docs d₀ = true) (hc₀ : (h.bare d₀).name = "canvas")
    {k r : ℕ} (hk : 1 ≤ k) (hkr : k ≤ r) (hfps₀ : HasFps F (h.bare d₀).attrs k) (hfps : HasFps F (h.bare d).attrs r)
    {z : ℕ} (hz : Within h z o.layer) {par : Bool} {ty : Str} {ws : List Waypoint} (hn : (h.node z).name = "animated")
    (ht : (h.node z).attrs.get "type" = some (.str ty))
    (hw : List.Forall₂ (fun x w => WpElement F (h.rootOf docs z) ty x w ∧ ∃ s a b, x.attrs.get "time" = some (.str s) ∧
      GivesTime s a b ∧ b < k ∧ a * r + b ≤ 2 ^ 53) (h.node z).tagKids ws)
    (hdiff : ws.Pairwise fun a b => a.time.frames ≠ b.time.frames) :
    ∃ l l', iterTimeline F ⟨h.rootOf docs z, par⟩ (h.node z) = .ok l ∧ l.Perm ws ∧
      iterTimeline F ⟨h'.rootOf docs z, par⟩ (h'.node z) = .ok l' ∧
      List.Forall₂ (fun w w' => w'.before = w.before ∧ w'.after = w.after ∧ w'.val = w.val ∧
        ∃ a b : ℕ, b < k ∧ w.time = ⟨((a * k + b : ℕ) : ℚ), some (k:ℚ)⟩ ∧
          w'.time = ⟨((a * r + b : ℕ) : ℚ), some (r:ℚ)⟩) l l' := by
  obtain ⟨h1, h2⟩ := (c170_new_home hf hh hl hx hin ho hd hroot hdoc hc).1 z hz
  have h3 := rootOf_in hf (hz.trans hd₀) hroot₀ hdoc₀ hc₀
  rw [h1, h2]
  rw [h3] at hw ⊢
  exact c168_faster hF hk hkr hfps₀ hfps hn ht hw hdiff

/-- C170. Before a new layer has been put in an animation, a time in it is refused if it has seconds, and isn't tied to any rate
otherwise. -/
theorem c170_loose {F : Fl} (hF : F.Lawful) {h : Dom} (hf : Forest h) {docs : ℕ → Bool} {x z : ℕ} (hz : Within h z x)
    (hx : h.parent x = none) (hdoc : docs x = false) (hk : ∀ y ∈ h.kids x, (h.bare y).name ≠ "canvas") {s : Str} {a b : ℕ}
    (hs : GivesTime s a b) (hb : a + b ≤ 2 ^ 53) :
    T.new F (h.rootOf docs z) (.str s) = if a = 0 then .ok ⟨b, none⟩ else .error .value := by
  rw [rootOf_loose hf hz hx hdoc hk]
  obtain ⟨ps, tr, hr, m, sec, hv, ht, hd, rfl, eh, em, es, ef, e⟩ := hs
  have key := c08_seconds_need_ref hF ps tr hv ht hd hr m sec b (by rw [eh]; norm_cast) (by rw [em]; norm_cast)
    (by rw [es]; norm_cast) (by rw [ef]; norm_cast)
    (by
      rw [abs_of_nonneg (by positivity), abs_of_nonneg (by positivity), abs_of_nonneg (by positivity)]
      have : hr * 3600 + m * 60 + sec ≤ 2 ^ 53 := by omega
      exact_mod_cast this)
    (by
      rw [abs_of_nonneg (by positivity)]
      have : b ≤ 2 ^ 53 := by omega
      exact_mod_cast this)
  have hsec : seconds ps = (a:ℚ) := by
    rw [seconds, eh, em, es, ← e]; push_cast; ring
  rw [key, hsec, ef]
  by_cases ha : a = 0 <;> simp [ha]

/-- C170, violated: in an animation with any lower rate, the last frame of the first second isn't before the second one. -/
theorem c170_slower_fails {F : Fl} (hF : F.Lawful) {h h' : Dom} (hf : Forest h) {o : MoveOp} {c d : ℕ} {l : List ℕ}
    {docs : ℕ → Bool} (hh : HolderAt h o.group.1 o.group.2 c) (hl : h.children o.group.1 o.group.2 = .ok l) (hx : o.layer < h.size)
    (hin : ¬ Within h c o.layer) (ho : o.run h = (h', .ok ())) (hd : Within h o.group.2 d) (hroot : h.parent d = none)
    (hdoc : docs d = true) (hc : (h.bare d).name = "canvas") {k r : ℕ} (hr : 1 ≤ r) (hrk : r < k) (hk6 : k < 10 ^ 6)
    (hfps : HasFps F (h.bare d).attrs r) {z : ℕ} (hz : Within h z o.layer) :
    ∃ t t', T.new F (h'.rootOf docs z) (.str (T.str F ⟨((k - 1 : ℕ) : ℚ), some (k:ℚ)⟩)) = .ok t ∧
      T.new F (h'.rootOf docs z) (.str (T.str F ⟨(k : ℚ), some (k:ℚ)⟩)) = .ok t' ∧ t'.frames ≤ t.frames := by
  have hk : 1 ≤ k := by omega
  have e1 : (k - 1) / k = 0 := Nat.div_eq_of_lt (by omega)
  have e2 : (k - 1) % k = k - 1 := Nat.mod_eq_of_lt (by omega)
  have g1 := gives_str hF (n := k - 1) (k := k) (by omega) hk hk6
  have g2 := gives_str hF (n := k) (k := k) (by omega) hk hk6
  rw [e1, e2] at g1
  rw [Nat.div_self hk, Nat.mod_self] at g2
  refine ⟨_, _, (c170_times hF hf hh hl hx hin ho hd hroot hdoc hc hk hr hfps hz g1 (by omega)).1,
    (c170_times hF hf hh hl hx hin ho hd hroot hdoc hc hk hr hfps hz g2 (by omega)).1, ?_⟩
  have : 1 * r + 0 ≤ 0 * r + (k - 1) := by omega
  exact Nat.cast_le.2 this

/-- An animation at 24 frames per second with a layer whose amount is animated; one at 12, and one at 30, with no layers. -/
def exThree : Dom :=
  (((Dom.empty.alloc (.tag "canvas" [("fps", .str "24".toList)]
    [.tag "layer" [("type", .str "circle".toList)] [.tag "param" [("name", .str "amount".toList)] [exEdge]]])).1.alloc
    (.tag "canvas" [("fps", .str "12".toList)] [])).1.alloc (.tag "canvas" [("fps", .str "30".toList)] [])).1

/-- All three are documents. -/
def exThreeDocs (x : ℕ) : Bool := (exThree.parent x).isNone

theorem exThree_forest : Forest exThree :=
  (alloc_made (alloc_made (alloc_made forest_empty _).forest _).forest _).forest

/-- C170, violated: in the first animation the circle's amount goes from 1 at 23 frames to 2 at 24; when the circle has been
appended to the second, it goes from 2 to 1; in the third all is well. -/
theorem c170_slower_fails_timeline :
    shownAt double (exThree.rootOf exThreeDocs 3) (exThree.node 3) =
      .ok [(23, some (.str "1".toList)), (24, some (.str "2".toList))] ∧
    (exThree.groupAppend .animation 10 1).2 = .ok () ∧
    shownAt double ((exThree.groupAppend .animation 10 1).1.rootOf exThreeDocs 3) ((exThree.groupAppend .animation 10 1).1.node 3) =
      .ok [(12, some (.str "2".toList)), (23, some (.str "1".toList))] ∧
    (exThree.groupAppend .animation 11 1).2 = .ok () ∧
    shownAt double ((exThree.groupAppend .animation 11 1).1.rootOf exThreeDocs 3) ((exThree.groupAppend .animation 11 1).1.node 3) =
      .ok [(23, some (.str "1".toList)), (30, some (.str "2".toList))] := by
  refine ⟨?_, ?_, ?_, ?_, ?_⟩ <;> decide +kernel

theorem exThree_holder {g : ℕ} (hg : g = 10 ∨ g = 11) : HolderAt exThree .animation g g := by
  rcases hg with rfl | rfl
  · exact ⟨by decide +kernel, by decide +kernel, rfl, by decide +kernel⟩
  · exact ⟨by decide +kernel, by decide +kernel, rfl, by decide +kernel⟩

theorem exThree_outside {g : ℕ} (hg : g = 10 ∨ g = 11) : ¬ Within exThree g 1 := by
  rw [within_iff exThree_forest]
  rcases hg with rfl | rfl <;> decide +kernel

/-- The hypotheses of `c170_new_home`, `c170_times` and `c170_slower_fails` are met. -/
example : ∃ h', exThree.groupAppend .animation 10 1 = (h', .ok ()) ∧
    T.new double (h'.rootOf exThreeDocs 4) (.str "1s".toList) = .ok ⟨((1 * 12 + 0 : ℕ) : ℚ), some ((12:ℕ):ℚ)⟩ := by
  have g : GivesTime "1s".toList 1 0 := by
    have h : T.str double ⟨((24:ℕ):ℚ), some ((24:ℕ):ℚ)⟩ = "1s".toList := by decide +kernel
    rw [← h]
    exact gives_str (n := 24) (k := 24) double_lawful (by norm_num) (by norm_num) (by norm_num)
  refine ⟨(exThree.groupAppend .animation 10 1).1, Prod.ext rfl (by decide +kernel), ?_⟩
  exact (c170_times double_lawful exThree_forest (o := .append .animation 10 1) (c := 10) (d := 10) (l := []) (k := 24) (r := 12)
    (exThree_holder (.inl rfl)) (by decide +kernel) (by decide +kernel) (exThree_outside (.inl rfl))
    (Prod.ext rfl (by decide +kernel)) .refl (by decide +kernel) (by decide +kernel) (by decide +kernel) (by norm_num) (by norm_num)
    ⟨.str "12".toList, by decide +kernel, by decide +kernel⟩ (z := 4)
    ((within_iff exThree_forest).2 (by decide +kernel)) g (by norm_num)).1

/-- And those of `c170_faster`. -/
example : ∃ h' l l', exThree.groupAppend .animation 11 1 = (h', .ok ()) ∧
    iterTimeline double ⟨exThree.rootOf exThreeDocs 3, true⟩ (exThree.node 3) = .ok l ∧ l.length = 2 ∧
    iterTimeline double ⟨h'.rootOf exThreeDocs 3, true⟩ (h'.node 3) = .ok l' ∧ l'.length = 2 := by
  have g1 : GivesTime "23f".toList 0 23 := by
    have h : T.str double ⟨((23:ℕ):ℚ), some ((24:ℕ):ℚ)⟩ = "23f".toList := by decide +kernel
    rw [← h]
    exact gives_str (n := 23) (k := 24) double_lawful (by norm_num) (by norm_num) (by norm_num)
  have g2 : GivesTime "1s".toList 1 0 := by
    have h : T.str double ⟨((24:ℕ):ℚ), some ((24:ℕ):ℚ)⟩ = "1s".toList := by decide +kernel
    rw [← h]
    exact gives_str (n := 24) (k := 24) double_lawful (by norm_num) (by norm_num) (by norm_num)
  have hnode : exThree.node 3 = exEdge := by decide +kernel
  have hro : exThree.rootOf exThreeDocs 3 = some [("fps", .str "24".toList)] := by decide +kernel
  refine ⟨(exThree.groupAppend .animation 11 1).1, ?_⟩
  obtain ⟨l, l', e1, e2, e3, e4⟩ := c170_faster double_lawful exThree_forest (o := .append .animation 11 1) (c := 11) (d := 11)
    (d₀ := 0) (l := []) (docs := exThreeDocs) (k := 24) (r := 30) (h' := (exThree.groupAppend .animation 11 1).1)
    (exThree_holder (.inr rfl)) (by decide +kernel) (by decide +kernel) (exThree_outside (.inr rfl))
    (Prod.ext rfl (by decide +kernel)) .refl (by decide +kernel) (by decide +kernel) (by decide +kernel)
    ((within_iff exThree_forest).2 (by decide +kernel)) (by decide +kernel) (by decide +kernel) (by decide +kernel)
    (by norm_num) (by norm_num) ⟨.str "24".toList, by decide +kernel, by decide +kernel⟩
    ⟨.str "30".toList, by decide +kernel, by decide +kernel⟩ (z := 3)
    ((within_iff exThree_forest).2 (by decide +kernel)) (par := true) (ty := "real".toList)
    (ws := [⟨⟨24, some 24⟩, "clamped".toList, "ease".toList, .tag "real" [("value", .str "2".toList)] []⟩,
      ⟨⟨23, some 24⟩, "clamped".toList, "ease".toList, .tag "real" [("value", .str "1".toList)] []⟩])
    (by rw [hnode]; rfl) (by rw [hnode]; rfl)
    (by
      rw [hnode, hro]
      have : exEdge.tagKids = [exWp "1s" "2", exWp "23f" "1"] := rfl
      rw [this]
      exact .cons ⟨exWp_element (by decide +kernel), _, _, _, rfl, g2, by norm_num, by norm_num⟩
        (.cons ⟨exWp_element (by decide +kernel), _, _, _, rfl, g1, by norm_num, by norm_num⟩ .nil))
    (by simp)
  exact ⟨l, l', Prod.ext rfl (by decide +kernel), e1, e2.length_eq, e3, e4.length_eq ▸ e2.length_eq⟩

/-- A layer that isn't in a document. -/
def exLoose : Dom :=
  (Dom.empty.alloc (.tag "layer" [("type", .str "circle".toList)] [.tag "param" [("name", .str "amount".toList)] [exEdge]])).1

/-- And of `c170_loose`. -/
example : exLoose.node 2 = exEdge ∧ T.new double (exLoose.rootOf (fun _ => false) 2) (.str "1s".toList) = .error .value := by
  have g : GivesTime "1s".toList 1 0 := by
    have h : T.str double ⟨((24:ℕ):ℚ), some ((24:ℕ):ℚ)⟩ = "1s".toList := by decide +kernel
    rw [← h]
    exact gives_str (n := 24) (k := 24) double_lawful (by norm_num) (by norm_num) (by norm_num)
  have hf : Forest exLoose := (alloc_made forest_empty _).forest
  exact ⟨by decide +kernel, c170_loose double_lawful hf (x := 0) (z := 2) ((within_iff hf).2 (by decide +kernel))
    (by decide +kernel) rfl (by decide +kernel) g (by norm_num)⟩

end Dom

end Sang
